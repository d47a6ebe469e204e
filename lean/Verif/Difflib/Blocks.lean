import Verif.Difflib.Longest

/-!
# C52: matching blocks; C51: opcodes
-/

namespace Verif.Difflib

variable {α : Type} [DecidableEq α]

/-! ### Blocks in order -/

/-- Non-empty common blocks within `a[alo:ahi]`, `b[blo:bhi]`, each beyond the one before. -/
def Ordered (a b : List α) (ahi bhi : Nat) : Nat → Nat → List Match → Prop
  | alo, blo, [] => alo ≤ ahi ∧ blo ≤ bhi
  | alo, blo, x :: xs => alo ≤ x.A ∧ blo ≤ x.B ∧ 0 < x.Size ∧ Common a b (fun _ => True) x.A x.B x.Size ∧
      Ordered a b ahi bhi (x.A + x.Size) (x.B + x.Size) xs

omit [DecidableEq α] in
theorem Ordered.le {a b : List α} {ahi bhi : Nat} : ∀ {xs : List Match} {alo blo : Nat}, Ordered a b ahi bhi alo blo xs →
    alo ≤ ahi ∧ blo ≤ bhi := by
  intro xs
  induction xs with
  | nil => intro alo blo h; exact h
  | cons x xs ih =>
    intro alo blo h
    obtain ⟨h1, h2, h3, _, h5⟩ := h
    have := ih h5
    omega

omit [DecidableEq α] in
theorem Ordered.lower {a b : List α} {ahi bhi alo blo alo' blo' : Nat} {xs : List Match} (h : Ordered a b ahi bhi alo blo xs)
    (h1 : alo' ≤ alo) (h2 : blo' ≤ blo) : Ordered a b ahi bhi alo' blo' xs := by
  cases xs with
  | nil => exact ⟨Nat.le_trans h1 h.1, Nat.le_trans h2 h.2⟩
  | cons x xs =>
    exact ⟨Nat.le_trans h1 h.1, Nat.le_trans h2 h.2.1, h.2.2⟩

omit [DecidableEq α] in
theorem Ordered.append {a b : List α} {ahi bhi : Nat} : ∀ {l r : List Match} {i j alo blo : Nat},
    Ordered a b i j alo blo l → Ordered a b ahi bhi i j r → Ordered a b ahi bhi alo blo (l ++ r) := by
  intro l
  induction l with
  | nil => intro r i j alo blo h1 h2; exact h2.lower h1.1 h1.2
  | cons x l ih =>
    intro r i j alo blo h1 h2
    obtain ⟨g1, g2, g3, g4, g5⟩ := h1
    exact ⟨g1, g2, g3, g4, ih g5 h2⟩

theorem matchBlocks_ordered {keep : α → Prop} (m : Seqs α) (hm : m.Good keep) : ∀ (fuel alo ahi blo bhi : Nat),
    alo ≤ ahi → blo ≤ bhi → ahi - alo < fuel →
    ∃ l, matchBlocks m fuel alo ahi blo bhi = some l ∧ Ordered m.a m.b ahi bhi alo blo l := by
  intro fuel
  induction fuel with
  | zero => intro alo ahi blo bhi _ _ h; omega
  | succ fuel ih =>
    intro alo ahi blo bhi ha hb hf
    rw [matchBlocks]
    obtain ⟨hblk, _⟩ := findLongestMatch_sound m hm alo ahi blo bhi ha hb
    generalize findLongestMatch m alo ahi blo bhi = x at hblk
    have h1 := hblk.ilo; have h2 := hblk.ihi; have h3 := hblk.jlo; have h4 := hblk.jhi
    by_cases hx : 0 < x.Size
    · rw [if_pos hx]
      have hleft : ∃ l, (if alo < x.A ∧ blo < x.B then matchBlocks m fuel alo x.A blo x.B else some []) = some l ∧
          Ordered m.a m.b x.A x.B alo blo l := by
        by_cases hc : alo < x.A ∧ blo < x.B
        · rw [if_pos hc]; exact ih alo x.A blo x.B h1 h3 (by omega)
        · rw [if_neg hc]; exact ⟨[], rfl, h1, h3⟩
      have hright : ∃ r, (if x.A + x.Size < ahi ∧ x.B + x.Size < bhi then
          matchBlocks m fuel (x.A + x.Size) ahi (x.B + x.Size) bhi else some []) = some r ∧
          Ordered m.a m.b ahi bhi (x.A + x.Size) (x.B + x.Size) r := by
        by_cases hc : x.A + x.Size < ahi ∧ x.B + x.Size < bhi
        · rw [if_pos hc]; exact ih _ ahi _ bhi h2 h4 (by omega)
        · rw [if_neg hc]; exact ⟨[], rfl, h2, h4⟩
      obtain ⟨l, hl, hol⟩ := hleft
      obtain ⟨r, hr, hor⟩ := hright
      rw [hl, hr]
      exact ⟨_, rfl, hol.append (r := x :: r) ⟨Nat.le_refl _, Nat.le_refl _, hx, hblk.common, hor⟩⟩
    · rw [if_neg hx]
      exact ⟨[], rfl, ha, hb⟩

/-! ### Joining adjacent blocks -/

/-- The second block does not follow the first immediately in both sequences. -/
def NotAdjacent (x y : Match) : Prop := ¬(x.A + x.Size = y.A ∧ x.B + x.Size = y.B)

/-- Sum of the sizes. -/
def total (xs : List Match) : Nat := (xs.map Match.Size).sum

omit [DecidableEq α] in
theorem collapse_spec (a b : List α) (ahi bhi : Nat) : ∀ (xs : List Match) (cur : Match), 0 < cur.Size →
    Common a b (fun _ => True) cur.A cur.B cur.Size →
    Ordered a b ahi bhi (cur.A + cur.Size) (cur.B + cur.Size) xs →
    ∃ k ys, collapse cur xs = ⟨cur.A, cur.B, k⟩ :: ys ∧ cur.Size ≤ k ∧
      Ordered a b ahi bhi cur.A cur.B (⟨cur.A, cur.B, k⟩ :: ys) ∧
      (⟨cur.A, cur.B, k⟩ :: ys).IsChain NotAdjacent ∧ k + total ys = cur.Size + total xs := by
  intro xs
  induction xs with
  | nil =>
    intro cur h1 h2 h3
    refine ⟨cur.Size, [], by rw [collapse, if_pos h1], Nat.le_refl _, ⟨Nat.le_refl _, Nat.le_refl _, h1, h2, h3⟩, ?_, rfl⟩
    exact .singleton _
  | cons x xs ih =>
    intro cur h1 h2 h3
    obtain ⟨g1, g2, g3, g4, g5⟩ := h3
    rw [collapse]
    by_cases hadj : cur.A + cur.Size = x.A ∧ cur.B + cur.Size = x.B
    · rw [if_pos hadj]
      obtain ⟨k, ys, e1, e2, e3, e4, e5⟩ := ih { cur with Size := cur.Size + x.Size } (by simp only; omega)
        (by
          simp only
          refine h2.append ?_
          rw [hadj.1, hadj.2]; exact g4)
        (by
          simp only
          rw [show cur.A + (cur.Size + x.Size) = x.A + x.Size by omega, show cur.B + (cur.Size + x.Size) = x.B + x.Size by omega]
          exact g5)
      simp only at e1 e2 e3 e4 e5
      refine ⟨k, ys, e1, by omega, e3, e4, ?_⟩
      simp only [total, List.map_cons, List.sum_cons] at *
      omega
    · rw [if_neg hadj, if_pos h1]
      obtain ⟨k, ys, e1, e2, e3, e4, e5⟩ := ih x g3 g4 g5
      refine ⟨cur.Size, ⟨x.A, x.B, k⟩ :: ys, by rw [e1]; rfl, Nat.le_refl _,
        ⟨Nat.le_refl _, Nat.le_refl _, h1, h2, e3.lower g1 g2⟩, ?_, ?_⟩
      · exact List.isChain_cons_cons.mpr ⟨hadj, e4⟩
      · simp only [total, List.map_cons, List.sum_cons] at *
        omega

omit [DecidableEq α] in
theorem collapse_start (a b : List α) (ahi bhi : Nat) (xs : List Match) (h : Ordered a b ahi bhi 0 0 xs) :
    Ordered a b ahi bhi 0 0 (collapse ⟨0, 0, 0⟩ xs) ∧ (collapse ⟨0, 0, 0⟩ xs).IsChain NotAdjacent ∧
      total (collapse ⟨0, 0, 0⟩ xs) = total xs := by
  cases xs with
  | nil => exact ⟨h, .nil, rfl⟩
  | cons x xs =>
    obtain ⟨g1, g2, g3, g4, g5⟩ := h
    have hc : collapse ⟨0, 0, 0⟩ (x :: xs) = collapse x xs := by
      rw [collapse]
      by_cases hadj : 0 + 0 = x.A ∧ 0 + 0 = x.B
      · rw [if_pos hadj]
        have : (⟨0, 0, 0 + x.Size⟩ : Match) = x := by
          obtain ⟨A, B, S⟩ := x
          simp only at hadj
          simp only [Match.mk.injEq]
          omega
        rw [this]
      · rw [if_neg hadj]; rfl
    rw [hc]
    obtain ⟨k, ys, e1, e2, e3, e4, e5⟩ := collapse_spec a b ahi bhi xs x g3 g4 g5
    rw [e1]
    refine ⟨e3.lower g1 g2, e4, ?_⟩
    simp only [total, List.map_cons, List.sum_cons] at *
    omega

/-- `GetMatchingBlocks` returns. -/
theorem matchingBlocks_spec {keep : α → Prop} (m : Seqs α) (hm : m.Good keep) :
    ∃ bs, matchingBlocks m = some (bs ++ [⟨m.a.length, m.b.length, 0⟩]) ∧
      Ordered m.a m.b m.a.length m.b.length 0 0 bs ∧ bs.IsChain NotAdjacent := by
  obtain ⟨l, hl, ho⟩ := matchBlocks_ordered m hm (m.a.length + 1) 0 m.a.length 0 m.b.length (Nat.zero_le _) (Nat.zero_le _) (by omega)
  obtain ⟨h1, h2, _⟩ := collapse_start m.a m.b _ _ l ho
  exact ⟨_, by rw [matchingBlocks, hl]; rfl, h1, h2⟩

/-! ### C52, in terms of the result alone -/

/-- The second block begins beyond the end of the first in both sequences. -/
def Beyond (x y : Match) : Prop := x.A + x.Size ≤ y.A ∧ x.B + x.Size ≤ y.B

omit [DecidableEq α] in
theorem Ordered.all {a b : List α} {ahi bhi : Nat} : ∀ {xs : List Match} {alo blo : Nat}, Ordered a b ahi bhi alo blo xs →
    (∀ x ∈ xs, alo ≤ x.A ∧ blo ≤ x.B ∧ 0 < x.Size ∧ x.A + x.Size ≤ ahi ∧ x.B + x.Size ≤ bhi ∧
      Common a b (fun _ => True) x.A x.B x.Size) ∧ xs.Pairwise Beyond := by
  intro xs
  induction xs with
  | nil => intro alo blo h; exact ⟨by simp, List.Pairwise.nil⟩
  | cons x xs ih =>
    intro alo blo h
    obtain ⟨g1, g2, g3, g4, g5⟩ := h
    have hle := g5.le
    obtain ⟨h1, h2⟩ := ih g5
    refine ⟨?_, List.pairwise_cons.mpr ⟨fun y hy => ⟨(h1 y hy).1, (h1 y hy).2.1⟩, h2⟩⟩
    intro y hy
    rcases List.mem_cons.mp hy with rfl | hy
    · exact ⟨g1, g2, g3, hle.1, hle.2, g4⟩
    · obtain ⟨k1, k2, k3⟩ := h1 y hy
      exact ⟨by omega, by omega, k3⟩

/-- C52: the matching blocks of any two sequences, for every junk function. -/
theorem matching_blocks (a b : List α) (autoJunk : Bool) (isJunk : Option (α → Bool)) :
    ∃ bs, matchingBlocks (newMatcher a b autoJunk isJunk) = some (bs ++ [⟨a.length, b.length, 0⟩]) ∧
      (∀ x ∈ bs, 0 < x.Size ∧ x.A + x.Size ≤ a.length ∧ x.B + x.Size ≤ b.length ∧
        ∀ t, t < x.Size → a[x.A + t]? = b[x.B + t]?) ∧
      bs.Pairwise Beyond ∧ bs.IsChain NotAdjacent := by
  obtain ⟨hg, ha, hb, _⟩ := newMatcher_good a b autoJunk isJunk
  obtain ⟨bs, h1, h2, h3⟩ := matchingBlocks_spec _ hg
  rw [ha, hb] at h1 h2
  obtain ⟨h4, h5⟩ := h2.all
  refine ⟨bs, h1, ?_, h5, h3⟩
  intro x hx
  obtain ⟨_, _, k1, k2, k3, k4⟩ := h4 x hx
  refine ⟨k1, k2, k3, fun t ht => ?_⟩
  obtain ⟨y, e1, e2, _⟩ := k4 t ht
  rw [e1, e2]

example : matchingBlocks (newMatcher (asc "qabxcd") (asc "abycdf") true none) =
    some [⟨1, 0, 2⟩, ⟨4, 3, 2⟩, ⟨6, 6, 0⟩] := by decide +kernel

/-- With junk, adjacent blocks do arise and are joined. -/
example : matchBlocks (newMatcher (asc "x yz w") (asc "x yz w") true (some fun c => c = 32)) 7 0 6 0 6 =
      some [⟨0, 0, 1⟩, ⟨1, 1, 4⟩, ⟨5, 5, 1⟩] ∧
    matchingBlocks (newMatcher (asc "x yz w") (asc "x yz w") true (some fun c => c = 32)) =
      some [⟨0, 0, 6⟩, ⟨6, 6, 0⟩] := by decide +kernel

/-! ### C51: opcodes -/

/-- `l[i:j]`. -/
def slice (l : List α) (i j : Nat) : List α := (l.drop i).take (j - i)

/-- Carrying out opcodes: the new sequence. -/
def applyCodes (a b : List α) (codes : List OpCode) : List α :=
  codes.flatMap fun c => match c.Tag with
    | .e => slice a c.I1 c.I2
    | .d => []
    | .r => slice b c.J1 c.J2
    | .i => slice b c.J1 c.J2

/-- Each opcode does what its tag says. -/
def ValidCode (a b : List α) (c : OpCode) : Prop :=
  match c.Tag with
  | .e => c.I1 < c.I2 ∧ c.J1 < c.J2 ∧ slice a c.I1 c.I2 = slice b c.J1 c.J2
  | .d => c.I1 < c.I2 ∧ c.J1 = c.J2
  | .i => c.I1 = c.I2 ∧ c.J1 < c.J2
  | .r => c.I1 < c.I2 ∧ c.J1 < c.J2

/-- The opcodes cover `a` from `i` on and `b` from `j` on, piece by piece. -/
def Tiles (la lb : Nat) : Nat → Nat → List OpCode → Prop
  | i, j, [] => i = la ∧ j = lb
  | i, j, c :: cs => c.I1 = i ∧ c.J1 = j ∧ Tiles la lb c.I2 c.J2 cs

/-- Exactly one of two neighbouring opcodes is an equal one. -/
def Alternate (c d : OpCode) : Prop := c.Tag = .e ↔ d.Tag ≠ .e

omit [DecidableEq α] in
theorem slice_eq_of_common (a b : List α) : ∀ (k i j : Nat), Common a b (fun _ => True) i j k → slice a i (i + k) = slice b j (j + k) := by
  intro k
  induction k with
  | zero => intro i j _; simp [slice]
  | succ k ih =>
    intro i j h
    obtain ⟨x, h1, h2, _⟩ := h 0 (by omega)
    have h' : Common a b (fun _ => True) (i + 1) (j + 1) k := by
      intro t ht
      have := h (t + 1) (by omega)
      rw [show i + (t + 1) = i + 1 + t by omega, show j + (t + 1) = j + 1 + t by omega] at this
      exact this
    have step : ∀ (l : List α) (i : Nat), l[i]? = some x → slice l i (i + (k + 1)) = x :: slice l (i + 1) (i + 1 + k) := by
      intro l i hl
      unfold slice
      obtain ⟨hlt, hx⟩ := List.getElem?_eq_some_iff.mp hl
      rw [List.drop_eq_getElem_cons hlt, hx]
      rw [show i + (k + 1) - i = (i + 1 + k - (i + 1)) + 1 by omega, List.take_succ_cons]
    rw [step a i h1, step b j h2, ih _ _ h']

omit [DecidableEq α] in
theorem slice_append (l : List α) (i j k : Nat) (h1 : i ≤ j) (h2 : j ≤ k) : slice l i j ++ slice l j k = slice l i k := by
  unfold slice
  rw [show k - i = (j - i) + (k - j) by omega, List.take_add, List.drop_drop, show i + (j - i) = j by omega]

omit [DecidableEq α] in
/-- What the opcodes before and with a block do. -/
theorem gapCode_cases (i j ai bj : Nat) (h1 : i ≤ ai) (h2 : j ≤ bj) :
    (gapCode i j ai bj = [] ∧ i = ai ∧ j = bj) ∨
    ∃ c, gapCode i j ai bj = [c] ∧ c.Tag ≠ .e ∧ c.I1 = i ∧ c.I2 = ai ∧ c.J1 = j ∧ c.J2 = bj ∧
      ∀ a b : List α, ValidCode a b c := by
  unfold gapCode
  by_cases hr : i < ai ∧ j < bj
  · rw [if_pos hr]; right; exact ⟨_, rfl, by simp, rfl, rfl, rfl, rfl, fun _ _ => hr⟩
  · rw [if_neg hr]
    by_cases hd : i < ai
    · rw [if_pos hd]; right
      exact ⟨_, rfl, by simp, rfl, rfl, rfl, rfl, fun _ _ => ⟨hd, by simp only; omega⟩⟩
    · rw [if_neg hd]
      by_cases hi : j < bj
      · rw [if_pos hi]; right
        exact ⟨_, rfl, by simp, rfl, rfl, rfl, rfl, fun _ _ => ⟨by simp only; omega, hi⟩⟩
      · rw [if_neg hi]; left; exact ⟨rfl, by omega, by omega⟩

/-- Properties of opcode lists between (i, j) and the ends. -/
structure GoodCodes (a b : List α) (i j : Nat) (codes : List OpCode) : Prop where
  tiles : Tiles a.length b.length i j codes
  valid : ∀ c ∈ codes, ValidCode a b c
  alternate : codes.IsChain Alternate

omit [DecidableEq α] in
/-- The opcodes for blocks in order. -/
theorem opCodesLoop_good (a b : List α) : ∀ (bs : List Match) (i j : Nat),
    Ordered a b a.length b.length i j bs → bs.IsChain NotAdjacent →
    GoodCodes a b i j (opCodesLoop i j (bs ++ [⟨a.length, b.length, 0⟩])) ∧
    (∀ c, (opCodesLoop i j (bs ++ [⟨a.length, b.length, 0⟩])).head? = some c → c.Tag = .e →
      ∃ x, bs.head? = some x ∧ x.A = i ∧ x.B = j) := by
  intro bs
  induction bs with
  | nil =>
    intro i j h _
    rw [List.nil_append, opCodesLoop]
    simp only [Nat.lt_irrefl, if_false, List.append_nil, opCodesLoop]
    rcases gapCode_cases (α := α) i j a.length b.length h.1 h.2 with ⟨e, h1, h2⟩ | ⟨c, e, h1, h2, h3, h4, h5, h6⟩
    · rw [e]
      exact ⟨⟨⟨h1, h2⟩, by simp, .nil⟩, by simp⟩
    · rw [e]
      refine ⟨⟨⟨h2, h4, by simp [h3], by simp [h5]⟩, by simpa using h6 a b, .singleton _⟩, ?_⟩
      intro d hd he
      simp only [List.head?_cons, Option.some.injEq] at hd
      subst hd
      exact absurd he h1
  | cons x bs ih =>
    intro i j h hadj
    obtain ⟨g1, g2, g3, g4, g5⟩ := h
    have hadj' : bs.IsChain NotAdjacent := by cases bs with | nil => exact .nil | cons y bs => exact (List.isChain_cons_cons.mp hadj).2
    obtain ⟨⟨t1, t2, t3⟩, t4⟩ := ih (x.A + x.Size) (x.B + x.Size) g5 hadj'
    rw [List.cons_append, opCodesLoop, if_pos g3, List.append_assoc]
    -- the opcodes after the block begin with a change
    have hnext : ∀ c, (opCodesLoop (x.A + x.Size) (x.B + x.Size) (bs ++ [⟨a.length, b.length, 0⟩])).head? = some c → c.Tag ≠ .e := by
      intro c hc he
      obtain ⟨y, hy, e1, e2⟩ := t4 c hc he
      cases bs with
      | nil => simp at hy
      | cons z bs =>
        simp only [List.head?_cons, Option.some.injEq] at hy
        subst hy
        exact (List.isChain_cons_cons.mp hadj).1 ⟨e1.symm, e2.symm⟩
    have hvE : ValidCode a b ⟨.e, x.A, x.A + x.Size, x.B, x.B + x.Size⟩ :=
      ⟨by simp only; omega, by simp only; omega, slice_eq_of_common a b _ _ _ g4⟩
    have tail : GoodCodes a b x.A x.B (⟨.e, x.A, x.A + x.Size, x.B, x.B + x.Size⟩ ::
        opCodesLoop (x.A + x.Size) (x.B + x.Size) (bs ++ [⟨a.length, b.length, 0⟩])) := by
      refine ⟨⟨rfl, rfl, t1⟩, ?_, ?_⟩
      · intro c hc
        rcases List.mem_cons.mp hc with rfl | hc
        · exact hvE
        · exact t2 c hc
      · cases hl : opCodesLoop (x.A + x.Size) (x.B + x.Size) (bs ++ [⟨a.length, b.length, 0⟩]) with
        | nil => exact .singleton _
        | cons c cs =>
          rw [hl] at t3
          refine List.isChain_cons_cons.mpr ⟨?_, t3⟩
          have := hnext c (by rw [hl]; rfl)
          unfold Alternate
          simp [this]
    rcases gapCode_cases (α := α) i j x.A x.B g1 g2 with ⟨e, h1, h2⟩ | ⟨c, e, h1, h2, h3, h4, h5, h6⟩
    · rw [e, List.nil_append]
      refine ⟨by rw [h1, h2]; exact tail, ?_⟩
      intro d _ _
      exact ⟨x, rfl, h1.symm, h2.symm⟩
    · rw [e]
      refine ⟨⟨⟨h2, h4, ?_⟩, ?_, ?_⟩, ?_⟩
      · rw [h3, h5]; exact tail.tiles
      · intro d hd
        rcases List.mem_cons.mp hd with rfl | hd
        · exact h6 a b
        · exact tail.valid d hd
      · refine List.isChain_cons_cons.mpr ⟨?_, tail.alternate⟩
        unfold Alternate
        simp [h1]
      · intro d hd he
        simp only [List.cons_append, List.head?_cons, Option.some.injEq] at hd
        subst hd
        exact absurd he h1

omit [DecidableEq α] in
/-- Valid tiling opcodes turn the rest of `a` into the rest of `b`. -/
theorem applyCodes_tiles (a b : List α) : ∀ (codes : List OpCode) (i j : Nat), Tiles a.length b.length i j codes →
    (∀ c ∈ codes, ValidCode a b c) → j ≤ b.length ∧ applyCodes a b codes = b.drop j := by
  intro codes
  induction codes with
  | nil =>
    intro i j h _
    refine ⟨Nat.le_of_eq h.2, ?_⟩
    rw [h.2, List.drop_length]
    rfl
  | cons c cs ih =>
    intro i j h hv
    obtain ⟨h1, h2, h3⟩ := h
    obtain ⟨ih1, ih2⟩ := ih c.I2 c.J2 h3 (fun d hd => hv d (List.mem_cons_of_mem _ hd))
    have hc := hv c (List.mem_cons_self ..)
    have hle : c.J1 ≤ c.J2 := by
      unfold ValidCode at hc
      cases ht : c.Tag <;> rw [ht] at hc <;> simp only at hc <;> omega
    have hpiece : (match c.Tag with
        | .e => slice a c.I1 c.I2
        | .d => []
        | .r => slice b c.J1 c.J2
        | .i => slice b c.J1 c.J2) = slice b c.J1 c.J2 := by
      unfold ValidCode at hc
      cases ht : c.Tag <;> rw [ht] at hc <;> simp only at hc ⊢
      · rw [hc.2]; simp [slice]
      · exact hc.2.2
    subst h2
    refine ⟨by omega, ?_⟩
    show (match c.Tag with
        | .e => slice a c.I1 c.I2
        | .d => []
        | .r => slice b c.J1 c.J2
        | .i => slice b c.J1 c.J2) ++ applyCodes a b cs = b.drop c.J1
    rw [hpiece, ih2]
    have h4 : b.drop c.J2 = slice b c.J2 b.length := by
      unfold slice; rw [List.take_of_length_le]; simp
    have h5 : b.drop c.J1 = slice b c.J1 b.length := by
      unfold slice; rw [List.take_of_length_le]; simp
    rw [h4, h5, slice_append b _ _ _ hle ih1]

/-- C51: the opcodes of any two sequences, for every junk function: carried out on `a` they
give `b`; they cover both sequences piece by piece; each does what its tag says; and
equal opcodes and changes alternate. -/
theorem opcodes_correct (a b : List α) (autoJunk : Bool) (isJunk : Option (α → Bool)) :
    ∃ codes, opCodes (newMatcher a b autoJunk isJunk) = some codes ∧ applyCodes a b codes = b ∧
      Tiles a.length b.length 0 0 codes ∧ (∀ c ∈ codes, ValidCode a b c) ∧ codes.IsChain Alternate := by
  obtain ⟨hg, ha, hb, _⟩ := newMatcher_good a b autoJunk isJunk
  obtain ⟨bs, h1, h2, h3⟩ := matchingBlocks_spec _ hg
  rw [ha, hb] at h1 h2
  obtain ⟨⟨g1, g2, g3⟩, _⟩ := opCodesLoop_good a b bs 0 0 h2 h3
  refine ⟨_, by rw [opCodes, h1]; rfl, ?_, g1, g2, g3⟩
  exact (applyCodes_tiles a b _ 0 0 g1 g2).2

example : opCodes (newMatcher (asc "qabxcd") (asc "abycdf") true none) =
    some [⟨.d, 0, 1, 0, 0⟩, ⟨.e, 1, 3, 0, 2⟩, ⟨.r, 3, 4, 2, 3⟩, ⟨.e, 4, 6, 3, 5⟩, ⟨.i, 6, 6, 5, 6⟩] := by decide +kernel

end Verif.Difflib
