import Verif.Difflib.Blocks
import Mathlib.Data.List.Chain

/-!
# C55: grouped opcodes

Model of `GetGroupedOpCodes` in test/go-difflib/difflib/difflib.go, computing in `Nat` (sums
that do not overflow); `Overflow.lean` has the version with 64-bit `int`s.
-/

namespace Verif.Difflib

variable {α : Type} [DecidableEq α]

/-! ### Model -/

/-- `if n < 0 { n = 3 }`, difflib.go 414-416. -/
def contextSize (n : Int) : Nat := if n < 0 then 3 else n.toNat

/-- The last `n` lines of an equal opcode, difflib.go 425 and 444 (`max(i1, i2-n)` is never negative). -/
def lastLines (n : Nat) (c : OpCode) : OpCode := ⟨c.Tag, max c.I1 (c.I2 - n), c.I2, max c.J1 (c.J2 - n), c.J2⟩

/-- Its first `n` lines, difflib.go 430 and 440-441. -/
def firstLines (n : Nat) (c : OpCode) : OpCode := ⟨c.Tag, c.I1, min c.I2 (c.I1 + n), c.J1, min c.J2 (c.J1 + n)⟩

/-- The fixup of the leading opcode, difflib.go 422-426. -/
def fixFirst (n : Nat) : List OpCode → List OpCode
  | [] => []
  | c :: cs => (if c.Tag = .e then lastLines n c else c) :: cs

/-- The fixup of the trailing opcode, difflib.go 427-431. -/
def fixLast (n : Nat) : List OpCode → List OpCode
  | [] => []
  | [c] => [if c.Tag = .e then firstLines n c else c]
  | c :: d :: cs => c :: fixLast n (d :: cs)

/-- The loop, difflib.go 433-450, with the end of the last group; `group` is the current one. -/
def groupLoop (n : Nat) (group : List OpCode) : List OpCode → List (List OpCode)
  | [] => if 0 < group.length ∧ ¬(group.length = 1 ∧ (group.head?.map OpCode.Tag) = some .e) then [group] else []
  | c :: cs =>
    if c.Tag = .e ∧ n + n < c.I2 - c.I1 then (group ++ [firstLines n c]) :: groupLoop n [lastLines n c] cs
    else groupLoop n (group ++ [c]) cs

/-- `GetGroupedOpCodes` from the opcodes, difflib.go 413-452: the opcodes as it leaves them in the
slice of the cache (unchanged if there are none), and the groups. -/
def groupedOpCodes (n : Int) (codes : List OpCode) : List OpCode × List (List OpCode) :=
  let k := contextSize n
  if codes = [] then (codes, groupLoop k [] (fixLast k (fixFirst k [⟨.e, 0, 1, 0, 1⟩])))
  else (fixLast k (fixFirst k codes), groupLoop k [] (fixLast k (fixFirst k codes)))

/-! ### Specification -/

/-- Like `ValidCode`, equal opcodes may be empty. -/
def ValidPart (a b : List α) (c : OpCode) : Prop :=
  match c.Tag with
  | .e => c.I1 ≤ c.I2 ∧ c.J1 ≤ c.J2 ∧ c.I2 - c.I1 = c.J2 - c.J1 ∧ slice a c.I1 c.I2 = slice b c.J1 c.J2
  | .d => c.I1 < c.I2 ∧ c.J1 = c.J2
  | .i => c.I1 = c.I2 ∧ c.J1 < c.J2
  | .r => c.I1 < c.I2 ∧ c.J1 < c.J2

/-- A group covers `a[i1:i2]` and `b[j1:j2]` without gaps, contains a change, and has `n`
lines of context on both sides, less only at the ends of the sequences. -/
structure GoodGroup (a b : List α) (n i1 j1 i2 j2 : Nat) (g : List OpCode) : Prop where
  within : i2 ≤ a.length ∧ j2 ≤ b.length
  tiles : Tiles i2 j2 i1 j1 g
  valid : ∀ c ∈ g, ValidPart a b c
  alternate : g.IsChain Alternate
  change : ∃ c ∈ g, c.Tag ≠ .e
  context : ∀ c ∈ g, c.Tag = .e → c.I2 - c.I1 ≤ n + n
  first : ∀ c, g.head? = some c → (c.Tag = .e ∧ c.I2 - c.I1 = n) ∨ (i1 = 0 ∧ j1 = 0 ∧ (c.Tag = .e → c.I2 - c.I1 ≤ n))
  last : ∀ c, g.getLast? = some c → (c.Tag = .e ∧ c.I2 - c.I1 = n) ∨
    (i2 = a.length ∧ j2 = b.length ∧ (c.Tag = .e → c.I2 - c.I1 ≤ n))

/-- Groups in order; what lies before, between and after them is the same in `a` and `b`. -/
def Hunks (a b : List α) (n : Nat) : Nat → Nat → List (List OpCode) → Prop
  | i, j, [] => a.drop i = b.drop j
  | i, j, g :: gs => ∃ i1 j1 i2 j2, i ≤ i1 ∧ j ≤ j1 ∧ slice a i i1 = slice b j j1 ∧ ((i = 0 ∧ j = 0) ∨ i < i1) ∧
      GoodGroup a b n i1 j1 i2 j2 g ∧ Hunks a b n i2 j2 gs

/-- The changes. -/
def changes (codes : List OpCode) : List OpCode := codes.filter fun c => c.Tag ≠ .e

/-! ### Proof -/

/-- Every opcode of a tiling ends at or before its end. -/
theorem Tiles.le_end {α : Type} {a b : List α} {la lb : Nat} : ∀ {cs : List OpCode} {i j : Nat}, Tiles la lb i j cs →
    (∀ c ∈ cs, ValidPart a b c) → i ≤ la ∧ j ≤ lb ∧ ∀ c ∈ cs, c.I2 ≤ la ∧ c.J2 ≤ lb := by
  intro cs
  induction cs with
  | nil => intro i j h _; exact ⟨Nat.le_of_eq h.1, Nat.le_of_eq h.2, by simp⟩
  | cons c cs ih =>
    intro i j h hv
    obtain ⟨h1, h2, h3⟩ := h
    obtain ⟨k1, k2, k3⟩ := ih h3 (fun d hd => hv d (List.mem_cons_of_mem _ hd))
    have hc := hv c (List.mem_cons_self ..)
    have : c.I1 ≤ c.I2 ∧ c.J1 ≤ c.J2 := by
      unfold ValidPart at hc
      cases ht : c.Tag <;> rw [ht] at hc <;> simp only at hc <;> omega
    refine ⟨by omega, by omega, ?_⟩
    intro d hd
    rcases List.mem_cons.mp hd with rfl | hd
    · exact ⟨k1, k2⟩
    · exact k3 d hd

theorem changes_append (x y : List OpCode) : changes (x ++ y) = changes x ++ changes y := by simp [changes]

theorem Tiles.append {la lb : Nat} : ∀ {x y : List OpCode} {i j k l : Nat}, Tiles k l i j x → Tiles la lb k l y →
    Tiles la lb i j (x ++ y) := by
  intro x
  induction x with
  | nil => intro y i j k l h1 h2; obtain ⟨rfl, rfl⟩ := h1; exact h2
  | cons c x ih => intro y i j k l h1 h2; exact ⟨h1.1, h1.2.1, ih h1.2.2 h2⟩

omit [DecidableEq α] in
theorem slice_sub (l : List α) (i j p q : Nat) (h1 : i ≤ p) (h2 : q ≤ j) (_ : p ≤ q) :
    slice l p q = slice (slice l i j) (p - i) (q - i) := by
  unfold slice
  rw [List.drop_take, List.drop_drop, List.take_take]
  rw [show i + (p - i) = p by omega, show min (q - i - (p - i)) (j - i - (p - i)) = q - p by omega]

omit [DecidableEq α] in
/-- Parts at the same place of equal slices are equal. -/
theorem slice_part (a b : List α) (i1 i2 j1 j2 p q : Nat) (h : slice a i1 i2 = slice b j1 j2) (hl : i2 - i1 = j2 - j1)
    (hpq : p ≤ q) (hq : q ≤ i2 - i1) (hi : i1 ≤ i2) (hj : j1 ≤ j2) : slice a (i1 + p) (i1 + q) = slice b (j1 + p) (j1 + q) := by
  rw [slice_sub a i1 i2 (i1 + p) (i1 + q) (by omega) (by omega) (by omega),
    slice_sub b j1 j2 (j1 + p) (j1 + q) (by omega) (by omega) (by omega), h]
  rw [show i1 + p - i1 = j1 + p - j1 by omega, show i1 + q - i1 = j1 + q - j1 by omega]

theorem isChain_append_left {R : OpCode → OpCode → Prop} {x y : List OpCode} (h : (x ++ y).IsChain R) : x.IsChain R :=
  (List.isChain_append.mp h).1

theorem isChain_append_right {R : OpCode → OpCode → Prop} {x y : List OpCode} (h : (x ++ y).IsChain R) : y.IsChain R :=
  (List.isChain_append.mp h).2.1

omit [DecidableEq α] in
/-- The loop, from a current group that began at (i1, j1) and has come to (i, j). -/
theorem groupLoop_spec (a b : List α) (n la lb : Nat) (hla : la ≤ a.length) (hlb : lb ≤ b.length)
    (hend : a.drop la = b.drop lb) : ∀ (cs g : List OpCode) (i1 j1 i j p q : Nat),
    p ≤ i1 → q ≤ j1 → slice a p i1 = slice b q j1 → ((p = 0 ∧ q = 0) ∨ p < i1) →
    Tiles i j i1 j1 g → Tiles la lb i j cs → (∀ c ∈ g ++ cs, ValidPart a b c) → (g ++ cs).IsChain Alternate →
    (∃ c ∈ g ++ cs, c.Tag ≠ .e) → (∀ c ∈ g, c.Tag = .e → c.I2 - c.I1 ≤ n + n) →
    (∀ c, (g ++ cs).head? = some c → (c.Tag = .e ∧ c.I2 - c.I1 = n) ∨ (i1 = 0 ∧ j1 = 0 ∧ (c.Tag = .e → c.I2 - c.I1 ≤ n))) →
    (∀ c, (g ++ cs).getLast? = some c → (c.Tag = .e ∧ c.I2 - c.I1 = n) ∨
      (la = a.length ∧ lb = b.length ∧ (c.Tag = .e → c.I2 - c.I1 ≤ n))) →
    Hunks a b n p q (groupLoop n g cs) ∧ changes (groupLoop n g cs).flatten = changes (g ++ cs) := by
  intro cs
  induction cs with
  | nil =>
    intro g i1 j1 i j p q hp hq hs hsep ht htc hv hc hch hctx hf hl
    simp only [List.append_nil] at hv hc hch hf hl
    obtain ⟨rfl, rfl⟩ := htc
    obtain ⟨x, hx, hxe⟩ := hch
    have hcond : 0 < g.length ∧ ¬(g.length = 1 ∧ (g.head?.map OpCode.Tag) = some .e) := by
      refine ⟨List.length_pos_of_mem hx, ?_⟩
      rintro ⟨h1, h2⟩
      obtain ⟨y, rfl⟩ := List.length_eq_one_iff.mp h1
      simp only [List.mem_singleton] at hx
      subst hx
      simp at h2
      exact hxe h2
    rw [groupLoop, if_pos hcond]
    refine ⟨⟨i1, j1, i, j, hp, hq, hs, hsep, ⟨⟨hla, hlb⟩, ht, hv, hc, ⟨x, hx, hxe⟩, hctx, hf, hl⟩, hend⟩, ?_⟩
    simp
  | cons c cs ih =>
    intro g i1 j1 i j p q hp hq hs hsep ht htc hv hc hch hctx hf hl
    obtain ⟨t1, t2, t3⟩ := htc
    rw [groupLoop]
    by_cases hsplit : c.Tag = .e ∧ n + n < c.I2 - c.I1
    · rw [if_pos hsplit]
      obtain ⟨hce, hlong⟩ := hsplit
      have hvc := hv c (by simp)
      unfold ValidPart at hvc
      rw [hce] at hvc
      simp only at hvc
      obtain ⟨v1, v2, v3, v4⟩ := hvc
      -- the group is not empty
      have hg : g ≠ [] := by
        rintro rfl
        rcases hf c rfl with h | h
        · omega
        · have := h.2.2 hce; omega
      -- and something follows
      have hcs : cs ≠ [] := by
        rintro rfl
        rcases hl c (by simp) with h | h
        · omega
        · have := h.2.2 hce; omega
      have e1 : firstLines n c = ⟨.e, c.I1, c.I1 + n, c.J1, c.J1 + n⟩ := by
        unfold firstLines; rw [hce]; simp only [OpCode.mk.injEq, true_and]; omega
      have e2 : lastLines n c = ⟨.e, c.I2 - n, c.I2, c.J2 - n, c.J2⟩ := by
        unfold lastLines; rw [hce]; simp only [OpCode.mk.injEq, true_and, and_true]; omega
      have vf : ValidPart a b (firstLines n c) := by
        rw [e1]
        refine ⟨by simp only; omega, by simp only; omega, by simp only; omega, ?_⟩
        exact slice_part a b c.I1 c.I2 c.J1 c.J2 0 n v4 v3 (by omega) (by omega) v1 v2
      have vl : ValidPart a b (lastLines n c) := by
        rw [e2]
        refine ⟨by simp only; omega, by simp only; omega, by simp only; omega, ?_⟩
        have := slice_part a b c.I1 c.I2 c.J1 c.J2 (c.I2 - c.I1 - n) (c.I2 - c.I1) v4 v3 (by omega) (by omega) v1 v2
        rw [show c.I1 + (c.I2 - c.I1 - n) = c.I2 - n by omega, show c.I1 + (c.I2 - c.I1) = c.I2 by omega,
          show c.J1 + (c.I2 - c.I1 - n) = c.J2 - n by omega, show c.J1 + (c.I2 - c.I1) = c.J2 by omega] at this
        exact this
      have vm : slice a (c.I1 + n) (c.I2 - n) = slice b (c.J1 + n) (c.J2 - n) := by
        have := slice_part a b c.I1 c.I2 c.J1 c.J2 n (c.I2 - c.I1 - n) v4 v3 (by omega) (by omega) v1 v2
        rw [show c.I1 + (c.I2 - c.I1 - n) = c.I2 - n by omega, show c.J1 + (c.I2 - c.I1 - n) = c.J2 - n by omega] at this
        exact this
      -- neighbours of an equal opcode are changes
      obtain ⟨hcg, hcc, hjoin⟩ := List.isChain_append.mp hc
      obtain ⟨y, hy⟩ : ∃ y, g.getLast? = some y := ⟨_, List.getLast?_eq_some_getLast hg⟩
      have hye : y.Tag ≠ .e := by
        have := hjoin y hy c rfl
        unfold Alternate at this
        intro h
        exact (this.mp h) hce
      obtain ⟨z, cs', rfl⟩ := List.exists_cons_of_ne_nil hcs
      have hze : z.Tag ≠ .e := (List.isChain_cons_cons.mp hcc).1.mp hce
      have hrec := ih [lastLines n c] (c.I2 - n) (c.J2 - n) c.I2 c.J2 (c.I1 + n) (c.J1 + n) (by omega) (by omega) vm
        (Or.inr (by omega))
        (by rw [e2]; exact ⟨rfl, rfl, rfl, rfl⟩) t3
        (by
          intro d hd
          rcases List.mem_append.mp hd with hd | hd
          · simp only [List.mem_singleton] at hd; subst hd; exact vl
          · exact hv d (by simp only [List.mem_append, List.mem_cons] at hd ⊢; tauto))
        (by
          rw [List.singleton_append]
          refine List.isChain_cons_cons.mpr ⟨?_, (List.isChain_cons_cons.mp hcc).2⟩
          unfold Alternate; rw [e2]; simp [hze])
        ⟨z, by simp, hze⟩
        (by
          intro d hd _
          simp only [List.mem_singleton] at hd
          subst hd
          rw [e2]; simp only; omega)
        (by
          intro d hd
          simp only [List.singleton_append, List.head?_cons, Option.some.injEq] at hd
          subst hd
          left
          rw [e2]
          exact ⟨rfl, by simp only; omega⟩)
        (by
          intro d hd
          apply hl d
          rw [List.getLast?_append] at hd ⊢
          simp only [List.getLast?_cons_cons] at hd ⊢
          rw [List.getLast?_eq_some_getLast (l := z :: cs') (by simp)] at hd ⊢
          simpa using hd)
      refine ⟨⟨i1, j1, c.I1 + n, c.J1 + n, hp, hq, hs, hsep, ⟨?_, ?_, ?_, ?_, ?_, ?_, ?_, ?_⟩, hrec.1⟩, ?_⟩
      · have := t3.le_end fun d hd => hv d (List.mem_append_right _ (List.mem_cons_of_mem _ hd))
        omega
      · refine Tiles.append ht ?_
        rw [e1]
        exact ⟨t1, t2, rfl, rfl⟩
      · intro d hd
        rcases List.mem_append.mp hd with hd | hd
        · exact hv d (List.mem_append_left _ hd)
        · simp only [List.mem_singleton] at hd; subst hd; exact vf
      · refine List.isChain_append.mpr ⟨hcg, .singleton _, ?_⟩
        intro y' hy' d hd
        simp only [List.head?_cons, Option.mem_def, Option.some.injEq] at hd
        subst hd
        have : y' = y := by rw [Option.mem_def, hy] at hy'; injection hy' with h; exact h.symm
        subst this
        unfold Alternate
        rw [e1]; simp [hye]
      · exact ⟨y, List.mem_append_left _ (List.mem_of_getLast? hy), hye⟩
      · intro d hd hde
        rcases List.mem_append.mp hd with hd | hd
        · exact hctx d hd hde
        · simp only [List.mem_singleton] at hd
          subst hd
          rw [e1]; simp only; omega
      · intro d hd
        apply hf d
        cases g with
        | nil => exact absurd rfl hg
        | cons x g => exact hd
      · intro d hd
        rw [List.getLast?_append] at hd
        simp only [List.getLast?_singleton, Option.some_or, Option.some.injEq] at hd
        subst hd
        left
        rw [e1]
        exact ⟨rfl, by simp only; omega⟩
      · rw [List.flatten_cons, changes_append, hrec.2, changes_append, changes_append, changes_append]
        have h1 : changes [firstLines n c] = [] := by rw [e1]; rfl
        have h2 : changes [lastLines n c] = [] := by rw [e2]; rfl
        have h3 : changes (c :: z :: cs') = changes (z :: cs') := by
          unfold changes; rw [List.filter_cons_of_neg (by simpa using hce)]
        rw [h1, h2, h3]
        simp
    · rw [if_neg hsplit]
      have happ : g ++ [c] ++ cs = g ++ c :: cs := by simp
      have := ih (g ++ [c]) i1 j1 c.I2 c.J2 p q hp hq hs hsep (Tiles.append ht ⟨t1, t2, rfl, rfl⟩) t3
        (by rw [happ]; exact hv) (by rw [happ]; exact hc) (by rw [happ]; exact hch)
        (by
          intro d hd hde
          rcases List.mem_append.mp hd with hd | hd
          · exact hctx d hd hde
          · simp only [List.mem_singleton] at hd
            subst hd
            rcases Nat.lt_or_ge (n + n) (d.I2 - d.I1) with h | h
            · exact absurd ⟨hde, h⟩ hsplit
            · exact h)
        (by rw [happ]; exact hf) (by rw [happ]; exact hl)
      rw [happ] at this
      exact this

omit [DecidableEq α] in
theorem ValidCode.part {a b : List α} {la lb : Nat} (ha : la ≤ a.length) (hb : lb ≤ b.length) {c : OpCode} (h : ValidCode a b c)
    (h1 : c.I2 ≤ la) (h2 : c.J2 ≤ lb) : ValidPart a b c := by
  unfold ValidCode at h
  unfold ValidPart
  cases ht : c.Tag <;> rw [ht] at h <;> simp only at h ⊢
  · exact h
  · exact h
  · exact h
  · refine ⟨by omega, by omega, ?_, h.2.2⟩
    have := congrArg List.length h.2.2
    unfold slice at this
    rw [List.length_take, List.length_take, List.length_drop, List.length_drop] at this
    omega

omit [DecidableEq α] in
theorem Tiles.bounds {a b : List α} {la lb : Nat} : ∀ {cs : List OpCode} {i j : Nat}, Tiles la lb i j cs → (∀ c ∈ cs, ValidCode a b c) →
    i ≤ la ∧ j ≤ lb ∧ ∀ c ∈ cs, c.I2 ≤ la ∧ c.J2 ≤ lb := by
  intro cs
  induction cs with
  | nil => intro i j h _; exact ⟨Nat.le_of_eq h.1, Nat.le_of_eq h.2, by simp⟩
  | cons c cs ih =>
    intro i j h hv
    obtain ⟨h1, h2, h3⟩ := h
    obtain ⟨k1, k2, k3⟩ := ih h3 (fun d hd => hv d (List.mem_cons_of_mem _ hd))
    have hc := hv c (List.mem_cons_self ..)
    have : c.I1 ≤ c.I2 ∧ c.J1 ≤ c.J2 := by
      unfold ValidCode at hc
      cases ht : c.Tag <;> rw [ht] at hc <;> simp only at hc <;> omega
    refine ⟨by omega, by omega, ?_⟩
    intro d hd
    rcases List.mem_cons.mp hd with rfl | hd
    · exact ⟨k1, k2⟩
    · exact k3 d hd

/-- The trailing opcode: the list but for the last one, and where it ends. -/
theorem fixLast_concat (n : Nat) (cs : List OpCode) (c : OpCode) :
    fixLast n (cs ++ [c]) = cs ++ [if c.Tag = .e then firstLines n c else c] := by
  induction cs with
  | nil => rfl
  | cons d cs ih =>
    cases hcs : cs ++ [c] with
    | nil => simp at hcs
    | cons x xs =>
      rw [List.cons_append, hcs, fixLast, ← hcs, ih]
      rfl

theorem changes_fixFirst (n : Nat) (cs : List OpCode) : changes (fixFirst n cs) = changes cs := by
  cases cs with
  | nil => rfl
  | cons c cs =>
    by_cases h : c.Tag = .e
    · have : (lastLines n c).Tag = .e := h
      rw [fixFirst, if_pos h]
      unfold changes
      rw [List.filter_cons_of_neg (by simpa using this), List.filter_cons_of_neg (by simpa using h)]
    · rw [fixFirst, if_neg h]

theorem changes_fixLast (n : Nat) (cs : List OpCode) : changes (fixLast n cs) = changes cs := by
  rcases List.eq_nil_or_concat cs with rfl | ⟨l, c, rfl⟩
  · rfl
  · rw [List.concat_eq_append, fixLast_concat, changes_append, changes_append]
    congr 1
    by_cases h : c.Tag = .e
    · rw [if_pos h]
      have : (firstLines n c).Tag = .e := h
      unfold changes
      rw [List.filter_cons_of_neg (by simpa using this), List.filter_cons_of_neg (by simpa using h)]
    · rw [if_neg h]

omit [DecidableEq α] in
/-- Groups of good opcodes, when there is a change. -/
theorem grouped_hunks (a b : List α) (n : Nat) (codes : List OpCode) (hg : GoodCodes a b 0 0 codes)
    (hch : ∃ c ∈ codes, c.Tag ≠ .e) : Hunks a b n 0 0 (groupLoop n [] (fixLast n (fixFirst n codes))) ∧
    changes (groupLoop n [] (fixLast n (fixFirst n codes))).flatten = changes codes := by
  obtain ⟨ht, hv, halt⟩ := hg
  obtain ⟨_, _, hbound⟩ := Tiles.bounds ht hv
  have hpart : ∀ c ∈ codes, ValidPart a b c := fun c hc =>
    (hv c hc).part (Nat.le_refl a.length) (Nat.le_refl b.length) (hbound c hc).1 (hbound c hc).2
  -- the leading opcode
  have first : ∃ i1 j1 cs, fixFirst n codes = cs ∧ slice a 0 i1 = slice b 0 j1 ∧ Tiles a.length b.length i1 j1 cs ∧
      (∀ c ∈ cs, ValidPart a b c) ∧ cs.IsChain Alternate ∧ (∃ c ∈ cs, c.Tag ≠ .e) ∧
      (∀ c, cs.head? = some c → (c.Tag = .e ∧ c.I2 - c.I1 = n) ∨ (i1 = 0 ∧ j1 = 0 ∧ (c.Tag = .e → c.I2 - c.I1 ≤ n))) ∧
      cs.length = codes.length := by
    cases codes with
    | nil => obtain ⟨c, hc, _⟩ := hch; simp at hc
    | cons c cs =>
      obtain ⟨t1, t2, t3⟩ := ht
      by_cases hce : c.Tag = .e
      · have hvc := hpart c (List.mem_cons_self ..)
        unfold ValidPart at hvc
        rw [hce] at hvc
        simp only at hvc
        obtain ⟨v1, v2, v3, v4⟩ := hvc
        rw [t1, t2] at v4 v3
        have hrest : ∃ d ∈ cs, d.Tag ≠ .e := by
          obtain ⟨d, hd, hde⟩ := hch
          rcases List.mem_cons.mp hd with rfl | hd
          · exact absurd hce hde
          · exact ⟨d, hd, hde⟩
        have e2 : lastLines n c = ⟨.e, c.I2 - n, c.I2, c.J2 - n, c.J2⟩ := by
          unfold lastLines; rw [hce]; simp only [OpCode.mk.injEq, true_and, and_true]; omega
        refine ⟨c.I2 - n, c.J2 - n, lastLines n c :: cs, by rw [fixFirst, if_pos hce], ?_, ?_, ?_, ?_, ?_, ?_, rfl⟩
        · have := slice_part a b 0 c.I2 0 c.J2 0 (c.I2 - n) v4 v3 (by omega) (by omega) (by omega) (by omega)
          simp only [Nat.zero_add] at this
          rw [this, show c.I2 - n = c.J2 - n by omega]
        · rw [e2]; exact ⟨rfl, rfl, t3⟩
        · intro d hd
          rcases List.mem_cons.mp hd with rfl | hd
          · rw [e2]
            refine ⟨by simp only; omega, by simp only; omega, by simp only; omega, ?_⟩
            have := slice_part a b 0 c.I2 0 c.J2 (c.I2 - n) c.I2 v4 v3 (by omega) (by omega) (by omega) (by omega)
            simp only [Nat.zero_add] at this
            simp only
            rw [this, show c.I2 = c.J2 by omega]
          · exact hpart d (List.mem_cons_of_mem _ hd)
        · cases cs with
          | nil => exact .singleton _
          | cons d cs =>
            obtain ⟨h1, h2⟩ := List.isChain_cons_cons.mp halt
            refine List.isChain_cons_cons.mpr ⟨?_, h2⟩
            have := h1.mp hce
            unfold Alternate
            rw [e2]; simp [this]
        · obtain ⟨d, hd, hde⟩ := hrest
          exact ⟨d, List.mem_cons_of_mem _ hd, hde⟩
        · intro d hd
          simp only [List.head?_cons, Option.some.injEq] at hd
          subst hd
          rw [e2]
          simp only
          by_cases hlen : n ≤ c.I2
          · left; exact ⟨trivial, by omega⟩
          · right; exact ⟨by omega, by omega, fun _ => by omega⟩
      · refine ⟨0, 0, c :: cs, by rw [fixFirst, if_neg hce], rfl, ⟨t1, t2, t3⟩, hpart, halt, hch, ?_, rfl⟩
        intro d hd
        simp only [List.head?_cons, Option.some.injEq] at hd
        subst hd
        right
        exact ⟨rfl, rfl, fun h => absurd h hce⟩
  obtain ⟨i1, j1, cs, hcs, hs, ht', hv', halt', hch', hf', hlen⟩ := first
  rw [hcs]
  -- the trailing opcode
  have hcsne : cs ≠ [] := by
    rintro rfl
    obtain ⟨c, hc, _⟩ := hch'
    simp at hc
  rcases List.eq_nil_or_concat cs with rfl | ⟨l, c, hl⟩
  · exact absurd rfl hcsne
  · rw [List.concat_eq_append] at hl
    subst hl
    have htl : ∃ k l', Tiles k l' i1 j1 l ∧ c.I1 = k ∧ c.J1 = l' ∧ c.I2 = a.length ∧ c.J2 = b.length := by
      have : ∀ (l : List OpCode) (i j : Nat), Tiles a.length b.length i j (l ++ [c]) →
          ∃ k l', Tiles k l' i j l ∧ c.I1 = k ∧ c.J1 = l' ∧ c.I2 = a.length ∧ c.J2 = b.length := by
        intro l
        induction l with
        | nil => intro i j h; exact ⟨i, j, ⟨rfl, rfl⟩, h.1, h.2.1, h.2.2.1, h.2.2.2⟩
        | cons d l ih =>
          intro i j h
          obtain ⟨k, l', h1, h2⟩ := ih _ _ h.2.2
          exact ⟨k, l', ⟨h.1, h.2.1, h1⟩, h2⟩
      exact this l i1 j1 ht'
    obtain ⟨k, l', htl, c1, c2, c3, c4⟩ := htl
    have hchg : changes (groupLoop n [] (fixLast n (l ++ [c]))).flatten = changes (fixLast n (l ++ [c])) →
        changes (groupLoop n [] (fixLast n (l ++ [c]))).flatten = changes codes := by
      intro h; rw [h, changes_fixLast, ← hcs, changes_fixFirst]
    rw [fixLast_concat]
    rw [fixLast_concat] at hchg
    by_cases hce : c.Tag = .e
    · rw [if_pos hce] at hchg ⊢
      have hvc := hv' c (by simp)
      unfold ValidPart at hvc
      rw [hce] at hvc
      simp only at hvc
      obtain ⟨v1, v2, v3, v4⟩ := hvc
      obtain ⟨x, hx, hxe⟩ := hch'
      have hxl : x ∈ l := by
        rcases List.mem_append.mp hx with h | h
        · exact h
        · simp only [List.mem_singleton] at h; subst h; exact absurd hce hxe
      have e1 : firstLines n c = ⟨.e, c.I1, c.I1 + min n (c.I2 - c.I1), c.J1, c.J1 + min n (c.I2 - c.I1)⟩ := by
        unfold firstLines; rw [hce]; simp only [OpCode.mk.injEq, true_and]; omega
      have hlne : l ≠ [] := by rintro rfl; simp at hxl
      have hend : a.drop (c.I1 + min n (c.I2 - c.I1)) = b.drop (c.J1 + min n (c.I2 - c.I1)) := by
        have := slice_part a b c.I1 c.I2 c.J1 c.J2 (min n (c.I2 - c.I1)) (c.I2 - c.I1) v4 v3 (by omega) (by omega) v1 v2
        rw [show c.I1 + (c.I2 - c.I1) = a.length by omega, show c.J1 + (c.I2 - c.I1) = b.length by omega] at this
        unfold slice at this
        rw [List.take_of_length_le (by simp), List.take_of_length_le (by simp)] at this
        exact this
      obtain ⟨r1, r2⟩ := groupLoop_spec a b n _ _ (by omega) (by omega) hend (l ++ [firstLines n c]) [] i1 j1 i1 j1 0 0 (Nat.zero_le _) (Nat.zero_le _)
        hs (Or.inl ⟨rfl, rfl⟩) ⟨rfl, rfl⟩
        (by
          refine Tiles.append htl ?_
          rw [e1]; exact ⟨c1, c2, rfl, rfl⟩)
        (by
          intro d hd
          simp only [List.nil_append] at hd
          rcases List.mem_append.mp hd with hd | hd
          · exact hv' d (List.mem_append_left _ hd)
          · simp only [List.mem_singleton] at hd
            subst hd
            rw [e1]
            refine ⟨by simp only; omega, by simp only; omega, by simp only; omega, ?_⟩
            exact slice_part a b c.I1 c.I2 c.J1 c.J2 0 (min n (c.I2 - c.I1)) v4 v3 (by omega) (by omega) v1 v2)
        (by
          simp only [List.nil_append]
          obtain ⟨k1, k2, k3⟩ := List.isChain_append.mp halt'
          refine List.isChain_append.mpr ⟨k1, .singleton _, ?_⟩
          intro y hy d hd
          simp only [List.head?_cons, Option.mem_def, Option.some.injEq] at hd
          subst hd
          have := k3 y hy c rfl
          unfold Alternate at this ⊢
          rw [e1]
          rw [hce] at this
          simpa using this)
        ⟨x, by simp [hxl], hxe⟩ (by simp)
        (by
          intro d hd
          apply hf' d
          cases l with
          | nil => exact absurd rfl hlne
          | cons y l => exact hd)
        (by
          intro d hd
          simp only [List.nil_append, List.getLast?_append, List.getLast?_singleton, Option.some_or, Option.some.injEq] at hd
          subst hd
          rw [e1]
          simp only
          by_cases hn : n ≤ c.I2 - c.I1
          · left; exact ⟨trivial, by omega⟩
          · right; exact ⟨by omega, by omega, fun _ => by omega⟩)
      exact ⟨r1, hchg r2⟩
    · rw [if_neg hce] at hchg ⊢
      obtain ⟨r1, r2⟩ := groupLoop_spec a b n a.length b.length (Nat.le_refl _) (Nat.le_refl _) (by simp) (l ++ [c]) [] i1 j1 i1 j1 0 0 (Nat.zero_le _) (Nat.zero_le _)
        hs (Or.inl ⟨rfl, rfl⟩) ⟨rfl, rfl⟩ ht' hv' halt' hch' (by simp) hf'
        (by
          intro d hd
          simp only [List.nil_append, List.getLast?_append, List.getLast?_singleton, Option.some_or, Option.some.injEq] at hd
          subst hd
          right
          exact ⟨rfl, rfl, fun h => absurd h hce⟩)
      exact ⟨r1, hchg r2⟩

omit [DecidableEq α] in
/-- Without a change there are no groups and the sequences are equal. -/
theorem grouped_equal (a b : List α) (codes : List OpCode) (hg : GoodCodes a b 0 0 codes)
    (hch : ¬∃ c ∈ codes, c.Tag ≠ .e) : a = b ∧ changes codes = [] ∧ (codes = [] ∨ ∃ c, codes = [c] ∧ c.Tag = .e) := by
  have hall : ∀ c ∈ codes, c.Tag = .e := by
    intro c hc
    by_cases h : c.Tag = .e
    · exact h
    · exact absurd ⟨c, hc, h⟩ hch
  have hb := (applyCodes_tiles a b codes 0 0 hg.tiles hg.valid).2
  have hchanges : changes codes = [] := by
    unfold changes; rw [List.filter_eq_nil_iff]; intro c hc; simpa using hall c hc
  cases codes with
  | nil =>
    obtain ⟨h1, h2⟩ := hg.tiles
    have e1 : a = [] := List.length_eq_zero_iff.mp h1.symm
    have e2 : b = [] := List.length_eq_zero_iff.mp h2.symm
    exact ⟨by rw [e1, e2], hchanges, Or.inl rfl⟩
  | cons c cs =>
    have hcs : cs = [] := by
      cases cs with
      | nil => rfl
      | cons d cs =>
        have := (List.isChain_cons_cons.mp hg.alternate).1.mp (hall c (by simp))
        exact absurd (hall d (by simp)) this
    subst hcs
    refine ⟨?_, hchanges, Or.inr ⟨c, rfl, hall c (by simp)⟩⟩
    obtain ⟨t1, t2, t3, t4⟩ := hg.tiles
    have hc := hall c (by simp)
    have : applyCodes a b [c] = slice a c.I1 c.I2 := by simp [applyCodes, hc]
    rw [this, t1, t3] at hb
    unfold slice at hb
    simpa using hb

/-- C55: the groups for every pair of sequences and every context size (negative means 3)
contain exactly the changes of the opcodes, in order, each group with `n` lines of context
on both sides (less only at the ends of the sequences) and at most `2n` between changes,
and what is left out between the groups is the same in both sequences. -/
theorem grouped_opcodes (a b : List α) (autoJunk : Bool) (isJunk : Option (α → Bool)) (n : Int) :
    ∃ codes, opCodes (newMatcher a b autoJunk isJunk) = some codes ∧
      Hunks a b (contextSize n) 0 0 (groupedOpCodes n codes).2 ∧
      changes (groupedOpCodes n codes).2.flatten = changes codes := by
  obtain ⟨codes, h1, _, h3, h4, h5⟩ := opcodes_correct a b autoJunk isJunk
  have hg : GoodCodes a b 0 0 codes := ⟨h3, h4, h5⟩
  refine ⟨codes, h1, ?_⟩
  by_cases hch : ∃ c ∈ codes, c.Tag ≠ .e
  · have hne : codes ≠ [] := by rintro rfl; obtain ⟨c, hc, _⟩ := hch; simp at hc
    rw [groupedOpCodes]
    simp only [if_neg hne]
    exact grouped_hunks a b (contextSize n) codes hg hch
  · obtain ⟨hab, hc0, hshape⟩ := grouped_equal a b codes hg hch
    have hempty : ∀ (k : Nat) (c : OpCode), c.Tag = .e → groupLoop k [] (fixLast k (fixFirst k [c])) = [] := by
      intro k c hc
      have t : ((firstLines k (lastLines k c)).Tag = .e) := hc
      have t' : ((lastLines k c).Tag = .e) := hc
      rw [fixFirst, if_pos hc, fixLast, if_pos t', groupLoop, if_neg, groupLoop, if_neg]
      · simp [t]
      · rintro ⟨_, h⟩
        simp only [firstLines, lastLines] at h
        omega
    have hgroups : (groupedOpCodes n codes).2 = [] := by
      rcases hshape with rfl | ⟨c, rfl, hc⟩
      · exact hempty _ _ rfl
      · rw [groupedOpCodes]
        simp only [List.cons_ne_nil, if_false]
        exact hempty _ _ hc
    rw [hgroups, hc0]
    exact ⟨by rw [Hunks, hab], rfl⟩

omit [DecidableEq α] in
/-- Carrying out the groups on `a`, copying what lies between them. -/
def applyGroups (a b : List α) : Nat → List (List OpCode) → List α
  | i, [] => a.drop i
  | i, g :: gs =>
    slice a i ((g.head?.map OpCode.I1).getD 0) ++ applyCodes a b g ++
      applyGroups a b ((g.getLast?.map OpCode.I2).getD 0) gs

omit [DecidableEq α] in
theorem applyCodes_part (a b : List α) : ∀ (g : List OpCode) (i j k l : Nat), Tiles k l i j g → (∀ c ∈ g, ValidPart a b c) →
    i ≤ k ∧ j ≤ l ∧ applyCodes a b g = slice b j l := by
  intro g
  induction g with
  | nil =>
    intro i j k l h _
    obtain ⟨rfl, rfl⟩ := h
    exact ⟨Nat.le_refl _, Nat.le_refl _, by simp [applyCodes, slice]⟩
  | cons c g ih =>
    intro i j k l h hv
    obtain ⟨h1, h2, h3⟩ := h
    obtain ⟨k1, k2, k3⟩ := ih _ _ _ _ h3 (fun d hd => hv d (List.mem_cons_of_mem _ hd))
    have hc := hv c (List.mem_cons_self ..)
    have hle : c.I1 ≤ c.I2 ∧ c.J1 ≤ c.J2 := by
      unfold ValidPart at hc
      cases ht : c.Tag <;> rw [ht] at hc <;> simp only at hc <;> omega
    refine ⟨by omega, by omega, ?_⟩
    have hpiece : applyCodes a b [c] = slice b c.J1 c.J2 := by
      unfold ValidPart at hc
      cases ht : c.Tag <;> rw [ht] at hc <;> simp only at hc <;> simp [applyCodes, ht]
      · rw [hc.2]; simp [slice]
      · exact hc.2.2.2
    have : applyCodes a b (c :: g) = applyCodes a b [c] ++ applyCodes a b g := by simp [applyCodes]
    rw [this, hpiece, k3, slice_append b _ _ _ hle.2 k2, h2]

omit [DecidableEq α] in
theorem Tiles.head {la lb i j : Nat} {g : List OpCode} (h : Tiles la lb i j g) (hne : g ≠ []) :
    (g.head?.map OpCode.I1).getD 0 = i := by
  cases g with
  | nil => exact absurd rfl hne
  | cons c g => exact h.1

omit [DecidableEq α] in
theorem Tiles.last : ∀ {g : List OpCode} {la lb i j : Nat}, Tiles la lb i j g → g ≠ [] →
    (g.getLast?.map OpCode.I2).getD 0 = la := by
  intro g
  induction g with
  | nil => intro la lb i j _ hne; exact absurd rfl hne
  | cons c g ih =>
    intro la lb i j h _
    cases g with
    | nil => exact h.2.2.1
    | cons d g =>
      rw [List.getLast?_cons_cons]
      exact ih h.2.2 (by simp)

omit [DecidableEq α] in
theorem hunks_apply (a b : List α) (n : Nat) : ∀ (gs : List (List OpCode)) (i j : Nat), Hunks a b n i j gs →
    applyGroups a b i gs = b.drop j := by
  intro gs
  induction gs with
  | nil => intro i j h; exact h
  | cons g gs ih =>
    intro i j h
    obtain ⟨i1, j1, i2, j2, h1, h2, h3, _, hg, h5⟩ := h
    have hne : g ≠ [] := by
      rintro rfl
      obtain ⟨c, hc, _⟩ := hg.change
      simp at hc
    obtain ⟨k1, k2, k3⟩ := applyCodes_part a b g _ _ _ _ hg.tiles hg.valid
    rw [applyGroups, hg.tiles.head hne, hg.tiles.last hne, ih _ _ h5, k3, h3, slice_append b _ _ _ h2 k2]
    unfold slice
    rw [show j2 = j + (j2 - j) by omega, ← List.drop_drop, show j + (j2 - j) - j = j2 - j by omega, List.take_append_drop]

/-- C55: carried out on `a`, the groups give `b`. -/
theorem grouped_apply (a b : List α) (autoJunk : Bool) (isJunk : Option (α → Bool)) (n : Int) :
    ∃ codes, opCodes (newMatcher a b autoJunk isJunk) = some codes ∧
      applyGroups a b 0 (groupedOpCodes n codes).2 = b := by
  obtain ⟨codes, h1, h2, _⟩ := grouped_opcodes a b autoJunk isJunk n
  exact ⟨codes, h1, by rw [hunks_apply a b _ _ 0 0 h2, List.drop_zero]⟩

example : (opCodes (newMatcher (asc "abXcdefghYj") (asc "abcdefghZjk") true none)).map (fun c => (groupedOpCodes 1 c).2) =
    some [[⟨.e, 1, 2, 1, 2⟩, ⟨.d, 2, 3, 2, 2⟩, ⟨.e, 3, 4, 2, 3⟩],
      [⟨.e, 8, 9, 7, 8⟩, ⟨.r, 9, 10, 8, 9⟩, ⟨.e, 10, 11, 9, 10⟩, ⟨.i, 11, 11, 10, 11⟩]] := by decide +kernel

end Verif.Difflib
