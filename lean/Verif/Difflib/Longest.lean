import Verif.Difflib.Search

/-!
# C53: the longest match, with the extensions
-/

namespace Verif.Difflib

variable {α : Type} [DecidableEq α]

theorem eqAt_iff (a b : List α) (p : α → Bool) (i j : Nat) :
    eqAt a b p i j = true ↔ ∃ x, a[i]? = some x ∧ b[j]? = some x ∧ p x = true := by
  unfold eqAt
  split
  · rename_i x y hx hy
    rw [hx, hy]
    simp only [Bool.and_eq_true, decide_eq_true_eq]
    constructor
    · rintro ⟨h1, rfl⟩; exact ⟨x, rfl, rfl, h1⟩
    · rintro ⟨z, h1, h2, h3⟩
      injection h1 with h1; injection h2 with h2
      subst h1; subst h2; exact ⟨h3, rfl⟩
  · rename_i hn
    constructor
    · intro h; simp at h
    · rintro ⟨x, h1, h2, _⟩; exact absurd h2 (hn x x h1)

omit [DecidableEq α] in
theorem Common.mono {a b : List α} {P Q : α → Prop} {i j k : Nat} (h : Common a b P i j k) (hPQ : ∀ x, P x → Q x) :
    Common a b Q i j k := fun t ht => by
  obtain ⟨x, h1, h2, h3⟩ := h t ht
  exact ⟨x, h1, h2, hPQ x h3⟩

omit [DecidableEq α] in
/-- Blocks side by side. -/
theorem Common.append {a b : List α} {P : α → Prop} {i j k l : Nat} (h1 : Common a b P i j k)
    (h2 : Common a b P (i + k) (j + k) l) : Common a b P i j (k + l) := by
  intro t ht
  by_cases h : t < k
  · exact h1 t h
  · have := h2 (t - k) (by omega)
    rw [show i + k + (t - k) = i + t by omega, show j + k + (t - k) = j + t by omega] at this
    exact this

theorem extendLeft_spec (m : Seqs α) (p : α → Bool) (alo blo : Nat) : ∀ (i j k : Nat), ∃ d, d ≤ i ∧ d ≤ j ∧
    extendLeft m p alo blo i j k = ⟨i - d, j - d, k + d⟩ ∧
    (0 < d → alo ≤ i - d ∧ blo ≤ j - d) ∧
    Common m.a m.b (fun x => p x = true) (i - d) (j - d) d ∧
    (alo < i - d → blo < j - d → eqAt m.a m.b p (i - d - 1) (j - d - 1) = false) := by
  intro i
  induction i with
  | zero =>
    intro j k
    refine ⟨0, by omega, by omega, ?_, by omega, fun t ht => absurd ht (Nat.not_lt_zero t), by omega⟩
    simp [extendLeft]
  | succ i ih =>
    intro j k
    cases j with
    | zero =>
      refine ⟨0, by omega, by omega, ?_, by omega, fun t ht => absurd ht (Nat.not_lt_zero t), by omega⟩
      simp [extendLeft]
    | succ j =>
      rw [extendLeft]
      by_cases hc : alo < i + 1 ∧ blo < j + 1 ∧ eqAt m.a m.b p i j
      · rw [if_pos hc]
        obtain ⟨d, h1, h2, h3, h4, h5, h6⟩ := ih j (k + 1)
        refine ⟨d + 1, by omega, by omega, ?_, ?_, ?_, ?_⟩
        · rw [h3]; simp only [Match.mk.injEq]; omega
        · intro _
          rcases Nat.eq_zero_or_pos d with hd | hd
          · subst hd; omega
          · have := h4 hd; omega
        · have hl : Common m.a m.b (fun x => p x = true) (i - d + d) (j - d + d) 1 := by
            intro t ht
            have : t = 0 := by omega
            subst this
            rw [show i - d + d + 0 = i by omega, show j - d + d + 0 = j by omega]
            exact (eqAt_iff m.a m.b p i j).mp hc.2.2
          have := h5.append hl
          rw [show i + 1 - (d + 1) = i - d by omega, show j + 1 - (d + 1) = j - d by omega]
          exact this
        · rw [show i + 1 - (d + 1) = i - d by omega, show j + 1 - (d + 1) = j - d by omega]
          exact h6
      · rw [if_neg hc]
        refine ⟨0, by omega, by omega, by simp, by omega, fun t ht => absurd ht (Nat.not_lt_zero t), ?_⟩
        intro h1 h2
        simp only [Nat.sub_zero, Nat.add_sub_cancel] at h1 h2 ⊢
        rw [Bool.eq_false_iff]
        intro h
        exact hc ⟨h1, h2, h⟩

theorem extendRight_spec (m : Seqs α) (p : α → Bool) (ahi bhi i j : Nat) : ∀ (n k : Nat), ∃ d,
    extendRight m p ahi bhi i j n k = k + d ∧
    (0 < d → i + k + d ≤ ahi ∧ j + k + d ≤ bhi) ∧
    Common m.a m.b (fun x => p x = true) (i + k) (j + k) d ∧
    (ahi ≤ i + k + n → i + (k + d) < ahi → j + (k + d) < bhi → eqAt m.a m.b p (i + (k + d)) (j + (k + d)) = false) := by
  intro n
  induction n with
  | zero =>
    intro k
    exact ⟨0, rfl, by omega, fun t ht => absurd ht (Nat.not_lt_zero t), by omega⟩
  | succ n ih =>
    intro k
    rw [extendRight]
    by_cases hc : i + k < ahi ∧ j + k < bhi ∧ eqAt m.a m.b p (i + k) (j + k)
    · rw [if_pos hc]
      obtain ⟨d, h1, h2, h3, h4⟩ := ih (k + 1)
      refine ⟨d + 1, by omega, ?_, ?_, ?_⟩
      · intro _
        rcases Nat.eq_zero_or_pos d with hd | hd
        · subst hd; omega
        · have := h2 hd; omega
      · have hl : Common m.a m.b (fun x => p x = true) (i + k) (j + k) 1 := by
          intro t ht
          have : t = 0 := by omega
          subst this
          exact (eqAt_iff m.a m.b p _ _).mp hc.2.2
        have := hl.append h3
        rw [Nat.add_comm d 1]
        exact this
      · intro hn
        rw [show k + (d + 1) = k + 1 + d by omega]
        exact h4 (by omega)
    · rw [if_neg hc]
      refine ⟨0, rfl, by omega, fun t ht => absurd ht (Nat.not_lt_zero t), ?_⟩
      intro _ h1 h2
      rw [Bool.eq_false_iff]
      intro h
      exact hc ⟨h1, h2, h⟩

/-- One pair of extension loops: the block grows by elements with `p`, as far as it can. -/
theorem extend_spec (m : Seqs α) (p : α → Bool) (P : α → Prop) (alo ahi blo bhi : Nat) (x : Match)
    (hx : Block m.a m.b P alo ahi blo bhi x.A x.B x.Size) :
    ∃ dl dr, extend m p alo ahi blo bhi x = ⟨x.A - dl, x.B - dl, x.Size + dl + dr⟩ ∧ dl ≤ x.A ∧ dl ≤ x.B ∧
      Block m.a m.b (fun y => P y ∨ p y = true) alo ahi blo bhi (x.A - dl) (x.B - dl) (x.Size + dl + dr) ∧
      Common m.a m.b (fun x => p x = true) (x.A - dl) (x.B - dl) dl ∧
      Common m.a m.b (fun x => p x = true) (x.A + x.Size) (x.B + x.Size) dr ∧
      (alo < x.A - dl → blo < x.B - dl → eqAt m.a m.b p (x.A - dl - 1) (x.B - dl - 1) = false) ∧
      (x.A + x.Size + dr < ahi → x.B + x.Size + dr < bhi →
        eqAt m.a m.b p (x.A + x.Size + dr) (x.B + x.Size + dr) = false) := by
  obtain ⟨dl, h1, h2, h3, h4, h5, h6⟩ := extendLeft_spec m p alo blo x.A x.B x.Size
  obtain ⟨dr, g1, g2, g3, g4⟩ := extendRight_spec m p ahi bhi (x.A - dl) (x.B - dl) ahi (x.Size + dl)
  have b1 := hx.ilo; have b2 := hx.ihi; have b3 := hx.jlo; have b4 := hx.jhi
  have e1 : x.A - dl + (x.Size + dl) = x.A + x.Size := by omega
  have e2 : x.B - dl + (x.Size + dl) = x.B + x.Size := by omega
  rw [e1, e2] at g3 g2
  have hdl : alo ≤ x.A - dl ∧ blo ≤ x.B - dl := by
    rcases Nat.eq_zero_or_pos dl with h | h
    · subst h; exact ⟨by omega, by omega⟩
    · exact h4 h
  have hdr : x.A + x.Size + dr ≤ ahi ∧ x.B + x.Size + dr ≤ bhi := by
    rcases Nat.eq_zero_or_pos dr with h | h
    · subst h; exact ⟨by omega, by omega⟩
    · exact g2 h
  refine ⟨dl, dr, ?_, h1, h2, ⟨?_, hdl.1, by omega, hdl.2, by omega⟩, h5, g3, h6, ?_⟩
  · simp only [extend, h3, g1]
  · have c1 : Common m.a m.b (fun y => P y ∨ p y = true) (x.A - dl) (x.B - dl) dl := h5.mono fun _ h => Or.inr h
    have c2 : Common m.a m.b (fun y => P y ∨ p y = true) x.A x.B x.Size := hx.common.mono fun _ h => Or.inl h
    have c3 : Common m.a m.b (fun y => P y ∨ p y = true) (x.A + x.Size) (x.B + x.Size) dr := g3.mono fun _ h => Or.inr h
    have c12 := c1.append (l := x.Size) (by
      rw [show x.A - dl + dl = x.A by omega, show x.B - dl + dl = x.B by omega]; exact c2)
    have := c12.append (l := dr) (by
      rw [show x.A - dl + (dl + x.Size) = x.A + x.Size by omega, show x.B - dl + (dl + x.Size) = x.B + x.Size by omega]
      exact c3)
    rw [show x.Size + dl + dr = dl + x.Size + dr by omega]
    exact this
  · intro k1 k2
    have := g4 (by omega) (by omega) (by omega)
    rw [show x.A - dl + (x.Size + dl + dr) = x.A + x.Size + dr by omega,
      show x.B - dl + (x.Size + dl + dr) = x.B + x.Size + dr by omega] at this
    exact this

/-- Whatever junk and popular elements there are, the result is a common block within the
window, and it contains the first longest block of kept elements. -/
theorem findLongestMatch_sound {keep : α → Prop} (m : Seqs α) (hm : m.Good keep) (alo ahi blo bhi : Nat)
    (hab : alo ≤ ahi) (hbb : blo ≤ bhi) :
    let r := findLongestMatch m alo ahi blo bhi
    Block m.a m.b (fun _ => True) alo ahi blo bhi r.A r.B r.Size ∧
    ∀ i j k, Block m.a m.b keep alo ahi blo bhi i j k → k ≤ r.Size := by
  intro r
  obtain ⟨s1, s2, s3, s4⟩ := search_longest m hm alo ahi blo bhi hab hbb
  obtain ⟨dl, dr, e1, _, _, b1, _⟩ := extend_spec m (fun s => !m.isBJunk s) keep alo ahi blo bhi _ s1
  have b1' : Block m.a m.b (fun y => keep y ∨ (!m.isBJunk y) = true) alo ahi blo bhi
      (extend m (fun s => !m.isBJunk s) alo ahi blo bhi (search m blo bhi (ahi - alo) alo (fun _ => 0) ⟨alo, blo, 0⟩)).A
      (extend m (fun s => !m.isBJunk s) alo ahi blo bhi (search m blo bhi (ahi - alo) alo (fun _ => 0) ⟨alo, blo, 0⟩)).B
      (extend m (fun s => !m.isBJunk s) alo ahi blo bhi (search m blo bhi (ahi - alo) alo (fun _ => 0) ⟨alo, blo, 0⟩)).Size := by
    rw [e1]; exact b1
  obtain ⟨dl', dr', e2, _, _, b2, _⟩ := extend_spec m m.isBJunk _ alo ahi blo bhi _ b1'
  have hr : r = extend m m.isBJunk alo ahi blo bhi
    (extend m (fun s => !m.isBJunk s) alo ahi blo bhi (search m blo bhi (ahi - alo) alo (fun _ => 0) ⟨alo, blo, 0⟩)) := rfl
  rw [hr, e2]
  refine ⟨⟨b2.common.mono fun _ _ => trivial, b2.ilo, b2.ihi, b2.jlo, b2.jhi⟩, ?_⟩
  intro i j k hb
  have := s3 i j k hb
  simp only [e1]
  omega

/-- No element of `b` is junk or popular. -/
def NoJunk (b : List α) (autoJunk : Bool) (isJunk : Option (α → Bool)) : Prop := ∀ x ∈ b, kept b autoJunk isJunk x

/-- C53: without junk and popular elements the result is a longest common block of the
window, of those the first in `a` and then the first in `b`; and (alo, blo, 0) if there is
none. -/
theorem longest_match (a b : List α) (autoJunk : Bool) (isJunk : Option (α → Bool)) (hn : NoJunk b autoJunk isJunk)
    (alo ahi blo bhi : Nat) (hab : alo ≤ ahi) (hbb : blo ≤ bhi) :
    let r := findLongestMatch (newMatcher a b autoJunk isJunk) alo ahi blo bhi
    Block a b (fun _ => True) alo ahi blo bhi r.A r.B r.Size ∧
    (∀ i j k, Block a b (fun _ => True) alo ahi blo bhi i j k → k ≤ r.Size) ∧
    (∀ i j, 0 < r.Size → Block a b (fun _ => True) alo ahi blo bhi i j r.Size → r.A < i ∨ (r.A = i ∧ r.B ≤ j)) ∧
    (r.Size = 0 → r.A = alo ∧ r.B = blo) := by
  intro r
  obtain ⟨hg, ha, hb, hj⟩ := newMatcher_good a b autoJunk isJunk
  have conv : ∀ i j k, Block a b (fun _ => True) alo ahi blo bhi i j k ↔
      Block a b (kept b autoJunk isJunk) alo ahi blo bhi i j k := by
    intro i j k
    constructor
    · intro h
      refine ⟨?_, h.ilo, h.ihi, h.jlo, h.jhi⟩
      intro t ht
      obtain ⟨x, h1, h2, _⟩ := h.common t ht
      exact ⟨x, h1, h2, hn x (List.mem_iff_getElem?.mpr ⟨_, h2⟩)⟩
    · intro h
      exact ⟨h.common.mono fun _ _ => trivial, h.ilo, h.ihi, h.jlo, h.jhi⟩
  obtain ⟨s1, s2, s3, s4⟩ := search_longest _ hg alo ahi blo bhi hab hbb
  rw [ha, hb] at s1 s3 s4
  -- the extension loops do nothing
  generalize hs : search (newMatcher a b autoJunk isJunk) blo bhi (ahi - alo) alo (fun _ => 0) ⟨alo, blo, 0⟩ = s at s1 s2 s3 s4
  have noext : ∀ p, extend (newMatcher a b autoJunk isJunk) p alo ahi blo bhi s = s := by
    intro p
    have s1' : Block (newMatcher a b autoJunk isJunk).a (newMatcher a b autoJunk isJunk).b (kept b autoJunk isJunk)
        alo ahi blo bhi s.A s.B s.Size := s1
    obtain ⟨dl, dr, e1, l1, l2, b1, _⟩ := extend_spec _ p _ alo ahi blo bhi s s1'
    rw [ha, hb] at b1
    have := s3 _ _ _ ((conv _ _ _).mp ⟨b1.common.mono fun _ _ => trivial, b1.ilo, b1.ihi, b1.jlo, b1.jhi⟩)
    have h1 : dl = 0 := by omega
    have h2 : dr = 0 := by omega
    rw [e1, h1, h2]
    rfl
  have hr : r = s := by
    show extend _ _ _ _ _ _ (extend _ _ _ _ _ _ (search _ _ _ _ _ _ _)) = s
    rw [hs, noext, noext]
  rw [hr]
  refine ⟨(conv _ _ _).mpr s1, fun i j k h => s3 i j k ((conv _ _ _).mp h),
    fun i j h1 h2 => s4 i j h1 ((conv _ _ _).mp h2), s2⟩

example : findLongestMatch (newMatcher (asc "abxcd") (asc "abcd") true none) 0 5 0 4 = ⟨0, 0, 2⟩ ∧
    findLongestMatch (newMatcher (asc "ab") (asc "acab") true none) 0 2 0 4 = ⟨0, 2, 2⟩ := by decide +kernel

/-- Short sequences compared without a junk function have neither. -/
theorem noJunk_short (b : List α) (h : b.length < 200) : NoJunk b true none :=
  fun _ _ => ⟨by simp, fun _ h2 => by omega⟩

end Verif.Difflib
