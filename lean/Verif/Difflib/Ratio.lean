import Mathlib.Algebra.Order.Ring.Rat
import Mathlib.Algebra.Order.Field.Rat
import Mathlib.Tactic.Positivity
import Mathlib.Tactic.Ring
import Mathlib.Data.List.Sublists
import Verif.Difflib.Blocks

/-!
# C54: similarity ratios
-/

namespace Verif.Difflib

variable {α : Type} [DecidableEq α]

/-! ### Model -/

/-- `calculateRatio`, 40-45: the quotient of exact `float64` integers (below 2^53), rounded
by `rnd`, the rounding of the floating point division. -/
def calculateRatio (rnd : Rat → Rat) (ms length : Nat) : Rat :=
  if 0 < length then rnd (2 * (ms : Rat) / (length : Rat)) else 1

/-- `Ratio`, 465-471, from the matching blocks. -/
def ratio (rnd : Rat → Rat) (m : Seqs α) : Option Rat :=
  (matchingBlocks m).map fun bs => calculateRatio rnd ((bs.map Match.Size).sum) (m.a.length + m.b.length)

/-- The loop of `QuickRatio` filling `fullBCount`, 482-485. -/
def countAll : List α → (α → Nat) → α → Nat
  | [], c => c
  | s :: b, c => countAll b fun x => if x = s then c x + 1 else c x

/-- The second loop of `QuickRatio`, 490-501: the value of `matches` at the end. -/
def quickLoop (full : α → Nat) : List α → (α → Option Int) → Nat → Nat
  | [], _, ms => ms
  | s :: a, avail, ms =>
    let n := (avail s).getD (full s)
    quickLoop full a (fun x => if x = s then some (n - 1) else avail x) (if 0 < n then ms + 1 else ms)

/-- `QuickRatio`, 477-503. -/
def quickRatio (rnd : Rat → Rat) (m : Seqs α) : Rat :=
  calculateRatio rnd (quickLoop (countAll m.b fun _ => 0) m.a (fun _ => none) 0) (m.a.length + m.b.length)

/-- `RealQuickRatio`, 509-512. -/
def realQuickRatio (rnd : Rat → Rat) (m : Seqs α) : Rat :=
  calculateRatio rnd (min m.a.length m.b.length) (m.a.length + m.b.length)

/-! ### The numbers of matches -/

theorem countAll_eq (b : List α) : ∀ (c : α → Nat) (x : α), countAll b c x = c x + b.count x := by
  induction b with
  | nil => intro c x; simp [countAll]
  | cons s b ih =>
    intro c x
    rw [countAll, ih, List.count_cons]
    by_cases h : x = s
    · subst h; simp; omega
    · have : (s == x) = false := by simpa using Ne.symm h
      simp [h, this]

/-- The loop with the available numbers as a function. -/
def quick : List α → (α → Int) → Nat
  | [], _ => 0
  | s :: a, n => (if 0 < n s then 1 else 0) + quick a fun x => if x = s then n s - 1 else n x

theorem quickLoop_eq (full : α → Nat) (a : List α) : ∀ (avail : α → Option Int) (ms : Nat),
    quickLoop full a avail ms = ms + quick a fun x => (avail x).getD (full x) := by
  induction a with
  | nil => intro avail ms; simp [quickLoop, quick]
  | cons s a ih =>
    intro avail ms
    rw [quickLoop, ih, quick]
    have : (fun x => ((if x = s then some ((avail s).getD (full s) - 1) else avail x).getD (full x : Int))) =
        fun x => if x = s then (avail s).getD (full s : Int) - 1 else (avail x).getD (full x : Int) := by
      funext x; by_cases h : x = s <;> simp [h]
    rw [this]
    split <;> omega

/-- Every selection of elements of `a`, at most as many as available, is counted. -/
theorem le_quick : ∀ (a c : List α) (n : α → Int), (∀ x, c.count x ≤ a.count x) →
    (∀ x, (c.count x : Int) ≤ max 0 (n x)) → c.length ≤ quick a n := by
  intro a
  induction a with
  | nil =>
    intro c n h _
    cases c with
    | nil => simp
    | cons x c => have := h x; simp at this
  | cons s a ih =>
    intro c n h hn
    rw [quick]
    by_cases hs : s ∈ c
    · have hpos : 0 < c.count s := List.count_pos_iff.mpr hs
      have hns := hn s
      rw [if_pos (by omega)]
      have hlen : (c.erase s).length + 1 = c.length := by
        rw [List.length_erase_of_mem hs]
        have := List.length_pos_of_mem hs
        omega
      have := ih (c.erase s) (fun x => if x = s then n s - 1 else n x) ?_ ?_
      · omega
      · intro x
        have hx := h x
        rw [List.count_cons] at hx
        by_cases hxs : x = s
        · subst hxs
          rw [List.count_erase_self]
          simp at hx
          omega
        · rw [List.count_erase_of_ne hxs]
          have : (s == x) = false := by simpa using Ne.symm hxs
          simp [this] at hx
          exact hx
      · intro x
        by_cases hxs : x = s
        · subst hxs
          rw [List.count_erase_self, if_pos rfl]
          omega
        · rw [List.count_erase_of_ne hxs, if_neg hxs]
          exact hn x
    · have h0 : c.count s = 0 := List.count_eq_zero.mpr hs
      have := ih c (fun x => if x = s then n s - 1 else n x) ?_ ?_
      · omega
      · intro x
        have hx := h x
        rw [List.count_cons] at hx
        by_cases hxs : x = s
        · subst hxs; omega
        · have : (s == x) = false := by simpa using Ne.symm hxs
          simp [this] at hx
          exact hx
      · intro x
        by_cases hxs : x = s
        · subst hxs; rw [if_pos rfl, h0]; omega
        · rw [if_neg hxs]; exact hn x

theorem quick_le_length (a : List α) : ∀ n : α → Int, quick a n ≤ a.length := by
  induction a with
  | nil => intro n; simp [quick]
  | cons s a ih =>
    intro n
    rw [quick, List.length_cons]
    have := ih (fun x => if x = s then n s - 1 else n x)
    split <;> omega

theorem quick_le_avail : ∀ (a l : List α) (n : α → Int), (∀ x, n x ≤ (l.count x : Int)) → quick a n ≤ l.length := by
  intro a
  induction a with
  | nil => intro l n _; simp [quick]
  | cons s a ih =>
    intro l n h
    rw [quick]
    by_cases hs : 0 < n s
    · rw [if_pos hs]
      have hm : s ∈ l := List.count_pos_iff.mp (by have := h s; omega)
      have hpos := List.length_pos_of_mem hm
      have := ih (l.erase s) (fun x => if x = s then n s - 1 else n x) ?_
      · rw [List.length_erase_of_mem hm] at this; omega
      · intro x
        by_cases hx : x = s
        · subst hx
          rw [if_pos rfl, List.count_erase_self]
          have := h x
          omega
        · rw [if_neg hx, List.count_erase_of_ne hx]; exact h x
    · rw [if_neg hs]
      have := ih l (fun x => if x = s then n s - 1 else n x) ?_
      · omega
      · intro x
        by_cases hx : x = s
        · subst hx; rw [if_pos rfl]; have := h x; omega
        · rw [if_neg hx]; exact h x

omit [DecidableEq α] in
theorem slice_length (l : List α) (i j : Nat) (h1 : j ≤ l.length) : (slice l i j).length = j - i := by
  unfold slice; rw [List.length_take, List.length_drop]; omega

omit [DecidableEq α] in
/-- The elements in the blocks are a common subsequence. -/
theorem blocks_sublist (a b : List α) : ∀ (bs : List Match) (i j : Nat), Ordered a b a.length b.length i j bs →
    ∃ c : List α, c.Sublist (a.drop i) ∧ c.Sublist (b.drop j) ∧ c.length = total bs := by
  intro bs
  induction bs with
  | nil => intro i j _; exact ⟨[], List.nil_sublist _, List.nil_sublist _, rfl⟩
  | cons x bs ih =>
    intro i j h
    obtain ⟨g1, g2, g3, g4, g5⟩ := h
    obtain ⟨c, c1, c2, c3⟩ := ih _ _ g5
    have hle := g5.le
    have part : ∀ (l : List α) (i A : Nat) (d : List α), i ≤ A → A + x.Size ≤ l.length → d.Sublist (l.drop (A + x.Size)) →
        (slice l A (A + x.Size) ++ d).Sublist (l.drop i) := by
      intro l i A d h1 h2 hd
      have e : l.drop A = slice l A (A + x.Size) ++ l.drop (A + x.Size) := by
        unfold slice
        rw [show A + x.Size - A = x.Size by omega]
        rw [← List.drop_drop, List.take_append_drop]
      have s1 : (slice l A (A + x.Size) ++ d).Sublist (l.drop A) := by
        rw [e]; exact List.Sublist.append_left hd _
      refine s1.trans ?_
      rw [show A = i + (A - i) by omega, ← List.drop_drop]
      exact List.drop_sublist _ _
    refine ⟨slice a x.A (x.A + x.Size) ++ c, part a i x.A c g1 hle.1 c1, ?_, ?_⟩
    · rw [slice_eq_of_common a b _ _ _ g4]
      exact part b j x.B c g2 hle.2 c2
    · rw [List.length_append, slice_length _ _ _ hle.1, c3]
      simp only [total, List.map_cons, List.sum_cons]
      omega

/-- The rounding of floating point numbers, as far as it matters. -/
structure Rounding (rnd : Rat → Rat) : Prop where
  mono : ∀ x y, x ≤ y → rnd x ≤ rnd y
  zero : rnd 0 = 0
  one : rnd 1 = 1

omit [DecidableEq α] in
theorem calculateRatio_mono {rnd : Rat → Rat} (h : Rounding rnd) (m n l : Nat) (hmn : m ≤ n) :
    calculateRatio rnd m l ≤ calculateRatio rnd n l := by
  unfold calculateRatio
  split
  · apply h.mono
    have : (m : Rat) ≤ n := by exact_mod_cast hmn
    gcongr
  · exact le_refl _

/-- C54: the ratios are in order, between 0 and 1. -/
theorem ratios_ordered {rnd : Rat → Rat} (hr : Rounding rnd) (a b : List α) (autoJunk : Bool) (isJunk : Option (α → Bool)) :
    ∃ r, ratio rnd (newMatcher a b autoJunk isJunk) = some r ∧ 0 ≤ r ∧
      r ≤ quickRatio rnd (newMatcher a b autoJunk isJunk) ∧
      quickRatio rnd (newMatcher a b autoJunk isJunk) ≤ realQuickRatio rnd (newMatcher a b autoJunk isJunk) ∧
      realQuickRatio rnd (newMatcher a b autoJunk isJunk) ≤ 1 := by
  obtain ⟨hg, ha, hb, _⟩ := newMatcher_good a b autoJunk isJunk
  obtain ⟨bs, h1, h2, h3⟩ := matchingBlocks_spec _ hg
  rw [ha, hb] at h1 h2
  have hq : quickLoop (countAll b fun _ => 0) a (fun _ => none) 0 = quick a fun x => (b.count x : Int) := by
    rw [quickLoop_eq]
    simp only [countAll_eq, Option.getD_none, Nat.zero_add]
  refine ⟨_, by rw [ratio, h1]; rfl, ?_, ?_, ?_, ?_⟩
  · unfold calculateRatio
    split
    · rw [← hr.zero]; apply hr.mono; positivity
    · norm_num
  · rw [ha, hb, quickRatio, ha, hb]
    apply calculateRatio_mono hr
    rw [hq]
    obtain ⟨c, c1, c2, c3⟩ := blocks_sublist a b bs 0 0 h2
    have : ((bs ++ [(⟨a.length, b.length, 0⟩ : Match)]).map Match.Size).sum = c.length := by
      rw [c3]; simp [total]
    rw [this]
    apply le_quick
    · intro x; simpa using c1.count_le x
    · intro x
      have := c2.count_le x
      simp only [List.drop_zero] at this
      omega
  · rw [quickRatio, realQuickRatio, ha, hb]
    apply calculateRatio_mono hr
    rw [hq]
    exact Nat.le_min.mpr ⟨quick_le_length a _, quick_le_avail a b _ (fun x => by omega)⟩
  · unfold realQuickRatio calculateRatio
    rw [ha, hb]
    split
    · rename_i hpos
      rw [← hr.one]
      apply hr.mono
      have hp : (0 : Rat) < ((a.length + b.length : Nat) : Rat) := by exact_mod_cast hpos
      rw [div_le_one hp]
      have : 2 * min a.length b.length ≤ a.length + b.length := by omega
      exact_mod_cast this
    · exact le_refl _

example : ratio (fun x => x) (newMatcher (asc "abcd") (asc "bcde") true none) = some (3/4) ∧
    quickRatio (fun x => x) (newMatcher (asc "abcd") (asc "dcbe") true none) = 3/4 ∧
    Rounding fun x => x := ⟨by decide +kernel, by decide +kernel, ⟨fun _ _ h => h, rfl, rfl⟩⟩

/-! ### A sequence with itself -/

theorem self_match {keep : α → Prop} (m : Seqs α) (hm : m.Good keep) (hab : m.a = m.b) (lo hi : Nat) (hlt : lo < hi)
    (hhi : hi ≤ m.a.length) : (findLongestMatch m lo hi lo hi).A = (findLongestMatch m lo hi lo hi).B ∧
      0 < (findLongestMatch m lo hi lo hi).Size := by
  obtain ⟨s1, s2, _, s4⟩ := search_longest m hm lo hi lo hi (by omega) (by omega)
  generalize hs : search m lo hi (hi - lo) lo (fun _ => 0) ⟨lo, lo, 0⟩ = s at s1 s2 s4
  have diag : s.A = s.B := by
    rcases Nat.eq_zero_or_pos s.Size with h0 | h0
    · have := s2 h0; omega
    · have own : ∀ p, (p = s.A ∨ p = s.B) → Block m.a m.b keep lo hi lo hi p p s.Size := by
        intro p hp
        rcases hp with rfl | rfl
        · refine ⟨fun t ht => ?_, s1.ilo, s1.ihi, s1.ilo, s1.ihi⟩
          obtain ⟨x, h1, h2, h3⟩ := s1.common t ht
          exact ⟨x, h1, hab ▸ h1, h3⟩
        · refine ⟨fun t ht => ?_, s1.jlo, s1.jhi, s1.jlo, s1.jhi⟩
          obtain ⟨x, h1, h2, h3⟩ := s1.common t ht
          exact ⟨x, hab ▸ h2, h2, h3⟩
      have k1 := s4 s.A s.A h0 (own _ (Or.inl rfl))
      have k2 := s4 s.B s.B h0 (own _ (Or.inr rfl))
      omega
  obtain ⟨dl, dr, e1, l1, l2, b1, _, _, _, st1⟩ := extend_spec m (fun s => !m.isBJunk s) keep lo hi lo hi s s1
  have b1' : Block m.a m.b (fun y => keep y ∨ (!m.isBJunk y) = true) lo hi lo hi
      (extend m (fun s => !m.isBJunk s) lo hi lo hi s).A (extend m (fun s => !m.isBJunk s) lo hi lo hi s).B
      (extend m (fun s => !m.isBJunk s) lo hi lo hi s).Size := by rw [e1]; exact b1
  obtain ⟨dl', dr', e2, k1, k2, b2, _, _, _, st2⟩ := extend_spec m m.isBJunk _ lo hi lo hi _ b1'
  have hr : findLongestMatch m lo hi lo hi = extend m m.isBJunk lo hi lo hi (extend m (fun s => !m.isBJunk s) lo hi lo hi s) := by
    rw [← hs]; rfl
  rw [hr, e2]
  rw [e1] at k1 k2 st2 ⊢
  simp only at k1 k2 st2 ⊢
  refine ⟨by omega, ?_⟩
  rcases Nat.eq_zero_or_pos (s.Size + dl + dr + dl' + dr') with h0 | h0
  · exfalso
    have hA := s2 (by omega)
    have z1 : s.A + s.Size + dr = lo := by omega
    have z2 : s.B + s.Size + dr = lo := by omega
    have z3 : s.A - dl + (s.Size + dl + dr) + dr' = lo := by omega
    have z4 : s.B - dl + (s.Size + dl + dr) + dr' = lo := by omega
    rw [z1, z2] at st1
    rw [z3, z4] at st2
    have n1 := st1 hlt hlt
    have n2 := st2 hlt hlt
    have hx : m.a[lo]? = some (m.a[lo]'(by omega)) := List.getElem?_eq_getElem _
    have hy : m.b[lo]? = some (m.a[lo]'(by omega)) := by rw [← hab]; exact hx
    rw [Bool.eq_false_iff, Ne, eqAt_iff] at n1 n2
    by_cases hj : m.isBJunk (m.a[lo]'(by omega)) = true
    · exact n2 ⟨_, hx, hy, hj⟩
    · exact n1 ⟨_, hx, hy, by simpa using hj⟩
  · exact h0

theorem self_total {keep : α → Prop} (m : Seqs α) (hm : m.Good keep) (hab : m.a = m.b) : ∀ (fuel lo hi : Nat), lo < hi →
    hi ≤ m.a.length → hi - lo < fuel → ∃ l, matchBlocks m fuel lo hi lo hi = some l ∧ total l = hi - lo := by
  intro fuel
  induction fuel with
  | zero => intro lo hi _ _ h; omega
  | succ fuel ih =>
    intro lo hi hlt hhi hf
    rw [matchBlocks]
    obtain ⟨d1, d2⟩ := self_match m hm hab lo hi hlt hhi
    obtain ⟨hblk, _⟩ := findLongestMatch_sound m hm lo hi lo hi (by omega) (by omega)
    generalize findLongestMatch m lo hi lo hi = x at d1 d2 hblk
    have h1 := hblk.ilo; have h2 := hblk.ihi
    rw [if_pos d2, ← d1]
    have hleft : ∃ l, (if lo < x.A ∧ lo < x.A then matchBlocks m fuel lo x.A lo x.A else some []) = some l ∧
        total l = x.A - lo := by
      by_cases hc : lo < x.A ∧ lo < x.A
      · rw [if_pos hc]; exact ih lo x.A hc.1 (by omega) (by omega)
      · rw [if_neg hc]; exact ⟨[], rfl, by simp only [total, List.map_nil, List.sum_nil]; omega⟩
    have hright : ∃ r, (if x.A + x.Size < hi ∧ x.A + x.Size < hi then
        matchBlocks m fuel (x.A + x.Size) hi (x.A + x.Size) hi else some []) = some r ∧ total r = hi - (x.A + x.Size) := by
      by_cases hc : x.A + x.Size < hi ∧ x.A + x.Size < hi
      · rw [if_pos hc]; exact ih _ hi hc.1 hhi (by omega)
      · rw [if_neg hc]; exact ⟨[], rfl, by simp only [total, List.map_nil, List.sum_nil]; omega⟩
    obtain ⟨l, hl, tl⟩ := hleft
    obtain ⟨r, hr, tr⟩ := hright
    rw [hl, hr]
    refine ⟨_, rfl, ?_⟩
    simp only [total, List.map_append, List.map_cons, List.sum_append, List.sum_cons] at *
    omega

/-- C54: every sequence has ratio 1 with itself, for every junk function. -/
theorem self_ratio {rnd : Rat → Rat} (hr : Rounding rnd) (a : List α) (autoJunk : Bool) (isJunk : Option (α → Bool)) :
    ratio rnd (newMatcher a a autoJunk isJunk) = some 1 := by
  obtain ⟨hg, ha, hb, _⟩ := newMatcher_good a a autoJunk isJunk
  obtain ⟨l', hl', ho⟩ := matchBlocks_ordered _ hg (a.length + 1) 0 a.length 0 a.length (Nat.zero_le _) (Nat.zero_le _) (by omega)
  have htot : total l' = a.length := by
    rcases Nat.eq_zero_or_pos a.length with h0 | h0
    · obtain ⟨c, c1, _, c3⟩ := blocks_sublist a a l' 0 0 (by rw [ha, hb] at ho; exact ho)
      have := c1.length_le
      simp only [List.drop_zero] at this
      omega
    · obtain ⟨l, hl, ht⟩ := self_total _ hg (by rw [ha, hb]) (a.length + 1) 0 a.length h0 (by rw [ha]) (by omega)
      rw [hl'] at hl
      injection hl with hl
      subst hl
      omega
  obtain ⟨_, _, hct⟩ := collapse_start _ _ _ _ l' ho
  have hm : matchingBlocks (newMatcher a a autoJunk isJunk) = some (collapse ⟨0, 0, 0⟩ l' ++ [⟨a.length, a.length, 0⟩]) := by
    rw [matchingBlocks, ha, hb, hl']; rfl
  rw [ratio, hm, ha, hb, Option.map_some]
  congr 1
  have hsum : ((collapse ⟨0, 0, 0⟩ l' ++ [(⟨a.length, a.length, 0⟩ : Match)]).map Match.Size).sum = a.length := by
    simp only [List.map_append, List.sum_append, List.map_cons, List.map_nil, List.sum_cons, List.sum_nil]
    rw [total, htot] at hct
    omega
  rw [hsum, calculateRatio]
  split
  · rename_i hpos
    rw [← hr.one]
    congr 1
    have hne : ((a.length + a.length : Nat) : Rat) ≠ 0 := by
      have : (a.length + a.length : Nat) ≠ 0 := by omega
      exact_mod_cast this
    rw [div_eq_one_iff_eq hne]
    push_cast
    ring
  · rfl

example : ratio (fun x => x) (newMatcher (asc "x yz w") (asc "x yz w") true (some fun c => c = 32)) = some 1 := by decide +kernel

end Verif.Difflib
