import Verif.Basic

/-!
# C49, C50, C76: slices through reflect2

Model of `UnsafeAppend`, `UnsafeGrow`, `UnsafeSetIndex`, `UnsafeMakeSlice` and `calcNewCap` of reflect2/unsafe_slice.go.  Memory is a collection of arrays; a slice header
points into one.  Elements are values of any type; their size in bytes does not matter.
-/

namespace Verif.Reflect2

/-! ### Model -/

/-- Arrays, numbered in the order of allocation (unsafe_slice.go 9-13). -/
structure Mem (E : Type) where
  arrays : Nat → List E
  next : Nat

/-- `sliceHeader`, unsafe_slice.go 9-13; `Data` is an array and an offset in it, or nil. -/
structure Header where
  data : Option (Nat × Nat)
  len : Int
  cap : Int
  deriving DecidableEq, Repr

variable {E : Type}

/-- A 64-bit integer (the arithmetic of unsafe_slice.go 164-177). -/
def wrap (n : Int) : Int := Int.bmod n (2 ^ 64)

/-- One round of the loop at unsafe_slice.go 168-174. -/
def growOnce (cap : Int) : Int := if cap < 1024 then wrap (cap + cap) else wrap (cap + cap.tdiv 4)

/-- The loop; `none` if it has not ended within the number of rounds given (unsafe_slice.go 168-174). -/
def growLoop : Nat → Int → Int → Option Int
  | 0, cap, expected => if cap < expected then none else some cap
  | n + 1, cap, expected => if cap < expected then growLoop n (growOnce cap) expected else some cap

/-- `calcNewCap`, unsafe_slice.go 164-177. -/
def calcNewCap (rounds : Nat) (cap expected : Int) : Option Int := if cap = 0 then some expected else growLoop rounds cap expected

/-- `UnsafeMakeSlice`, unsafe_slice.go 77-80. -/
def makeSlice (zero : E) (m : Mem E) (len cap : Int) : Mem E × Header :=
  ({ arrays := fun a => if a = m.next then List.replicate cap.toNat zero else m.arrays a, next := m.next + 1 },
   { data := some (m.next, 0), len := len, cap := cap })

/-- The elements of a slice (unsafe_slice.go 9-13). -/
def elems (m : Mem E) (h : Header) : List E :=
  match h.data with
  | none => []
  | some (a, off) => ((m.arrays a).drop off).take h.len.toNat

/-- `typedslicecopy`, unsafe_slice.go 158. -/
def copySlice (m : Mem E) (dst src : Header) : Mem E :=
  match dst.data with
  | none => m
  | some (a, off) =>
    let n := min dst.len.toNat src.len.toNat
    { m with arrays := fun b => if b = a then (m.arrays a).take off ++ (elems m src).take n ++ (m.arrays a).drop (off + n) else m.arrays b }

/-- `UnsafeGrow`, unsafe_slice.go 150-162. -/
def grow (rounds : Nat) (zero : E) (m : Mem E) (h : Header) (newLength : Int) : Option (Mem E × Header) :=
  if newLength ≤ h.cap then some (m, { h with len := newLength })
  else
    match calcNewCap rounds h.cap newLength with
    | none => none
    | some newCap =>
      let r := makeSlice zero m h.len newCap
      some (copySlice r.1 r.2 h, { data := r.2.data, len := newLength, cap := r.2.cap })

/-- `UnsafeSetIndex`, unsafe_slice.go 101-105: the index is not checked; writing outside the array gives `none`. -/
def setIndex (m : Mem E) (h : Header) (index : Int) (x : E) : Option (Mem E) :=
  match h.data with
  | none => none
  | some (a, off) =>
    if 0 ≤ off + index ∧ off + index < (m.arrays a).length then
      some { m with arrays := fun b => if b = a then (m.arrays a).set (off + index).toNat x else m.arrays b }
    else none

/-- `UnsafeAppend`, unsafe_slice.go 127-132. -/
def append (rounds : Nat) (zero : E) (m : Mem E) (h : Header) (x : E) : Option (Mem E × Header) :=
  match grow rounds zero m h (h.len + 1) with
  | none => none
  | some (m, h') => (setIndex m h' h.len x).map fun m => (m, h')

/-! ### Specification -/

/-- A header as Go makes them: length within capacity, capacity within the array. -/
def Valid (m : Mem E) (h : Header) : Prop :=
  0 ≤ h.len ∧ h.len ≤ h.cap ∧
    match h.data with
    | none => h.cap = 0
    | some (a, off) => a < m.next ∧ off + h.cap.toNat ≤ (m.arrays a).length

/-- What may change of memory when something is appended to `h`: with room left the one place behind its last element, otherwise no array
that exists. -/
def ChangesOnly (m m' : Mem E) (h : Header) (x : E) : Prop :=
  ∀ b, b < m.next →
    m'.arrays b = match h.data with
      | some (a, off) => if h.len < h.cap ∧ b = a then (m.arrays b).set (off + h.len.toNat) x else m.arrays b
      | none => m.arrays b

/-! ### C50: the new capacity -/

theorem wrap_small (n : Int) (h0 : 0 ≤ n) (h : n < 9223372036854775808) : wrap n = n := by
  unfold wrap
  apply Int.bmod_eq_of_le <;> omega

theorem growOnce_spec (cap : Int) (h0 : 0 < cap) (h : cap ≤ 4611686018427387904) :
    cap < growOnce cap ∧ growOnce cap ≤ 2 * cap ∧ cap + cap / 4 ≤ growOnce cap := by
  unfold growOnce
  by_cases hc : cap < 1024
  · rw [if_pos hc, wrap_small _ (by omega) (by omega)]
    omega
  · rw [if_neg hc, Int.tdiv_eq_ediv_of_nonneg (by omega), wrap_small _ (by omega) (by omega)]
    omega

theorem growLoop_spec (n : Nat) (cap expected : Int) (h0 : 0 < cap) (he : expected ≤ 4611686018427387904) (hcap : cap < 2 * 4611686018427387904)
    (hn : expected - cap ≤ n) :
    ∃ c, growLoop n cap expected = some c ∧ expected ≤ c ∧ cap ≤ c ∧ (cap < expected → cap + cap / 4 ≤ c ∧ c < 2 * expected) ∧ (expected ≤ cap → c = cap) := by
  induction n generalizing cap with
  | zero =>
    refine ⟨cap, ?_, by omega, by omega, by omega, fun _ => rfl⟩
    unfold growLoop
    rw [if_neg (by omega)]
  | succ n ih =>
    unfold growLoop
    by_cases hlt : cap < expected
    · rw [if_pos hlt]
      obtain ⟨g1, g2, g3⟩ := growOnce_spec cap h0 (by omega)
      obtain ⟨c, h1, h2, h3, h4, h5⟩ := ih (growOnce cap) (by omega) (by omega) (by omega)
      refine ⟨c, h1, h2, by omega, ?_, by omega⟩
      intro _
      refine ⟨by omega, ?_⟩
      by_cases hg : growOnce cap < expected
      · exact (h4 hg).2
      · rw [h5 (by omega)]; omega
    · rw [if_neg hlt]
      exact ⟨cap, rfl, by omega, by omega, fun h => absurd h hlt, fun _ => rfl⟩

/-- C50 (partly): for expected lengths up to 2^62 the loop ends, and the new capacity is at least the expected length, at least the old capacity, and less than twice
what is needed; unless it was enough it grows by at least a quarter. -/
theorem new_cap_partial (cap expected : Int) (h0 : 0 ≤ cap) (he0 : 0 ≤ expected) (he : expected ≤ 4611686018427387904) (hcap : cap < 2 * 4611686018427387904) :
    ∃ rounds c, (∀ more, calcNewCap (rounds + more) cap expected = some c) ∧ expected ≤ c ∧ (cap ≤ expected → cap ≤ c) ∧ (0 < cap → cap ≤ c) ∧
      (0 < cap → cap < expected → cap + cap / 4 ≤ c ∧ c < 2 * expected) := by
  refine ⟨(expected - cap).toNat, ?_⟩
  by_cases hz : cap = 0
  · refine ⟨expected, ?_, by omega, by omega, by omega, by omega⟩
    intro more
    unfold calcNewCap
    rw [if_pos hz]
  · obtain ⟨c, h1, h2, h3, h4, h5⟩ := growLoop_spec (expected - cap).toNat cap expected (by omega) he hcap (by omega)
    refine ⟨c, ?_, h2, fun _ => h3, fun _ => h3, fun _ => h4⟩
    intro more
    unfold calcNewCap
    rw [if_neg hz]
    have mono : ∀ (n : Nat) (cap : Int), growLoop n cap expected = some c → ∀ more, growLoop (n + more) cap expected = some c := by
      intro n
      induction n with
      | zero =>
        intro cap h more
        unfold growLoop at h
        split at h
        · cases h
        · rename_i hlt
          cases more with
          | zero => unfold growLoop; rw [if_neg hlt]; exact h
          | succ k => unfold growLoop; rw [if_neg hlt]; exact h
      | succ n ih =>
        intro cap h more
        rw [show n + 1 + more = (n + more) + 1 by omega]
        unfold growLoop at h ⊢
        split
        · rename_i hlt
          rw [if_pos hlt] at h
          exact ih _ h more
        · rename_i hlt
          rw [if_neg hlt] at h
          exact h
    exact mono _ cap h1 more

example : calcNewCap 10 3 20 = some 24 ∧ calcNewCap 10 2000 2001 = some 2500 ∧ calcNewCap 10 0 7 = some 7 := by decide

theorem growLoop_zero (n : Nat) (expected : Int) (h : 0 < expected) : growLoop n 0 expected = none := by
  induction n with
  | zero => unfold growLoop; rw [if_pos h]
  | succ n ih =>
    unfold growLoop
    rw [if_pos h]
    exact ih

/-- C50 is false for huge sizes: the capacity overflows, becomes zero, and the loop never ends. -/
theorem huge_never_ends (rounds : Nat) : calcNewCap rounds 7378697629483820647 9223372036854775807 = none := by
  unfold calcNewCap
  rw [if_neg (by decide)]
  rcases rounds with _ | _ | n
  · decide
  · decide
  · unfold growLoop
    rw [if_pos (by decide)]
    unfold growLoop
    rw [if_pos (by decide)]
    have h : growOnce (growOnce 7378697629483820647) = 0 := by decide
    rw [h]
    exact growLoop_zero n _ (by decide)

/-! ### C49: appending -/

theorem toNat_add (off : Nat) (n : Int) (h : 0 ≤ n) : ((off : Int) + n).toNat = off + n.toNat := by omega

theorem take_set_end (l : List E) (n : Nat) (x : E) (h : n < l.length) : (l.set n x).take (n + 1) = l.take n ++ [x] := by
  rw [List.take_succ_eq_append_getElem (by rw [List.length_set]; exact h)]
  rw [List.take_set_of_le (Nat.le_refl _)]
  simp

/-- C49 (partly): appending to a slice as Go makes them - with any capacity, nil included, up to 2^62 elements - ends, writes nowhere outside the arrays, and the result is a slice as Go makes
them with the old elements followed by the new; of the arrays that existed, only the place behind the last element is changed, and that only if there was room. -/
theorem appends_partial (zero : E) (m : Mem E) (h : Header) (x : E) (hv : Valid m h) (hsize : h.cap < 4611686018427387904) :
    ∃ rounds m' h', (∀ more, append (rounds + more) zero m h x = some (m', h')) ∧ Valid m' h' ∧ elems m' h' = elems m h ++ [x] ∧ ChangesOnly m m' h x := by
  obtain ⟨v1, v2, v3⟩ := hv
  by_cases hroom : h.len < h.cap
  · -- within the capacity
    refine ⟨0, ?_⟩
    cases hd : h.data with
    | none => rw [hd] at v3; simp only at v3; omega
    | some p =>
      obtain ⟨a, off⟩ := p
      rw [hd] at v3
      simp only at v3
      have hin : off + h.len.toNat < (m.arrays a).length := by omega
      have happ : ∀ r, append r zero m h x = some ({ m with arrays := fun b => if b = a then (m.arrays a).set (off + h.len.toNat) x else m.arrays b },
          { h with len := h.len + 1 }) := by
        intro r
        unfold append grow
        rw [if_pos (by omega)]
        unfold setIndex
        simp only [hd]
        rw [if_pos ⟨by omega, by omega⟩, toNat_add off h.len v1]
        rfl
      refine ⟨_, _, fun more => happ _, ?_, ?_, ?_⟩
      · refine ⟨by simp only; omega, by simp only; omega, ?_⟩
        simp only [hd, if_true, List.length_set]
        exact v3
      · unfold elems
        simp only [hd, if_true]
        have hn : (h.len + 1).toNat = h.len.toNat + 1 := by omega
        rw [hn, List.drop_set, if_neg (by omega), Nat.add_sub_cancel_left, take_set_end _ _ _ (by rw [List.length_drop]; omega)]
      · intro b hb
        simp only [hd, hroom, true_and]
        by_cases hba : b = a
        · simp [hba]
        · simp [hba]
  · -- the array is full
    have hlc : h.len = h.cap := by omega
    obtain ⟨rounds, c, hc, hc1, _, _, _⟩ := new_cap_partial h.cap (h.len + 1) (by omega) (by omega) (by omega) (by omega)
    refine ⟨rounds, ?_⟩
    have hlen : (elems m h).length = h.len.toNat := by
      unfold elems
      cases hd : h.data with
      | none => rw [hd] at v3; simp only at v3; simp; omega
      | some p =>
        rw [hd] at v3
        simp only at v3
        simp only [List.length_take, List.length_drop]
        omega
    have hel : ∀ f : Nat → List E, (∀ b, b < m.next → f b = m.arrays b) → elems { arrays := f, next := m.next + 1 } h = elems m h := by
      intro f hf
      unfold elems
      cases hd : h.data with
      | none => rfl
      | some p =>
        rw [hd] at v3
        simp only at v3 ⊢
        rw [hf _ v3.1]
    have hcopy : copySlice (makeSlice zero m h.len c).1 (makeSlice zero m h.len c).2 h =
        { arrays := fun b => if b = m.next then elems m h ++ List.replicate (c.toNat - h.len.toNat) zero else m.arrays b, next := m.next + 1 } := by
      unfold copySlice makeSlice
      simp only
      rw [hel _ (by intro b hb; rw [if_neg (by omega)])]
      congr 1
      funext b
      by_cases hb : b = m.next
      · simp only [hb, if_true, Nat.min_self, List.take_zero, List.nil_append, Nat.zero_add]
        rw [List.take_of_length_le (by omega)]
        simp
      · simp [hb]
    have happ : ∀ more, append (rounds + more) zero m h x =
        some ({ arrays := fun b => if b = m.next then (elems m h ++ List.replicate (c.toNat - h.len.toNat) zero).set h.len.toNat x else m.arrays b, next := m.next + 1 },
          { data := some (m.next, 0), len := h.len + 1, cap := c }) := by
      intro more
      unfold append grow
      rw [if_neg (by omega), hc more]
      simp only
      rw [hcopy]
      unfold setIndex makeSlice
      simp only [if_true]
      rw [if_pos]
      · simp only [Option.map_some, Option.some.injEq, Prod.mk.injEq, and_true]
        congr 1
        funext b
        by_cases hb : b = m.next
        · simp [hb]
        · simp [hb]
      · rw [List.length_append, hlen, List.length_replicate]
        omega
    refine ⟨_, _, happ, ?_, ?_, ?_⟩
    · refine ⟨by simp only; omega, by simp only; omega, ?_⟩
      simp only [if_true, List.length_set, List.length_append, hlen, List.length_replicate]
      omega
    · generalize elems m h = e at hlen ⊢
      unfold elems
      simp only [if_true, List.drop_zero]
      have hn : (h.len + 1).toNat = h.len.toNat + 1 := by omega
      rw [hn, take_set_end _ _ _ (by rw [List.length_append, hlen, List.length_replicate]; omega)]
      congr 1
      rw [List.take_append_of_le_length (by omega), List.take_of_length_le (by omega)]
    · intro b hb
      simp only [hroom, false_and, if_false]
      rw [if_neg (by omega)]
      cases h.data <;> rfl

/-- Three elements in a full array of three: a new array is made, the old one stays. -/
example : (append 5 0 ⟨fun a => if a = 0 then [1, 2, 3] else [], 1⟩ ⟨some (0, 0), 3, 3⟩ 4).map (fun r => (elems r.1 r.2, r.1.arrays 0, r.2.cap)) =
    some ([1, 2, 3, 4], [1, 2, 3], 6) := by decide

/-- With room left, another slice of the array sees the new element - as with Go's append. -/
example : (append 5 0 ⟨fun a => if a = 0 then [1, 2, 3] else [], 1⟩ ⟨some (0, 1), 1, 2⟩ 9).map (fun r => (elems r.1 r.2, elems r.1 ⟨some (0, 0), 3, 3⟩)) =
    some ([2, 9], [1, 2, 9]) := by decide

/-! ### C76: growing -/

/-- C76 (partly): growing keeps the elements; if a new array has to be made, the added ones are zero and no existing array changes. -/
theorem grows_partial (zero : E) (m : Mem E) (h : Header) (n : Int) (hv : Valid m h) (hn : h.cap < n) (hsize : n ≤ 4611686018427387904) :
    ∃ rounds m' h', (∀ more, grow (rounds + more) zero m h n = some (m', h')) ∧ Valid m' h' ∧
      elems m' h' = elems m h ++ List.replicate (n - h.len).toNat zero ∧ ∀ b, b < m.next → m'.arrays b = m.arrays b := by
  obtain ⟨v1, v2, v3⟩ := hv
  obtain ⟨rounds, c, hc, hc1, _, _, _⟩ := new_cap_partial h.cap n (by omega) (by omega) (by omega) (by omega)
  have hlen : (elems m h).length = h.len.toNat := by
    unfold elems
    cases hd : h.data with
    | none => rw [hd] at v3; simp only at v3; simp; omega
    | some p =>
      rw [hd] at v3
      simp only at v3
      simp only [List.length_take, List.length_drop]
      omega
  have hel : ∀ f : Nat → List E, (∀ b, b < m.next → f b = m.arrays b) → elems { arrays := f, next := m.next + 1 } h = elems m h := by
    intro f hf
    unfold elems
    cases hd : h.data with
    | none => rfl
    | some p =>
      rw [hd] at v3
      simp only at v3 ⊢
      rw [hf _ v3.1]
  have hcopy : copySlice (makeSlice zero m h.len c).1 (makeSlice zero m h.len c).2 h =
      { arrays := fun b => if b = m.next then elems m h ++ List.replicate (c.toNat - h.len.toNat) zero else m.arrays b, next := m.next + 1 } := by
    unfold copySlice makeSlice
    simp only
    rw [hel _ (by intro b hb; rw [if_neg (by omega)])]
    congr 1
    funext b
    by_cases hb : b = m.next
    · simp only [hb, if_true, Nat.min_self, List.take_zero, List.nil_append, Nat.zero_add]
      rw [List.take_of_length_le (by omega)]
      simp
    · simp [hb]
  have hgrow : ∀ more, grow (rounds + more) zero m h n = some ({ arrays := fun b => if b = m.next then elems m h ++ List.replicate (c.toNat - h.len.toNat) zero else m.arrays b, next := m.next + 1 },
      { data := some (m.next, 0), len := n, cap := c }) := by
    intro more
    unfold grow
    rw [if_neg (by omega), hc more]
    simp only [hcopy]
    rfl
  refine ⟨rounds, _, _, hgrow, ?_, ?_, ?_⟩
  · refine ⟨by simp only; omega, by simp only; omega, ?_⟩
    simp only [if_true, List.length_append, hlen, List.length_replicate]
    omega
  · generalize elems m h = e at hlen ⊢
    unfold elems
    simp only [if_true, List.drop_zero]
    rw [List.take_append, List.take_of_length_le (by omega), hlen, List.take_replicate]
    congr 2
    omega
  · intro b hb
    simp only
    rw [if_neg (by omega)]

/-- C76 is false within the capacity: the added elements are whatever the array holds there. -/
theorem grow_shows_stale : (grow 5 0 ⟨fun a => if a = 0 then [1, 2, 3] else [], 1⟩ ⟨some (0, 0), 1, 3⟩ 3).map (fun r => elems r.1 r.2) = some [1, 2, 3] := by decide

/-- C76 is false for a smaller length: `Grow` then cuts elements off. -/
theorem grow_cuts : (grow 5 0 ⟨fun a => if a = 0 then [1, 2, 3] else [], 1⟩ ⟨some (0, 0), 3, 3⟩ 1).map (fun r => elems r.1 r.2) = some [1] := by decide

/-- C76: setting an element that exists changes it and nothing else. -/
theorem set_element (m : Mem E) (h : Header) (i : Nat) (x : E) (hv : Valid m h) (hi : (i : Int) < h.len) :
    ∃ m', setIndex m h i x = some m' ∧ elems m' h = (elems m h).set i x ∧ m'.next = m.next ∧
      ∀ a off, h.data = some (a, off) → (∀ b, b ≠ a → m'.arrays b = m.arrays b) ∧ m'.arrays a = (m.arrays a).set (off + i) x := by
  obtain ⟨v1, v2, v3⟩ := hv
  cases hd : h.data with
  | none => rw [hd] at v3; simp only at v3; omega
  | some p =>
    obtain ⟨a, off⟩ := p
    rw [hd] at v3
    simp only at v3
    unfold setIndex
    simp only [hd]
    rw [if_pos ⟨by omega, by omega⟩]
    have ht : ((off : Int) + (i : Int)).toNat = off + i := by omega
    rw [ht]
    refine ⟨_, rfl, ?_, rfl, ?_⟩
    · unfold elems
      simp only [hd, if_true]
      rw [List.drop_set, if_neg (by omega), Nat.add_sub_cancel_left, List.take_set]
    · intro a' off' he
      simp only [Option.some.injEq, Prod.mk.injEq] at he
      obtain ⟨rfl, rfl⟩ := he
      exact ⟨fun b hb => by simp [hb], by simp⟩

/-- C76 is false of `SetIndex` and `GetIndex`: the index is not checked, so that an element behind the end of the slice, belonging to another slice, is overwritten. -/
theorem index_unchecked : (setIndex ⟨fun a => if a = 0 then [1, 2, 3] else [], 1⟩ ⟨some (0, 0), 1, 1⟩ 2 9).map (fun m => elems m ⟨some (0, 0), 3, 3⟩) =
    some [1, 2, 9] := by decide

end Verif.Reflect2
