import Verif.Reflect2.Slice
import Verif.Reflect2.Maps

/-!
# C109, C110: the safe configuration of reflect2 beside the unsafe one

`ConfigSafe` and `ConfigUnsafe` offer the same interfaces.  Model of reflect2/safe_slice.go beside unsafe_slice.go (Slice.lean): a
program is a sequence of calls on one slice variable; and of reflect2/safe_field.go beside unsafe_field.go (Types.lean), and
of the interfaces the types made by `wrapType` satisfy.
-/

namespace Verif.Reflect2.Safe

/-! ### Model: slices -/

variable {E : Type}

/-- The calls of `SliceType` (reflect2.go:36-64) whose effect does not depend on capacities, on one slice variable; `make` assigns the result of
`MakeSlice` to it, `get` reads the element `GetIndex` points to at once. -/
inductive Op (E : Type) where
  | set (i : Int) (x : E)
  | get (i : Int)
  | append (x : E)
  | setNil
  | isNil
  | length
  | make (len cap : Int)

/-- What a call returns (reflect2.go:36-64). -/
inductive Res (E : Type) where
  | unit
  | elem (x : E)
  | bool (b : Bool)
  | int (n : Int)
  deriving DecidableEq

/-- The element at an index, wherever that is: `arrayAt` (unsafe_link.go:68-70) as used in unsafe_slice.go:114-117; `none` outside the array. -/
def elemAt (m : Mem E) (h : Header) (i : Int) : Option E :=
  match h.data with
  | none => none
  | some (a, off) => if 0 ≤ off + i then (m.arrays a)[(off + i).toNat]? else none

/-- A call of the unsafe implementation: unsafe_slice.go:93-105 (`SetIndex`), 107-117 (`GetIndex`), 119-132 (`Append`), 60-71 (`SetNil`),
44-58 (`IsNil`), 82-91 (`LengthOf`), 73-80 (`MakeSlice`: allocation panics for a negative capacity).  `none` is a panic, or
an access outside the array. -/
def unsafeCall (rounds : Nat) (zero : E) (s : Mem E × Header) : Op E → Option ((Mem E × Header) × Res E)
  | .set i x => (setIndex s.1 s.2 i x).map fun m => ((m, s.2), .unit)
  | .get i => (elemAt s.1 s.2 i).map fun x => (s, .elem x)
  | .append x => (append rounds zero s.1 s.2 x).map fun s => (s, .unit)
  | .setNil => some ((s.1, ⟨none, 0, 0⟩), .unit)
  | .isNil => some (s, .bool s.2.data.isNone)
  | .length => some (s, .int s.2.len)
  | .make len cap => if cap < 0 then none else some (makeSlice zero s.1 len cap, .unit)

/-- `reflect.Append` of one value, as safe_slice.go:58-63 calls it; `room` is the runtime's choice of a new capacity. -/
def reflectAppend (room : Int → Int) (zero : E) (m : Mem E) (h : Header) (x : E) : Option (Mem E × Header) :=
  if h.len + 1 ≤ h.cap then (setIndex m h h.len x).map fun m => (m, { h with len := h.len + 1 })
  else
    let r := makeSlice zero m (h.len + 1) (room (h.len + 1))
    (setIndex (copySlice r.1 r.2 h) r.2 h.len x).map fun m => (m, r.2)

/-- A call of the safe implementation: safe_slice.go:12-16 (`SetIndex`), 22-28 (`GetIndex`), 58-63 (`Append`), 69-72 (`SetNil`), safe_type.go:57-62
(`IsNil`), safe_slice.go:78-80 (`LengthOf`), 34-39 (`MakeSlice`).  The checks are those of `Value.Index` and `reflect.MakeSlice`. -/
def safeCall (room : Int → Int) (zero : E) (s : Mem E × Header) : Op E → Option ((Mem E × Header) × Res E)
  | .set i x => if 0 ≤ i ∧ i < s.2.len then (setIndex s.1 s.2 i x).map fun m => ((m, s.2), .unit) else none
  | .get i => if 0 ≤ i ∧ i < s.2.len then (elemAt s.1 s.2 i).map fun x => (s, .elem x) else none
  | .append x => (reflectAppend room zero s.1 s.2 x).map fun s => (s, .unit)
  | .setNil => some ((s.1, ⟨none, 0, 0⟩), .unit)
  | .isNil => some (s, .bool s.2.data.isNone)
  | .length => some (s, .int s.2.len)
  | .make len cap => if 0 ≤ len ∧ 0 ≤ cap ∧ len ≤ cap then some (makeSlice zero s.1 len cap, .unit) else none

/-- `safeSliceType.Grow`, safe_slice.go:45-52: `make` panics for a negative number, `reflect.Append` for values that are not valid; none are appended if
the new length is the capacity. -/
def safeGrow (m : Mem E) (h : Header) (newLength : Int) : Option (Mem E × Header) :=
  if newLength - h.cap < 0 then none else if newLength - h.cap = 0 then some (m, h) else none

/-- The calls of a program one after the other (the interfaces at reflect2.go:36-64): what they returned, and whether all of them did. -/
def run {S : Type} (call : S → Op E → Option (S × Res E)) : S → List (Op E) → List (Res E) × Bool
  | _, [] => ([], true)
  | s, op :: rest =>
    match call s op with
    | none => ([], false)
    | some (s, r) => let t := run call s rest; (r :: t.1, t.2)

/-! ### Specification: slices -/

/-- The calls on a list, `none` for a nil slice; `none` as a result is a panic. -/
def listCall (zero : E) (s : Option (List E)) : Op E → Option (Option (List E) × Res E)
  | .set i x => if 0 ≤ i ∧ i < (s.getD []).length then some (s.map fun l => l.set i.toNat x, .unit) else none
  | .get i => if 0 ≤ i then ((s.getD [])[i.toNat]?).map fun x => (s, .elem x) else none
  | .append x => some (some (s.getD [] ++ [x]), .unit)
  | .setNil => some (none, .unit)
  | .isNil => some (s, .bool s.isNone)
  | .length => some (s, .int (s.getD []).length)
  | .make len cap => if 0 ≤ len ∧ len ≤ cap then some (some (List.replicate len.toNat zero), .unit) else none

/-- How much room the calls of a program ask for. -/
def demand : List (Op E) → Int
  | [] => 0
  | .append _ :: rest => 1 + demand rest
  | .make _ cap :: rest => max cap 0 + demand rest
  | _ :: rest => demand rest

/-- The slice variable stands for the list. -/
structure Means (m : Mem E) (h : Header) (s : Option (List E)) : Prop where
  valid : Valid m h
  elems : elems m h = s.getD []
  null : h.data = none ↔ s = none

/-! ### Proofs: slices -/

theorem Means.len {m : Mem E} {h : Header} {s : Option (List E)} (hs : Means m h s) : h.len = ((s.getD []).length : Int) := by
  obtain ⟨⟨v1, v2, v3⟩, he, _⟩ := hs
  rw [← he]
  unfold Reflect2.elems
  cases hd : h.data with
  | none => rw [hd] at v3; simp only at v3; simp; omega
  | some p =>
    obtain ⟨a, off⟩ := p
    rw [hd] at v3
    simp only at v3
    simp only [List.length_take, List.length_drop]
    omega

theorem elemAt_means {m : Mem E} {h : Header} {s : Option (List E)} (hs : Means m h s) (i : Int) (h0 : 0 ≤ i) (hi : i < h.len) :
    elemAt m h i = (s.getD [])[i.toNat]? := by
  obtain ⟨⟨v1, v2, v3⟩, he, _⟩ := hs
  rw [← he]
  unfold elemAt Reflect2.elems
  cases hd : h.data with
  | none => rw [hd] at v3; simp only at v3; omega
  | some p =>
    obtain ⟨a, off⟩ := p
    rw [hd] at v3
    simp only at v3
    simp only
    rw [if_pos (by omega), List.getElem?_take_of_lt (by omega), List.getElem?_drop]
    congr 1
    omega

theorem set_means {m : Mem E} {h : Header} {s : Option (List E)} (hs : Means m h s) (i : Int) (x : E) (h0 : 0 ≤ i) (hi : i < h.len) :
    ∃ m', setIndex m h i x = some m' ∧ Means m' h (s.map fun l => l.set i.toNat x) := by
  obtain ⟨m', h1, h2, h3, h4⟩ := set_element m h i.toNat x hs.valid (by omega)
  rw [show ((i.toNat : Nat) : Int) = i by omega] at h1
  refine ⟨m', h1, ⟨?_, ?_, ?_⟩⟩
  · obtain ⟨v1, v2, v3⟩ := hs.valid
    refine ⟨v1, v2, ?_⟩
    cases hd : h.data with
    | none => rw [hd] at v3; exact v3
    | some p =>
      obtain ⟨a, off⟩ := p
      rw [hd] at v3
      simp only at v3 ⊢
      rw [h3, (h4 a off hd).2, List.length_set]
      exact v3
  · rw [h2, hs.elems]
    cases s <;> simp
  · rw [hs.null]
    cases s <;> simp

theorem make_means (zero : E) (m : Mem E) (len cap : Int) (h0 : 0 ≤ len) (hc : len ≤ cap) :
    Means (makeSlice zero m len cap).1 (makeSlice zero m len cap).2 (some (List.replicate len.toNat zero)) := by
  refine ⟨⟨h0, hc, ?_⟩, ?_, by simp [makeSlice]⟩
  · simp [makeSlice]
  · simp only [elems, makeSlice, if_true, List.drop_zero, List.take_replicate, Option.getD_some]
    congr 1
    omega

theorem nil_means (m : Mem E) : Means m ⟨none, 0, 0⟩ none := ⟨⟨by simp, by simp, rfl⟩, rfl, by simp⟩

theorem reflectAppend_means (room : Int → Int) (hroom : ∀ n, n ≤ room n) (zero : E) {m : Mem E} {h : Header} {s : Option (List E)} (hs : Means m h s)
    (x : E) : ∃ m' h', reflectAppend room zero m h x = some (m', h') ∧ Means m' h' (some (s.getD [] ++ [x])) := by
  have hl := hs.len
  obtain ⟨v1, v2, v3⟩ := hs.valid
  unfold reflectAppend
  by_cases hc : h.len + 1 ≤ h.cap
  · rw [if_pos hc]
    cases hd : h.data with
    | none => rw [hd] at v3; simp only at v3; omega
    | some p =>
      obtain ⟨a, off⟩ := p
      rw [hd] at v3
      simp only at v3
      unfold setIndex
      simp only [hd]
      rw [if_pos ⟨by omega, by omega⟩]
      refine ⟨_, _, rfl, ⟨by simp only; omega, by simpa using hc, ?_⟩, ?_, by simp⟩
      · simp only [if_true, List.length_set]
        exact v3
      · have he := hs.elems
        unfold elems at he ⊢
        simp only [hd, if_true, Option.getD_some] at he ⊢
        rw [← he, List.drop_set, if_neg (by omega)]
        have h1 : (h.len + 1).toNat = h.len.toNat + 1 := by omega
        have h2 : ((off : Int) + h.len).toNat - off = h.len.toNat := by omega
        rw [h1, h2, List.take_set]
        apply List.ext_getElem?
        intro j
        rw [List.getElem?_set, List.getElem?_append]
        have hlen : (((m.arrays a).drop off).take h.len.toNat).length = h.len.toNat := by simp; omega
        have hlen' : (((m.arrays a).drop off).take (h.len.toNat + 1)).length = h.len.toNat + 1 := by simp; omega
        rw [hlen, hlen']
        by_cases hj : h.len.toNat = j
        · subst hj; simp
        · rw [if_neg hj]
          by_cases hlt : j < h.len.toNat
          · rw [if_pos hlt, List.getElem?_take_of_lt (by omega), List.getElem?_take_of_lt hlt]
          · rw [if_neg hlt, List.getElem?_take_eq_none (by omega)]
            rw [List.getElem?_eq_none]
            simp; omega
  · rw [if_neg hc]
    have hr := hroom (h.len + 1)
    have hlist : (elems (makeSlice zero m (h.len + 1) (room (h.len + 1))).1 h) = s.getD [] := by
      rw [← hs.elems]
      unfold elems makeSlice
      cases hd : h.data with
      | none => rfl
      | some p =>
        obtain ⟨a, off⟩ := p
        rw [hd] at v3
        simp only at v3 ⊢
        rw [if_neg (by omega)]
    have hlen : (s.getD []).length = h.len.toNat := by omega
    simp only
    unfold setIndex copySlice
    simp only [hlist]
    simp only [makeSlice, if_true, List.take_zero, List.nil_append]
    have ht : ((s.getD []).take (min (h.len + 1).toNat h.len.toNat)) = s.getD [] := by
      apply List.take_of_length_le; omega
    rw [ht]
    have hm : min (h.len + 1).toNat h.len.toNat = h.len.toNat := by omega
    rw [hm]
    rw [if_pos ⟨by omega, by simp; omega⟩]
    refine ⟨_, _, rfl, ⟨by simp only; omega, by simpa using hr, ?_⟩, ?_, by simp⟩
    · simp only [if_true, List.length_set, List.length_append, List.length_drop, List.length_replicate]
      omega
    · unfold elems
      simp only [if_true, Option.getD_some, List.drop_zero, Nat.zero_add]
      apply List.ext_getElem?
      intro j
      have h2 : (((0 : Nat) : Int) + h.len).toNat = h.len.toNat := by omega
      have h1 : (h.len + 1).toNat = h.len.toNat + 1 := by omega
      rw [h2, h1]
      by_cases hj : j < h.len.toNat + 1
      · rw [List.getElem?_take_of_lt hj, List.getElem?_set, List.getElem?_append, List.getElem?_append, hlen]
        by_cases he : h.len.toNat = j
        · subst he; simp; omega
        · rw [if_neg he, if_pos (by omega), if_pos (by omega)]
      · rw [List.getElem?_take_eq_none (by omega), List.getElem?_eq_none]
        simp; omega

/-- C109, half of it: with the safe configuration every program on a slice variable returns what it would return for a list, and panics where that
would, whatever capacities the runtime chooses. -/
theorem safe_is_list (room : Int → Int) (hroom : ∀ n, n ≤ room n) (zero : E) : ∀ (ops : List (Op E)) {m : Mem E} {h : Header} {s : Option (List E)},
    Means m h s → run (safeCall room zero) (m, h) ops = run (listCall zero) s ops
  | [], _, _, _, _ => rfl
  | op :: rest, m, h, s, hs => by
    have hl := hs.len
    have ih := fun {m' h' s'} => safe_is_list room hroom zero rest (m := m') (h := h') (s := s')
    rw [run, run]
    cases op with
    | set i x =>
      simp only [safeCall, listCall, hl]
      by_cases hi : 0 ≤ i ∧ i < ((s.getD []).length : Int)
      · rw [if_pos hi, if_pos hi]
        obtain ⟨m', h1, h2⟩ := set_means hs i x hi.1 (by omega)
        rw [h1]
        simp only [Option.map_some]
        rw [ih h2]
      · rw [if_neg hi, if_neg hi]
    | get i =>
      simp only [safeCall, listCall, hl]
      by_cases hi : 0 ≤ i ∧ i < ((s.getD []).length : Int)
      · rw [if_pos hi, if_pos hi.1, elemAt_means hs i hi.1 (by omega)]
        rw [List.getElem?_eq_getElem (by omega)]
        simp only [Option.map_some]
        rw [ih hs]
      · rw [if_neg hi]
        by_cases h0 : 0 ≤ i
        · rw [if_pos h0, List.getElem?_eq_none (by omega)]
          rfl
        · rw [if_neg h0]
    | append x =>
      simp only [safeCall, listCall]
      obtain ⟨m', h', h1, h2⟩ := reflectAppend_means room hroom zero hs x
      rw [h1]
      simp only [Option.map_some]
      rw [ih h2]
    | setNil =>
      simp only [safeCall, listCall]
      rw [ih (nil_means m)]
    | isNil =>
      simp only [safeCall, listCall]
      rw [ih hs]
      have : h.data.isNone = s.isNone := by
        have := hs.null
        cases hd : h.data <;> cases s <;> simp_all
      rw [this]
    | length =>
      simp only [safeCall, listCall]
      rw [ih hs, hl]
    | make len cap =>
      simp only [safeCall, listCall]
      by_cases hc : 0 ≤ len ∧ len ≤ cap
      · rw [if_pos ⟨hc.1, by omega, hc.2⟩, if_pos hc]
        simp only
        rw [ih (make_means zero m len cap hc.1 hc.2)]
      · rw [if_neg (by omega), if_neg hc]

/-- Appending within the sizes of `appends_partial`, with a bound for the new capacity. -/
theorem append_means (zero : E) {m : Mem E} {h : Header} {s : Option (List E)} (hs : Means m h s) (x : E) (hsize : h.cap < 4611686018427387904) :
    ∃ rounds m' h', (∀ more, append (rounds + more) zero m h x = some (m', h')) ∧ Means m' h' (some (s.getD [] ++ [x])) ∧
      h'.cap ≤ max h.cap (2 * (h.len + 1)) := by
  obtain ⟨r1, m', h', h1, h2, h3, _⟩ := appends_partial zero m h x hs.valid hsize
  obtain ⟨v1, v2, v3⟩ := hs.valid
  obtain ⟨r2, c, hc, hc1, _, _, hc4⟩ := new_cap_partial h.cap (h.len + 1) (by omega) (by omega) (by omega) (by omega)
  refine ⟨r1 + r2, m', h', fun more => by rw [Nat.add_assoc]; exact h1 _, ⟨h2, by rw [h3, hs.elems]; rfl, ?_⟩, ?_⟩
  · constructor
    · intro hn
      unfold elems at h3
      rw [hn] at h3
      simp at h3
    · intro hn; cases hn
  · have hrun := h1 r2
    rw [Nat.add_comm] at hrun
    unfold append grow at hrun
    by_cases hle : h.len + 1 ≤ h.cap
    · rw [if_pos hle] at hrun
      simp only [Option.map_eq_some_iff, Prod.mk.injEq] at hrun
      obtain ⟨_, _, _, rfl⟩ := hrun
      simp only
      omega
    · rw [if_neg hle, hc r1] at hrun
      simp only [Option.map_eq_some_iff, Prod.mk.injEq] at hrun
      obtain ⟨_, _, _, rfl⟩ := hrun
      simp only [makeSlice]
      by_cases hz : h.cap = 0
      · have hcz := hc 0
        unfold calcNewCap at hcz
        rw [if_pos hz] at hcz
        simp only [Option.some.injEq] at hcz
        omega
      · have := hc4 (by omega) (by omega)
        omega

/-- The other half of C109, partial: with the unsafe configuration every program that returns something for a list returns the same, unless it asks for
room for more than 2^60 elements. -/
theorem unsafe_is_list_partial (zero : E) : ∀ (ops : List (Op E)) {m : Mem E} {h : Header} {s : Option (List E)} (used : Int),
    Means m h s → h.len ≤ used → h.cap ≤ 2 * used → used + demand ops ≤ 1152921504606846976 → (run (listCall zero) s ops).2 = true →
    ∃ rounds, ∀ more, run (unsafeCall (rounds + more) zero) (m, h) ops = run (listCall zero) s ops
  | [], _, _, _, _, _, _, _, _, _ => ⟨0, fun _ => rfl⟩
  | op :: rest, m, h, s, used, hs, hu, hcap, hd, hok => by
    have hl := hs.len
    have hpos : ∀ ops : List (Op E), 0 ≤ demand ops := by
      intro ops
      induction ops with
      | nil => simp [demand]
      | cons op ops ih => cases op <;> simp only [demand] <;> omega
    have hposr := hpos rest
    have ih := fun {m' h' s'} => unsafe_is_list_partial zero rest (m := m') (h := h') (s := s')
    rw [run] at hok
    cases op with
    | set i x =>
      simp only [demand] at hd
      simp only [listCall] at hok
      by_cases hi : 0 ≤ i ∧ i < ((s.getD []).length : Int)
      · rw [if_pos hi] at hok
        obtain ⟨m', h1, h2⟩ := set_means hs i x hi.1 (by omega)
        obtain ⟨r, hr⟩ := ih used h2 hu hcap hd hok
        refine ⟨r, fun more => ?_⟩
        rw [run, run]
        simp only [unsafeCall, listCall, if_pos hi, h1, Option.map_some]
        rw [hr]
      · rw [if_neg hi] at hok; cases hok
    | get i =>
      simp only [demand] at hd
      simp only [listCall] at hok
      by_cases h0 : 0 ≤ i
      · rw [if_pos h0] at hok
        by_cases hi : i < ((s.getD []).length : Int)
        · have hx := List.getElem?_eq_getElem (l := s.getD []) (i := i.toNat) (by omega)
          rw [hx] at hok
          simp only [Option.map_some] at hok
          obtain ⟨r, hr⟩ := ih used hs hu hcap hd hok
          refine ⟨r, fun more => ?_⟩
          rw [run, run]
          simp only [unsafeCall, listCall, if_pos h0]
          rw [elemAt_means hs i h0 (by omega), hx]
          simp only [Option.map_some]
          rw [hr]
        · rw [List.getElem?_eq_none (by omega)] at hok; cases hok
      · rw [if_neg h0] at hok; cases hok
    | append x =>
      simp only [demand] at hd
      simp only [listCall] at hok
      obtain ⟨r1, m', h', h1, h2, h3⟩ := append_means zero hs x (by omega)
      have hl' := h2.len
      simp only [Option.getD_some, List.length_append, List.length_singleton] at hl'
      obtain ⟨r2, hr⟩ := ih (used + 1) h2 (by omega) (by omega) (by omega) hok
      refine ⟨r1 + r2, fun more => ?_⟩
      rw [run, run]
      simp only [unsafeCall, listCall]
      rw [show r1 + r2 + more = r1 + (r2 + more) by omega, h1]
      simp only [Option.map_some]
      rw [show r1 + (r2 + more) = r2 + (r1 + more) by omega, hr]
    | setNil =>
      simp only [demand] at hd
      simp only [listCall] at hok
      have v := hs.valid
      obtain ⟨r, hr⟩ := ih used (nil_means m) (by have := v.1; simp only; omega) (by have := v.1; simp only; omega) hd hok
      refine ⟨r, fun more => ?_⟩
      rw [run, run]
      simp only [unsafeCall, listCall]
      rw [hr]
    | isNil =>
      simp only [demand] at hd
      simp only [listCall] at hok
      obtain ⟨r, hr⟩ := ih used hs hu hcap hd hok
      refine ⟨r, fun more => ?_⟩
      rw [run, run]
      simp only [unsafeCall, listCall]
      rw [hr]
      have : h.data.isNone = s.isNone := by
        have := hs.null
        cases hd : h.data <;> cases s <;> simp_all
      rw [this]
    | length =>
      simp only [demand] at hd
      simp only [listCall] at hok
      obtain ⟨r, hr⟩ := ih used hs hu hcap hd hok
      refine ⟨r, fun more => ?_⟩
      rw [run, run]
      simp only [unsafeCall, listCall]
      rw [hr, hl]
    | make len cap =>
      simp only [demand] at hd
      simp only [listCall] at hok
      by_cases hc : 0 ≤ len ∧ len ≤ cap
      · rw [if_pos hc] at hok
        have v := hs.valid
        obtain ⟨r, hr⟩ := ih (used + cap) (make_means zero m len cap hc.1 hc.2) (by have := v.1; simp only [makeSlice]; omega)
          (by have := v.1; simp only [makeSlice]; omega) (by omega) hok
        refine ⟨r, fun more => ?_⟩
        rw [run, run]
        simp only [unsafeCall, listCall]
        rw [if_pos hc, if_neg (by omega)]
        simp only
        rw [hr]
      · rw [if_neg hc] at hok; cases hok

/-- C109, partial: a program on a new slice variable that does not panic with the safe configuration returns the same with the unsafe one, unless it
asks for room for more than 2^60 elements.  Missing: that it panics with both if with one. -/
theorem configurations_agree_partial (room : Int → Int) (hroom : ∀ n, n ≤ room n) (zero : E) (m : Mem E) (ops : List (Op E))
    (hd : demand ops ≤ 1152921504606846976) (hok : (run (safeCall room zero) (m, ⟨none, 0, 0⟩) ops).2 = true) :
    ∃ rounds, ∀ more, run (unsafeCall (rounds + more) zero) (m, ⟨none, 0, 0⟩) ops = run (safeCall room zero) (m, ⟨none, 0, 0⟩) ops := by
  have h1 := safe_is_list room hroom zero ops (nil_means m)
  rw [h1] at hok ⊢
  exact unsafe_is_list_partial zero ops 0 (nil_means m) (by simp) (by simp) (by omega) hok

example : run (safeCall (fun n => n + 3) 0) (⟨fun _ => [], 0⟩, ⟨none, 0, 0⟩)
      [.isNil, .append 7, .make 2 2, .set 1 5, .append 9, .get 1, .get 2, .length, .setNil, .length, .isNil] =
    ([.bool true, .unit, .unit, .unit, .unit, .elem 5, .elem 9, .int 3, .unit, .int 0, .bool true], true) := by decide +kernel

example : run (unsafeCall 5 0) (⟨fun _ => [], 0⟩, ⟨none, 0, 0⟩)
      [.isNil, .append 7, .make 2 2, .set 1 5, .append 9, .get 1, .get 2, .length, .setNil, .length, .isNil] =
    ([.bool true, .unit, .unit, .unit, .unit, .elem 5, .elem 9, .int 3, .unit, .int 0, .bool true], true) := by decide +kernel

/-- C109 is false of indices: behind the end of a slice with room left the safe configuration panics and the unsafe one sets and gets. -/
theorem index_differs (rounds : Nat) (room : Int → Int) :
    run (safeCall room 0) (⟨fun _ => [], 0⟩, ⟨none, 0, 0⟩) [.make 1 2, .set 1 5, .get 1] = ([.unit], false) ∧
    run (unsafeCall rounds 0) (⟨fun _ => [], 0⟩, ⟨none, 0, 0⟩) [.make 1 2, .set 1 5, .get 1] = ([.unit, .unit, .elem 5], true) := by
  constructor <;> rfl

/-- C109 is false of `MakeSlice`: with a length above the capacity the safe configuration panics, the unsafe one makes a slice longer than its array. -/
theorem make_differs (rounds : Nat) (room : Int → Int) :
    run (safeCall room 0) (⟨fun _ => [], 0⟩, ⟨none, 0, 0⟩) [.make 5 2, .length] = ([], false) ∧
    run (unsafeCall rounds 0) (⟨fun _ => [], 0⟩, ⟨none, 0, 0⟩) [.make 5 2, .length] = ([.unit, .int 5], true) := by
  constructor <;> rfl

/-- C109 is false of `Grow`, for every slice and every new length: the safe configuration panics, or leaves the slice as it is if the length is to be the
capacity; the unsafe one sets the length. -/
theorem grow_differs (zero : E) (m : Mem E) (h : Header) (n : Int) (hv : Valid m h) (hn : h.len < n) (hsize : n ≤ 4611686018427387904) :
    ((n ≠ h.cap → safeGrow m h n = none) ∧ (n = h.cap → safeGrow m h n = some (m, h))) ∧
    ∃ rounds m' h', (∀ more, grow (rounds + more) zero m h n = some (m', h')) ∧ h'.len = n := by
  constructor
  · unfold safeGrow
    constructor
    · intro hne
      by_cases hl : n - h.cap < 0
      · rw [if_pos hl]
      · rw [if_neg hl, if_neg (by omega)]
    · intro he
      rw [if_neg (by omega), if_pos (by omega)]
  · obtain ⟨v1, v2, _⟩ := hv
    by_cases hc : n ≤ h.cap
    · refine ⟨0, m, { h with len := n }, fun more => ?_, rfl⟩
      unfold grow
      rw [if_pos hc]
    · obtain ⟨rounds, c, hc1, _⟩ := new_cap_partial h.cap n (by omega) (by omega) hsize (by omega)
      let r := makeSlice zero m h.len c
      refine ⟨rounds, copySlice r.1 r.2 h, ⟨r.2.data, n, r.2.cap⟩, fun more => ?_, rfl⟩
      unfold grow
      rw [if_neg hc, hc1 more]

example : Valid (⟨fun _ => [1, 2, 3], 1⟩ : Mem Nat) ⟨some (0, 0), 1, 3⟩ := ⟨by decide, by decide, by decide, by decide⟩

/-- `GetIndex` differs in what it points to: changes of the slice made later are seen through the pointer with the unsafe configuration only
(safe_slice.go:22-28 makes a copy; unsafe_slice.go:114-117 does not).  Stated on memory: setting the element changes what is at the element's
place and nothing in another array. -/
theorem get_points (m : Mem E) (h : Header) (s : Option (List E)) (hs : Means m h s) (i : Int) (x : E) (h0 : 0 ≤ i) (hi : i < h.len)
    (copy : Header) (c : Nat) (hc : copy.data = some (c, 0)) (hne : ∀ a off, h.data = some (a, off) → a ≠ c) :
    ∃ m', setIndex m h i x = some m' ∧ elemAt m' h i = some x ∧ elemAt m' copy 0 = elemAt m copy 0 := by
  obtain ⟨m', h1, h2⟩ := set_means hs i x h0 hi
  refine ⟨m', h1, ?_, ?_⟩
  · rw [elemAt_means h2 i h0 hi]
    have hl := hs.len
    cases s with
    | none => simp at hl; omega
    | some l =>
      simp only [Option.getD_some] at hl
      simp only [Option.map_some, Option.getD_some]
      rw [List.getElem?_set_self (by omega)]
  · obtain ⟨m2, h3, _, _, h4⟩ := set_element m h i.toNat x hs.valid (by omega)
    rw [show ((i.toNat : Nat) : Int) = i by omega, h1] at h3
    cases h3
    unfold elemAt
    rw [hc]
    simp only
    cases hd : h.data with
    | none =>
      have := hs.valid
      obtain ⟨_, v2, v3⟩ := this
      rw [hd] at v3; simp only at v3; omega
    | some p =>
      obtain ⟨a, off⟩ := p
      rw [(h4 a off hd).1 c (fun he => hne a off hd he.symm)]

/-! ### Model: fields -/

open Types

/-- The name of a field, as used in safe_struct.go:7-13. -/
def fieldName : Fields → Nat → Option Nat
  | .nil, _ => none
  | .cons name _ _, 0 => some name
  | .cons _ _ rest, i + 1 => fieldName rest i

/-- `Value.FieldByIndex` as safe_field.go:42,50 call it: the address, type and name of the field; pointers to structs are followed on the way, nil ones
panic. -/
def valueFieldByIndex (m : Types.Mem) : Ty → Nat → List Nat → Option (Nat × Ty × Nat)
  | .struct fs, a, [i] =>
    match fs.field i, fieldName fs i with
    | some (off, t), some name => some (a + off, t, name)
    | _, _ => none
  | .struct fs, a, i :: path =>
    match fs.field i with
    | some (off, .struct gs) => valueFieldByIndex m (.struct gs) (a + off) path
    | some (off, .ptr (.struct gs)) => if m (a + off) = 0 then none else valueFieldByIndex m (.struct gs) (m (a + off)) path
    | _ => none
  | _, _, _ => none

/-- `safeField.Set`, safe_field.go:40-43: panics unless the field is exported and the value of its type.  Simplifications: types are assignable only if
they are the same, and of the fields on the way (all embedded when the path is from `FieldByName`) it does not matter whether they are exported.
The type of `obj` is that of the argument, not of the struct the field was found in. -/
def safeFieldSet (exported : Nat → Bool) (m : Types.Mem) (path : List Nat) (obj value : EFace) : Option Types.Mem :=
  match obj.rtype, value.rtype with
  | some (.ptr t), some (.ptr vt) =>
    match valueFieldByIndex m t obj.data path with
    | some (p, ft, name) => if exported name = true ∧ vt = ft then some (move m ft.size p value.data) else none
    | none => none
  | _, _ => none

/-- `safeField.Get`, safe_field.go:49-54: a pointer to a copy at `next`, memory not in use; panics unless the field is exported. -/
def safeFieldGet (exported : Nat → Bool) (m : Types.Mem) (next : Nat) (path : List Nat) (obj : EFace) : Option (EFace × Types.Mem) :=
  match obj.rtype with
  | some (.ptr t) =>
    match valueFieldByIndex m t obj.data path with
    | some (p, ft, name) => if exported name = true then some (⟨some (.ptr ft), next⟩, move m ft.size next p) else none
    | none => none
  | _ => none

/-! ### Specification: fields -/

/-- The name of the field a path selects. -/
inductive Named : Ty → List Nat → Nat → Prop where
  | last (fs i name) (h : fieldName fs i = some name) : Named (.struct fs) [i] name
  | struct (fs i off gs path name) (h : fs.field i = some (off, .struct gs)) (hr : Named (.struct gs) path name) : Named (.struct fs) (i :: path) name
  | ptr (fs i off gs path name) (h : fs.field i = some (off, .ptr (.struct gs))) (hr : Named (.struct gs) path name) : Named (.struct fs) (i :: path) name

/-! ### Proofs: fields -/

theorem fieldName_some : ∀ (fs : Fields) (i : Nat), (fs.field i).isSome = (fieldName fs i).isSome
  | .nil, i => by simp [Fields.field, fieldName]
  | .cons _ _ _, 0 => rfl
  | .cons _ _ rest, i + 1 => by
    rw [fieldName, ← fieldName_some rest i, Fields.field]
    simp

theorem named_ne_nil {t : Ty} {path : List Nat} {name : Nat} (h : Named t path name) : path ≠ [] := by
  cases h <;> simp

theorem valueField_place (m : Types.Mem) {t : Ty} {a : Nat} {path : List Nat} {p : Nat} {ft : Ty} (h : Place m t a path p ft) :
    ∀ {name : Nat}, Named t path name → valueFieldByIndex m t a path = some (p, ft, name) := by
  induction h with
  | last fs a i off ft h =>
    intro name hn
    rw [valueFieldByIndex, h]
    cases hn with
    | last _ _ _ h' => simp [h']
    | struct _ _ _ _ _ _ _ hr => exact absurd rfl (named_ne_nil hr)
    | ptr _ _ _ _ _ _ _ hr => exact absurd rfl (named_ne_nil hr)
  | struct fs a i off gs path p ft h hr ih =>
    intro name hn
    cases hn with
    | last _ _ _ h' => cases hr
    | struct _ _ off' gs' _ _ h' hr' =>
      rw [h] at h'
      cases h'
      cases path with
      | nil => cases hr
      | cons j path => rw [valueFieldByIndex]; simp only [h]; exact ih hr'; simp
    | ptr _ _ _ _ _ _ h' hr' => rw [h] at h'; cases h'
  | ptr fs a i off gs path p ft h h0 hr ih =>
    intro name hn
    cases hn with
    | last _ _ _ h' => cases hr
    | struct _ _ off' gs' _ _ h' hr' => rw [h] at h'; cases h'
    | ptr _ _ off' gs' _ _ h' hr' =>
      rw [h] at h'
      cases h'
      cases path with
      | nil => cases hr
      | cons j path => rw [valueFieldByIndex]; simp only [h, if_neg h0]; exact ih hr'; simp

/-- C110, partial: with the safe configuration `Set` through an exported field - of the struct itself or of an embedded struct or pointer to one - makes
the selected field the given value and changes nothing else; `Get` gives a pointer to a copy of it. -/
theorem safe_field_partial (exported : Nat → Bool) (m : Types.Mem) (t : Ty) (a : Nat) (path : List Nat) (p : Nat) (ft : Ty) (name : Nat)
    (hp : Place m t a path p ft) (hn : Named t path name) (hx : exported name = true) (v next : Nat) :
    (∃ m', safeFieldSet exported m path ⟨some (.ptr t), a⟩ ⟨some (.ptr ft), v⟩ = some m' ∧ read m' p ft.size = read m v ft.size ∧
      ∀ b, b < p ∨ p + ft.size ≤ b → m' b = m b) ∧
    (∃ m', safeFieldGet exported m next path ⟨some (.ptr t), a⟩ = some (⟨some (.ptr ft), next⟩, m') ∧ read m' next ft.size = read m p ft.size ∧
      ∀ b, b < next ∨ next + ft.size ≤ b → m' b = m b) := by
  have hv := valueField_place m hp hn
  constructor
  · refine ⟨move m ft.size p v, ?_, read_move .., ?_⟩
    · simp [safeFieldSet, hv, hx]
    · intro b hb
      simp only [move]
      rw [if_neg (by omega)]
  · refine ⟨move m ft.size next p, ?_, read_move .., ?_⟩
    · simp [safeFieldGet, hv, hx]
    · intro b hb
      simp only [move]
      rw [if_neg (by omega)]

/-- A struct with an embedded pointer to a struct with two fields, the second of which is selected. -/
example : Place (fun a => if a = 101 then 200 else 0) (.struct (.cons 0 (.scalar 0) (.cons 1 (.ptr (.struct (.cons 2 .str (.cons 3 (.scalar 0) .nil)))) .nil)))
    100 [1, 1] 202 (.scalar 0) :=
  .ptr _ _ _ 1 (.cons 2 .str (.cons 3 (.scalar 0) .nil)) _ _ _ rfl (by decide) (.last _ _ 1 2 _ rfl)

/-- C110 is false: the unsafe configuration sets such a field at its offset from the start of the outer struct, which is another field; the safe one sets
the right one. -/
theorem promoted_differs :
    let inner : Fields := .cons 2 .str (.cons 3 (.scalar 0) .nil)
    let t : Ty := .struct (.cons 0 (.scalar 0) (.cons 1 (.ptr (.struct inner)) (.cons 4 (.scalar 0) .nil)))
    let m : Types.Mem := fun a => if a = 101 then 200 else if a = 300 then 7 else 0
    ((safeFieldSet (fun _ => true) m [1, 1] ⟨some (.ptr t), 100⟩ ⟨some (.ptr (.scalar 0)), 300⟩).map fun m' => (m' 202, m' 102)) = some (7, 0) ∧
    ((fieldSet m t [1, 1] ⟨some (.ptr t), 100⟩ ⟨some (.ptr (.scalar 0)), 300⟩).map fun m' => (m' 202, m' 102)) = some (0, 7) := by
  decide

/-- C110 is false: fields that are not exported are set by the unsafe configuration and refused by the safe one. -/
theorem unexported_differs (exported : Nat → Bool) (m : Types.Mem) (t : Ty) (a : Nat) (path : List Nat) (p : Nat) (ft : Ty) (name : Nat)
    (hp : Place m t a path p ft) (hn : Named t path name) (hx : exported name = false) (v next : Nat) :
    safeFieldSet exported m path ⟨some (.ptr t), a⟩ ⟨some (.ptr ft), v⟩ = none ∧ safeFieldGet exported m next path ⟨some (.ptr t), a⟩ = none ∧
    (fieldSet m t path ⟨some (.ptr t), a⟩ ⟨some (.ptr ft), v⟩).isSome := by
  have hv := valueField_place m hp hn
  refine ⟨by simp [safeFieldSet, hv, hx], by simp [safeFieldGet, hv, hx], ?_⟩
  obtain ⟨off, h1, _⟩ := field_type m path t a p ft hp
  simp [fieldSet, h1, pointerTo]

/-- C110 is false: the safe configuration accepts pointers to structs of another type and sets the field with the same index there; the unsafe one refuses them. -/
theorem other_struct_differs :
    let t : Ty := .struct (.cons 0 (.scalar 0) .nil)
    let u : Ty := .struct (.cons 5 (.scalar 0) (.cons 6 .str .nil))
    let m : Types.Mem := fun a => if a = 300 then 7 else 0
    ((safeFieldSet (fun _ => true) m [0] ⟨some (.ptr u), 100⟩ ⟨some (.ptr (.scalar 0)), 300⟩).map fun m' => m' 100) = some 7 ∧
    fieldSet m t [0] ⟨some (.ptr u), 100⟩ ⟨some (.ptr (.scalar 0)), 300⟩ = none := by
  refine ⟨by decide, rfl⟩

/-! ### C109: the interfaces the types satisfy -/

/-- A method: its name and what it takes and returns (the interfaces at reflect2.go:9-108). -/
abbrev Method := String × String

/-- The methods of the interface `StructType` beyond those of `Type`, reflect2.go:66-73. -/
def structType : List Method :=
  [("NumField", "() int"), ("Field", "(int) reflect2.StructField"), ("FieldByName", "(string) reflect2.StructField"),
   ("FieldByIndex", "([]int) reflect2.StructField"), ("FieldByNameFunc", "(func(string) bool) reflect2.StructField")]

/-- The methods about fields of `reflect.Type`, which `safeType` embeds (safe_type.go:8-11). -/
def reflectType : List Method :=
  [("NumField", "() int"), ("Field", "(int) reflect.StructField"), ("FieldByName", "(string) (reflect.StructField, bool)"),
   ("FieldByIndex", "([]int) reflect.StructField"), ("FieldByNameFunc", "(func(string) bool) (reflect.StructField, bool)")]

/-- The method `safeStructType` declares, safe_struct.go:3-13. -/
def safeStructMethods : List Method := [("FieldByName", "(string) reflect2.StructField")]

/-- The methods `UnsafeStructType` declares, unsafe_struct.go:37-59, and has from `reflect.Type`, which `unsafeType` embeds through
`safeType` (unsafe_type.go:8-12). -/
def unsafeStructMethods : List Method :=
  [("FieldByName", "(string) reflect2.StructField"), ("Field", "(int) reflect2.StructField"), ("FieldByIndex", "([]int) reflect2.StructField"),
   ("FieldByNameFunc", "(func(string) bool) reflect2.StructField")]

/-- The methods of a struct type that declares some and embeds `reflect.Type`: a declared method hides the embedded one of its name
(safe_struct.go:3-5, unsafe_struct.go:8-11). -/
def methodSet (declared embedded : List Method) : List Method :=
  declared ++ embedded.filter fun m => !(declared.any fun d => d.1 == m.1)

/-- A type assertion `typ.(StructType)`, as at reflect2/test/struct_test.go:37 or msgfmt/jsonfmt/encoder.go:167: every method is there with its signature. -/
def asserts (iface set : List Method) : Bool := iface.all fun m => set.contains m

/-- C109 is false of structs: the types the safe configuration makes for them do not satisfy `StructType`, the assertion panics; those of
the unsafe configuration do. -/
theorem struct_assertion_differs : asserts structType (methodSet safeStructMethods reflectType) = false ∧
    asserts structType (methodSet unsafeStructMethods reflectType) = true := by
  decide +kernel

end Verif.Reflect2.Safe
