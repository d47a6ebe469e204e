import Verif.Basic

/-!
# C111: iterating over maps with the safe configuration of reflect2

Model of `safeMapIterator` in reflect2/safe_map.go.  The map may be changed by others between calls.  Keys are compared by a parameter, the equality of
the language, which need not be reflexive (NaN).
-/

namespace Verif.Reflect2.SafeIter

variable {K V : Type}

/-! ### Model -/

/-- The entries of a map of the runtime, in the order it happens to give them (safe_map.go:66-72). -/
abbrev GoMap (K V : Type) := List (K × V)

/-- `Value.MapIndex`, as called at safe_map.go:90; `none` is the invalid value. -/
def mapIndex (eq : K → K → Bool) (m : GoMap K V) (k : K) : Option V := (m.find? fun e => eq k e.1).map Prod.snd

/-- `safeMapIterator`, safe_map.go:78-82, without the map, which others may change: it is given to each call. -/
structure Iter (K : Type) where
  i : Nat
  keys : List K

/-- `Iterate`, safe_map.go:66-72. -/
def iterate (m : GoMap K V) : Iter K := ⟨0, m.map Prod.fst⟩

/-- `HasNext`, safe_map.go:84-86. -/
def hasNext (it : Iter K) : Bool := it.i != it.keys.length

/-- `Next`, safe_map.go:88-97: copies of key and element.  Panics (`none`) behind the last key, and, as an invalid value has no type, if the key is
not found. -/
def next (eq : K → K → Bool) (m : GoMap K V) (it : Iter K) : Option ((K × V) × Iter K) :=
  match it.keys[it.i]? with
  | none => none
  | some k =>
    match mapIndex eq m k with
    | none => none
    | some v => some ((k, v), { it with i := it.i + 1 })

/-- The loop `for iter.HasNext() { iter.Next() }`, as at reflect2/test/map_elem_eface_test.go:44-47; `maps` are the contents of the map at each call of `Next`.
What was returned, and whether the loop ended without a panic. -/
def loop (eq : K → K → Bool) : List (GoMap K V) → Iter K → List (K × V) × Bool
  | [], it => ([], !hasNext it)
  | m :: rest, it =>
    if hasNext it then
      match next eq m it with
      | none => ([], false)
      | some (kv, it) => let r := loop eq rest it; (kv :: r.1, r.2)
    else ([], true)

/-! ### Specification -/

/-- A map as Go keeps them: no two entries with equal keys, and every key equal to itself. -/
structure Proper (eq : K → K → Bool) (m : GoMap K V) : Prop where
  refl : ∀ e ∈ m, eq e.1 e.1 = true
  one : m.Pairwise fun a b => eq a.1 b.1 = false ∧ eq b.1 a.1 = false

/-- Entry `v` is stored under a key equal to `k`. -/
def Holds (eq : K → K → Bool) (m : GoMap K V) (k : K) (v : V) : Prop := ∃ k', (k', v) ∈ m ∧ eq k k' = true

/-! ### Proofs -/

theorem mapIndex_some {eq : K → K → Bool} {m : GoMap K V} {k : K} {v : V} (h : mapIndex eq m k = some v) : Holds eq m k v := by
  unfold mapIndex at h
  rw [Option.map_eq_some_iff] at h
  obtain ⟨e, he, rfl⟩ := h
  exact ⟨e.1, List.mem_of_find?_eq_some he, by simpa using List.find?_some he⟩

theorem mapIndex_isSome {eq : K → K → Bool} {m : GoMap K V} {k : K} : (mapIndex eq m k).isSome ↔ ∃ v, Holds eq m k v := by
  constructor
  · intro h
    obtain ⟨v, hv⟩ := Option.isSome_iff_exists.mp h
    exact ⟨v, mapIndex_some hv⟩
  · rintro ⟨v, k', hm, he⟩
    unfold mapIndex
    rw [Option.isSome_map, List.find?_isSome]
    exact ⟨_, hm, he⟩

theorem mapIndex_proper {eq : K → K → Bool} : ∀ {m : GoMap K V}, Proper eq m → ∀ {k : K} {v : V}, (k, v) ∈ m → mapIndex eq m k = some v
  | [], _, _, _, h => by cases h
  | e :: m, hp, k, v, h => by
    unfold mapIndex
    have h1 := List.pairwise_cons.mp hp.one
    rw [List.find?_cons]
    rcases List.mem_cons.mp h with rfl | h
    · have := hp.refl (k, v) (by simp)
      simp only [this]
      rfl
    · have := (h1.1 _ h).2
      simp only [this]
      exact mapIndex_proper ⟨fun e he => hp.refl e (by simp [he]), h1.2⟩ h

theorem loop_keys {eq : K → K → Bool} : ∀ (maps : List (GoMap K V)) (it : Iter K), it.i + maps.length = it.keys.length →
    (∀ (j : Nat) (m : GoMap K V), maps[j]? = some m → ∀ k, it.keys[it.i + j]? = some k → ∃ v, Holds eq m k v) →
    ∃ vs, loop eq maps it = (vs, true) ∧ vs.map Prod.fst = it.keys.drop it.i ∧
      ∀ (j : Nat) (m : GoMap K V) (kv : K × V), maps[j]? = some m → vs[j]? = some kv → Holds eq m kv.1 kv.2
  | [], it, hl, _ => by
    refine ⟨[], ?_, ?_, ?_⟩
    · simp only [List.length_nil] at hl
      simp only [loop, hasNext]
      simp; omega
    · simp only [List.length_nil] at hl
      rw [List.drop_of_length_le (by omega)]; rfl
    · intro j m kv h; simp at h
  | m :: rest, it, hl, hm => by
    simp only [List.length_cons] at hl
    have hk : it.i < it.keys.length := by omega
    have hkk := List.getElem?_eq_getElem hk
    have hv := hm 0 m rfl _ hkk
    obtain ⟨v, hv⟩ := Option.isSome_iff_exists.mp (mapIndex_isSome.mpr hv)
    obtain ⟨vs, h1, h2, h3⟩ := loop_keys rest { it with i := it.i + 1 } (by simp only; omega) (by
      intro j m' hj k hk'
      refine hm (j + 1) m' (by simpa using hj) k ?_
      rw [show it.i + (j + 1) = it.i + 1 + j by omega]; exact hk')
    refine ⟨(it.keys[it.i], v) :: vs, ?_, ?_, ?_⟩
    · rw [loop]
      have : hasNext it = true := by simp [hasNext]; omega
      rw [if_pos this]
      simp only [next, hkk, hv]
      rw [h1]
    · rw [List.map_cons, h2]
      simp only
      rw [List.drop_eq_getElem_cons hk]
    · intro j m' kv hj hkv
      cases j with
      | zero =>
        simp only [List.getElem?_cons_zero, Option.some.injEq] at hj hkv
        subst hj; subst hkv
        exact mapIndex_some hv
      | succ j =>
        simp only [List.getElem?_cons_succ] at hj hkv
        exact h3 j m' kv hj hkv

/-- C111, partial: as long as no entry is deleted and every key equals itself, the loop ends; it returns the keys the map had at the start, each once
and with the element the map holds for it at that moment, whatever is set or added meanwhile. -/
theorem iteration_partial (eq : K → K → Bool) (m : GoMap K V) (maps : List (GoMap K V)) (hl : maps.length = m.length)
    (hm : ∀ m' ∈ maps, ∀ e ∈ m, ∃ v, Holds eq m' e.1 v) :
    ∃ vs, loop eq maps (iterate m) = (vs, true) ∧ vs.map Prod.fst = m.map Prod.fst ∧
      ∀ (j : Nat) (m' : GoMap K V) (kv : K × V), maps[j]? = some m' → vs[j]? = some kv → Holds eq m' kv.1 kv.2 := by
  have := loop_keys (eq := eq) maps (iterate m) (by simp [iterate, hl]) (by
    intro j m' hj k hk
    simp only [iterate, Nat.zero_add, List.getElem?_map, Option.map_eq_some_iff] at hk
    obtain ⟨e, he, rfl⟩ := hk
    exact hm m' (List.mem_of_getElem? hj) e (List.mem_of_getElem? he))
  simpa [iterate] using this

/-- C111, partial: for a map that is not changed meanwhile the loop returns exactly its entries. -/
theorem unchanged_partial (eq : K → K → Bool) (m : GoMap K V) (hp : Proper eq m) : loop eq (List.replicate m.length m) (iterate m) = (m, true) := by
  have key : ∀ (n i : Nat), i + n = m.length → loop eq (List.replicate n m) ⟨i, m.map Prod.fst⟩ = (m.drop i, true) := by
    intro n
    induction n with
    | zero =>
      intro i hi
      simp only [List.replicate_zero, loop, hasNext, List.length_map]
      rw [List.drop_of_length_le (by omega)]
      simp; omega
    | succ n ih =>
      intro i hi
      rw [List.replicate_succ, loop]
      have hlt : i < m.length := by omega
      have : hasNext (⟨i, m.map Prod.fst⟩ : Iter K) = true := by simp [hasNext]; omega
      rw [if_pos this]
      simp only [next, List.getElem?_map, List.getElem?_eq_getElem hlt, Option.map_some]
      rw [mapIndex_proper hp (k := m[i].1) (v := m[i].2) (List.getElem_mem hlt)]
      simp only
      rw [ih (i + 1) (by omega), List.drop_eq_getElem_cons hlt]
  simpa [iterate] using key m.length 0 (by omega)

example : Proper (fun a b : Nat => a == b) [(1, 'a'), (2, 'b')] := ⟨by decide, by decide⟩

example : loop (fun a b : Nat => a == b) [[(1, 'a'), (2, 'b')], [(3, 'x'), (2, 'c'), (1, 'a')]] (iterate [(1, 'a'), (2, 'b')]) = ([(1, 'a'), (2, 'c')], true) := by
  decide

/-- C111 is false: a key that does not equal itself makes the iteration panic, in every map that has one and wherever it stands. -/
theorem nan_panics (eq : K → K → Bool) (m : GoMap K V) (k : K) (v : V) (hk : ∀ k', eq k k' = false) (hm : (k, v) ∈ m) (maps : List (GoMap K V))
    (hl : maps.length = m.length) : (loop eq maps (iterate m)).2 = false := by
  have key : ∀ (maps : List (GoMap K V)) (i : Nat), i + maps.length = m.length → (∃ j, i ≤ j ∧ (m.map Prod.fst)[j]? = some k) →
      (loop eq maps ⟨i, m.map Prod.fst⟩).2 = false := by
    intro maps
    induction maps with
    | nil =>
      rintro i hi ⟨j, hj, hjk⟩
      obtain ⟨hlt, _⟩ := List.getElem?_eq_some_iff.mp hjk
      simp at hi hlt
      omega
    | cons m' maps ih =>
      rintro i hi ⟨j, hj, hjk⟩
      simp only [List.length_cons] at hi
      rw [loop]
      have : hasNext (⟨i, m.map Prod.fst⟩ : Iter K) = true := by simp [hasNext]; omega
      rw [if_pos this]
      simp only [next]
      have hlt : i < (m.map Prod.fst).length := by simp; omega
      simp only [List.getElem?_eq_getElem hlt]
      cases hv : mapIndex eq m' (m.map Prod.fst)[i] with
      | none => rfl
      | some v' =>
        simp only
        apply ih (i + 1) (by omega)
        refine ⟨j, ?_, hjk⟩
        rcases Nat.lt_or_eq_of_le hj with h | h
        · omega
        · subst h
          rw [List.getElem?_eq_getElem hlt, Option.some.injEq] at hjk
          rw [hjk] at hv
          obtain ⟨k', _, he⟩ := mapIndex_some hv
          rw [hk] at he; cases he
  obtain ⟨j, hj⟩ := List.getElem?_of_mem hm
  exact key maps 0 (by omega) ⟨j, by omega, by simp [hj]⟩

example : (loop (fun a b : Option Nat => a == b && a.isSome) [[(some 1, 'a'), (none, 'b')], [(some 1, 'a'), (none, 'b')]] (iterate [(some 1, 'a'), (none, 'b')])) =
    ([(some 1, 'a')], false) := by decide

/-- C111 is false: an entry deleted before it was reached makes the iteration panic, where `range` leaves it out. -/
theorem deleted_panics : loop (fun a b : Nat => a == b) [[(1, 'a'), (2, 'b')], [(1, 'a')]] (iterate [(1, 'a'), (2, 'b')]) = ([(1, 'a')], false) := by
  decide

end Verif.Reflect2.SafeIter
