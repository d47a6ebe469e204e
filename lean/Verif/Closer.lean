import Verif.Basic

/-!
# C48: closing several resources

Model of closer.go.  Closing a resource may change the world in any way and may fail.
-/

namespace Verif.Closer

variable {S E : Type}

/-! ### Model -/

/-- `io.Closer`: what `Close` does to the world, and its error. -/
abbrev Closer (S E : Type) := S → S × Option E

/-- An event logged: the level and the values of the "err" properties in it, closer.go 34-35, 48-49 and 56. -/
inductive Event (E : Type)
  | error (errs : List E)
  | debug
  deriving DecidableEq

/-- `MergeErrors`, closer.go 16-27; `none` is the nil error. -/
def mergeErrors (errs : List (Option E)) : Option (List E) :=
  let nonNil := errs.filterMap id
  if nonNil.length = 0 then none else some nonNil

/-- The loop of `CloseAll`, closer.go 43-52.  `props` collects the "err" properties appended so far. -/
def closeLoop : List (Closer S E) → S → List E → List E → List (Event E) → S × List E × List (Event E)
  | [], s, _, errs, log => (s, errs, log)
  | r :: rs, s, props, errs, log =>
    match r s with
    | (s, none) => closeLoop rs s props errs log
    | (s, some e) => closeLoop rs s (props ++ [e]) (errs ++ [e]) (log ++ [.error (props ++ [e])])

/-- `CloseAll`, closer.go 41-59; `hasProps` says whether properties were given. -/
def closeAll (resources : List (Closer S E)) (hasProps : Bool) (s : S) : S × Option (List E) × List (Event E) :=
  let r := closeLoop resources s [] [] []
  (r.1, mergeErrors (r.2.1.map some), if r.2.1.length = 0 ∧ hasProps then r.2.2 ++ [.debug] else r.2.2)

/-- `Close`, closer.go 29-39. -/
def close (resource : Closer S E) (s : S) : S × Option E × List (Event E) :=
  match resource s with
  | (s, some e) => (s, some e, [.error [e]])
  | (s, none) => (s, none, [])

/-! ### Specification -/

/-- Every resource is closed once, in order, whatever fails. -/
def allClosed (resources : List (Closer S E)) (s : S) : S := resources.foldl (fun s r => (r s).1) s

/-- The errors, in order. -/
def failures : List (Closer S E) → S → List E
  | [], _ => []
  | r :: rs, s => (r s).2.toList ++ failures rs (r s).1

/-! ### Proofs -/

theorem closeLoop_spec (rs : List (Closer S E)) (s : S) (props errs : List E) (log : List (Event E)) :
    (closeLoop rs s props errs log).1 = allClosed rs s ∧ (closeLoop rs s props errs log).2.1 = errs ++ failures rs s ∧
    (closeLoop rs s props errs log).2.2 =
      log ++ (List.range (failures rs s).length).map fun i => Event.error (props ++ (failures rs s).take (i + 1)) := by
  induction rs generalizing s props errs log with
  | nil => simp [closeLoop, allClosed, failures]
  | cons r rs ih =>
    rw [closeLoop]
    rcases hr : r s with ⟨s', e⟩
    cases e with
    | none =>
      simp only
      have := ih s' props errs log
      simpa [allClosed, failures, hr] using this
    | some e =>
      simp only
      obtain ⟨h1, h2, h3⟩ := ih s' (props ++ [e]) (errs ++ [e]) (log ++ [.error (props ++ [e])])
      refine ⟨by simpa [allClosed, hr] using h1, by simpa [failures, hr] using h2, ?_⟩
      rw [h3]
      simp [failures, hr, List.range_succ_eq_map, List.map_map, Function.comp_def]

theorem merge_some (l : List E) : mergeErrors (l.map some) = if l = [] then none else some l := by
  unfold mergeErrors
  have : (l.map some).filterMap id = l := by
    induction l with
    | nil => rfl
    | cons a l ih => simp
  rw [this]
  cases l <;> simp

/-- C48: every resource is closed once, in order; the result is nil exactly if every `Close` succeeded, and otherwise carries exactly the errors in order. -/
theorem closes_all (resources : List (Closer S E)) (hasProps : Bool) (s : S) :
    (closeAll resources hasProps s).1 = allClosed resources s ∧
    ((closeAll resources hasProps s).2.1 = none ↔ failures resources s = []) ∧
    (∀ l, (closeAll resources hasProps s).2.1 = some l → l = failures resources s ∧ l ≠ []) := by
  obtain ⟨h1, h2, _⟩ := closeLoop_spec resources s [] [] []
  unfold closeAll
  simp only [h1, h2, List.nil_append, merge_some]
  refine ⟨trivial, ?_, ?_⟩
  · by_cases hf : failures resources s = []
    · simp [hf]
    · simp [hf]
  · intro l hl
    by_cases hf : failures resources s = []
    · simp [hf] at hl
    · simp only [hf, if_false, Option.some.injEq] at hl
      exact ⟨hl.symm, by rw [← hl]; exact hf⟩

/-- The second and fourth fail; the world records who was closed. -/
example : closeAll [fun s => (s ++ [1], none), fun s => (s ++ [2], some 20), fun s => (s ++ [3], none), fun s => (s ++ [4], some 40)] true ([] : List Nat) =
    ([1, 2, 3, 4], some [20, 40], [.error [20], .error [20, 40]]) := by decide

/-- C48: `MergeErrors` is nil exactly if all errors are nil, and otherwise holds exactly the others in order. -/
theorem merge_exact (errs : List (Option E)) :
    (mergeErrors errs = none ↔ ∀ e ∈ errs, e = none) ∧ (∀ l, mergeErrors errs = some l → l.map some = errs.filter Option.isSome ∧ l ≠ []) := by
  unfold mergeErrors
  simp only
  have hmap : (errs.filterMap id).map some = errs.filter Option.isSome := by
    induction errs with
    | nil => rfl
    | cons a errs ih => cases a <;> simp [ih]
  constructor
  · constructor
    · intro h e he
      split at h
      · rename_i hl
        cases e with
        | none => rfl
        | some e =>
          have : e ∈ errs.filterMap id := List.mem_filterMap.mpr ⟨some e, he, rfl⟩
          rw [List.length_eq_zero_iff.mp hl] at this
          cases this
      · cases h
    · intro h
      have : errs.filterMap id = [] := by
        apply List.filterMap_eq_nil_iff.mpr
        intro a ha
        rw [h a ha]
        rfl
      rw [this]
      rfl
  · intro l hl
    split at hl
    · cases hl
    · rename_i hne
      simp only [Option.some.injEq] at hl
      subst hl
      exact ⟨hmap, fun h => hne (by rw [h]; rfl)⟩

example : mergeErrors [none, some 1, none, some 2] = some [1, 2] ∧ mergeErrors [none, (none : Option Nat)] = none := by decide

/-- C48: `Close` closes once and hands back the error; a failure is logged. -/
theorem close_exact (resource : Closer S E) (s : S) :
    (close resource s).1 = (resource s).1 ∧ (close resource s).2.1 = (resource s).2 ∧
    (close resource s).2.2 = ((resource s).2.toList).map fun e => Event.error [e] := by
  unfold close
  rcases resource s with ⟨s', e⟩
  cases e <;> simp

/-- C75 (partly): as many events as there are failures are logged, in order; the last error in each is that of its own failure. -/
theorem logged_each_partial (resources : List (Closer S E)) (s : S) (hasProps : Bool) (hf : failures resources s ≠ []) :
    (closeAll resources hasProps s).2.2.length = (failures resources s).length ∧
    ∀ (i : Nat) (h : i < (failures resources s).length), ∃ l, (closeAll resources hasProps s).2.2[i]? = some (.error (l ++ [(failures resources s)[i]])) := by
  obtain ⟨_, h2, h3⟩ := closeLoop_spec resources s [] [] []
  have hlog : (closeAll resources hasProps s).2.2 = (List.range (failures resources s).length).map fun i => Event.error ((failures resources s).take (i + 1)) := by
    unfold closeAll
    simp only [h2, h3, List.nil_append]
    rw [if_neg]
    rintro ⟨h, _⟩
    exact hf (List.length_eq_zero_iff.mp h)
  rw [hlog]
  refine ⟨by simp, ?_⟩
  intro i h
  refine ⟨(failures resources s).take i, ?_⟩
  rw [List.getElem?_map, List.getElem?_range h]
  simp only [Option.map_some, Option.some.injEq, Event.error.injEq]
  rw [List.take_succ_eq_append_getElem h]

/-- C75 is false: the event logged for the second failure also carries the error of the first. -/
theorem logged_errors_pile_up :
    (closeAll [fun s => (s, some 20), fun s => (s, some 40)] false ()).2.2 = [.error [20], .error [20, 40]] := by decide

/-- C75: without failures nothing but a debug event is logged, and that only if properties were given. -/
theorem logged_none (resources : List (Closer S E)) (s : S) (hasProps : Bool) (hf : failures resources s = []) :
    (closeAll resources hasProps s).2.2 = if hasProps then [.debug] else [] := by
  obtain ⟨_, h2, h3⟩ := closeLoop_spec resources s [] [] []
  unfold closeAll
  simp [h2, h3, hf]

end Verif.Closer
