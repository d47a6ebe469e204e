import Verif.Test.Check

/-!
# C101 and C102: calling functions in tests

Model of `Call` and `ReturnValue.Set` in test/must/call.go and test/should/call.go.
-/

namespace Verif.Check

open Verif.Assert (V Outcome)

/-! ### Model -/

/-- A type, as far as `reflect.Value.Call` and `Set` look at it (test/must/call.go 20, 25 and 50): the values that can be assigned to it, its
zero value (`none` for the nil of an interface type), and whether it implements `error` (30). -/
structure Ty where
  accepts : V → Bool
  zero : Option V
  isError : Bool

/-- How a call ends. -/
inductive CallEnd where
  | ret (vals : List (Option V))
  | exit
  | panic (v : Option V)

/-- A function value (test/must/call.go 15-16).  `variadic` is the element type of the last parameter if the function is variadic.  What it does
depends on the fixed and on the variadic arguments, and it may use the test that calls it. -/
structure Fn where
  params : List Ty
  variadic : Option Ty
  results : List Ty
  body : List (Option V) → List (Option V) → St → St × CallEnd

/-- The number of parameters that are not variadic (`NumIn`, for test/must/call.go 25). -/
def Fn.fixed (f : Fn) : Nat := if f.variadic.isSome then f.params.length - 1 else f.params.length

/-- The arguments of test/must/call.go 18-24; `none` where `In` panics. -/
def mustArgs (f : Fn) : Nat → List (Option V) → Option (List (Option V))
  | _, [] => some []
  | i, some v :: r => (mustArgs f (i + 1) r).map (some v :: ·)
  | i, none :: r =>
    match f.params[i]? with
    | none => none
    | some ty => (mustArgs f (i + 1) r).map (ty.zero :: ·)

/-- The check of one argument in `reflect.Value.Call` (test/must/call.go 25): the nil of an interface type is only assignable to that type. -/
def assignable (ty : Ty) : Option V → Bool
  | some v => ty.accepts v
  | none => ty.zero.isNone

/-- The check of fixed arguments, one by one (`reflect.Value.Call`, test/must/call.go 25). -/
def assignableAll : List Ty → List (Option V) → Bool
  | _, [] => true
  | [], _ :: _ => false
  | ty :: tys, a :: r => assignable ty a && assignableAll tys r

/-- `reflect.Value.Call`, test/must/call.go 25 and test/should/call.go 19, of values that are valid. -/
def reflectCall (f : Fn) (args : List (Option V)) (s : St) : St × CallEnd :=
  match f.variadic with
  | none =>
    if args.length = f.params.length && assignableAll f.params args then f.body args [] s else (s, .panic runtimeError)
  | some ty =>
    if f.fixed ≤ args.length && assignableAll f.params (args.take f.fixed) && (args.drop f.fixed).all (assignable ty) then
      f.body (args.take f.fixed) (args.drop f.fixed) s
    else (s, .panic runtimeError)

/-- From the results on, test/must/call.go 26-45 and test/should/call.go 20-39.  The conversion to `error` in line 32 fails only for nil. -/
def afterCall (m : Mode) (g : Nat) (f : Fn) (s : St) (vals : List (Option V)) : St × CallEnd :=
  match f.results.getLast? with
  | some ty =>
    if ty.isError then
      let err := vals.getLast?.join
      match currentT s g with
      | none => (s, .panic notStarted)
      | some t =>
        match Assert.noError true (err.map (fun _ => [])) with
        | .ret true _ => (s, .ret vals)
        | .ret false r =>
          match giveUp m t (if r then s.fail t else s) with
          | (s, .next) => (s, .ret vals)
          | (s, _) => (s, .exit)
        | .panic => (s, .panic runtimeError)
    else (s, .ret vals)
  | none => (s, .ret vals)

/-- `Call` of test/must/call.go 14-46. -/
def mustCall (g : Nat) (f : Fn) (args : List (Option V)) (s : St) : St × CallEnd :=
  match mustArgs f 0 args with
  | none => (s, .panic runtimeError)
  | some args =>
    match reflectCall f args s with
    | (s, .ret vals) => afterCall .must g f s vals
    | r => r

/-- `Call` of test/should/call.go 14-40: nil arguments become invalid values, with which `reflect.Value.Call` panics. -/
def shouldCall (g : Nat) (f : Fn) (args : List (Option V)) (s : St) : St × CallEnd :=
  if args.any Option.isNone then (s, .panic runtimeError)
  else
    match reflectCall f args s with
    | (s, .ret vals) => afterCall .should g f s vals
    | r => r

/-- `ReturnValue.Set`, test/must/call.go 48-52 and test/should/call.go 42-46, from index `i` on.  An object is the address of a variable, or
`none` for anything that is not a pointer to one.  Gives the variables and whether it ended without a panic. -/
def setLoop (accepts : Nat → V → Bool) (ret : List (Option V)) : Nat → List (Option Nat) → (Nat → Option V) → (Nat → Option V) × Bool
  | _, [], store => (store, true)
  | _, none :: _, store => (store, false)
  | i, some a :: r, store =>
    match ret[i]? with
    | some (some v) => if accepts a v then setLoop accepts ret (i + 1) r (fun x => if x = a then some v else store x) else (store, false)
    | _ => (store, false)

/-- `ReturnValue.Set`, test/must/call.go 48-52. -/
def setAll (accepts : Nat → V → Bool) (ret : List (Option V)) (objs : List (Option Nat)) (store : Nat → Option V) : (Nat → Option V) × Bool :=
  setLoop accepts ret 0 objs store

/-! ### Specification -/

/-- The argument `x` of `Call` is passed as `y` for a parameter of type `ty`: as it is, or as the zero value if it is nil. -/
inductive Passed (ty : Ty) : Option V → Option V → Prop
  | value (v : V) : ty.accepts v = true → Passed ty (some v) (some v)
  | nil : Passed ty none ty.zero

/-- A type accepts its zero value. -/
def Ty.WF (ty : Ty) : Prop := ∀ v, ty.zero = some v → ty.accepts v = true

/-- The arguments fit the fixed parameters and are passed as `fixed`; those after them fit the element type. -/
structure Fits (f : Fn) (args fixed extra : List (Option V)) : Prop where
  split : ∃ pre : List (Option V), args = pre ++ extra ∧ List.length pre = f.fixed ∧ fixed.length = f.fixed ∧
    ∀ (i : Nat) (x y : Option V) (ty : Ty), pre[i]? = some x → fixed[i]? = some y → f.params[i]? = some ty → Passed ty x y
  rest : ∀ x ∈ extra, ∃ v ty, x = some v ∧ f.variadic = some ty ∧ ty.accepts v = true

/-- A variadic function has a last parameter. -/
structure Fn.WF (f : Fn) : Prop where
  zeros : ∀ ty ∈ f.params, ty.WF
  last : f.variadic.isSome → f.params ≠ []

/-- The results say that there was an error: the last one has a type that implements `error`, and is not nil. -/
def Failed (f : Fn) (vals : List (Option V)) : Prop :=
  ∃ ty v, f.results.getLast? = some ty ∧ ty.isError = true ∧ vals.getLast? = some (some v)

/-! ### Theorems -/

theorem mustArgs_eq (f : Fn) (fixed extra : List (Option V)) (pre : List (Option V)) (i : Nat)
    (hlen : pre.length = fixed.length) (hp : ∀ j x y, pre[j]? = some x → fixed[j]? = some y → ∃ ty, f.params[i + j]? = some ty ∧ Passed ty x y)
    (he : ∀ x ∈ extra, ∃ v, x = some v) :
    mustArgs f i (pre ++ extra) = some (fixed ++ extra) := by
  induction pre generalizing i fixed with
  | nil =>
    have : fixed = [] := List.length_eq_zero_iff.mp hlen.symm
    subst this
    simp only [List.nil_append]
    clear hp hlen
    induction extra generalizing i with
    | nil => rfl
    | cons x r ih =>
      obtain ⟨v, rfl⟩ := he x (List.mem_cons_self ..)
      simp only [mustArgs, ih (fun y hy => he y (List.mem_cons_of_mem _ hy)) (i + 1), Option.map_some]
  | cons x r ih =>
    cases fixed with
    | nil => exact absurd hlen (by simp)
    | cons y ys =>
      have hrest := ih ys (i + 1) (by simpa using hlen) (fun j a b ha hb => by
        have := hp (j + 1) a b (by simpa using ha) (by simpa using hb)
        rwa [show i + (j + 1) = i + 1 + j by omega] at this)
      obtain ⟨ty, hty, hpass⟩ := hp 0 x y rfl rfl
      rw [Nat.add_zero] at hty
      cases hpass with
      | value v _ => simp only [List.cons_append, mustArgs, hrest, Option.map_some]
      | nil => simp only [List.cons_append, mustArgs, hty, hrest, Option.map_some]

theorem assignableAll_of (tys : List Ty) (hw : ∀ ty ∈ tys, ty.WF) (pre fixed : List (Option V)) (hlen : pre.length = fixed.length) (hle : fixed.length ≤ tys.length)
    (hp : ∀ (j : Nat) x y ty, pre[j]? = some x → fixed[j]? = some y → tys[j]? = some ty → Passed ty x y) : assignableAll tys fixed = true := by
  induction fixed generalizing tys pre with
  | nil => cases tys <;> rfl
  | cons y ys ih =>
    cases tys with
    | nil => exact absurd hle (by simp)
    | cons ty tys =>
      cases pre with
      | nil => exact absurd hlen (by simp)
      | cons x xs =>
        simp only [assignableAll, Bool.and_eq_true]
        refine ⟨?_, ih tys (fun t ht => hw t (List.mem_cons_of_mem _ ht)) xs (by simpa using hlen) (by simpa using hle) (fun j a b t ha hb ht => hp (j + 1) a b t (by simpa using ha) (by simpa using hb) (by simpa using ht))⟩
        have := hp 0 x y ty rfl rfl rfl
        cases this with
        | value v hv => exact hv
        | nil =>
          have hz := hw ty (List.mem_cons_self ..)
          cases hzero : ty.zero with
          | none => simp [assignable, hzero]
          | some v => simpa [assignable] using hz v hzero

theorem reflectCall_fits (f : Fn) (hw : f.WF) (args fixed extra : List (Option V)) (h : Fits f args fixed extra) (s : St) :
    reflectCall f (fixed ++ extra) s = f.body fixed extra s := by
  obtain ⟨pre, _, hpl, hfl, hp⟩ := h.split
  have hle : fixed.length ≤ f.params.length := by
    rw [hfl]
    unfold Fn.fixed
    split <;> omega
  have hall := assignableAll_of f.params hw.zeros pre fixed (by omega) hle hp
  unfold reflectCall
  cases hv : f.variadic with
  | none =>
    have he : extra = [] := by
      cases extra with
      | nil => rfl
      | cons x r =>
        obtain ⟨_, _, _, h2, _⟩ := h.rest x (List.mem_cons_self ..)
        rw [hv] at h2
        exact nomatch h2
    subst he
    have hl : fixed.length = f.params.length := by
      rw [hfl]
      unfold Fn.fixed
      rw [hv]
      rfl
    simp [hl, hall]
  | some ty =>
    have h1 : (fixed ++ extra).take f.fixed = fixed := by rw [← hfl]; simp
    have h2 : (fixed ++ extra).drop f.fixed = extra := by rw [← hfl]; simp
    have h3 : extra.all (assignable ty) = true := by
      rw [List.all_eq_true]
      intro x hx
      obtain ⟨v, ty', rfl, h4, h5⟩ := h.rest x hx
      rw [hv] at h4
      cases h4
      exact h5
    simp only [h1, h2, h3, hall]
    rw [if_pos]
    simp [hfl]

theorem afterCall_spec (m : Mode) (g t : Nat) (f : Fn) (s : St) (vals : List (Option V)) (hs : Has g t s.gls) :
    (¬Failed f vals → afterCall m g f s vals = (s, .ret vals)) ∧
    (Failed f vals → afterCall m g f s vals = (s.fail t, match m with | .must => .exit | .should => .ret vals)) := by
  unfold afterCall
  cases hr : f.results.getLast? with
  | none =>
    refine ⟨fun _ => rfl, ?_⟩
    rintro ⟨ty, v, h, _⟩
    rw [hr] at h
    exact nomatch h
  | some ty =>
    by_cases hi : ty.isError = true
    · simp only [hi, if_true, currentT_of_has hs]
      cases hv : vals.getLast? with
      | none =>
        refine ⟨fun _ => rfl, ?_⟩
        rintro ⟨_, v, _, _, h⟩
        rw [hv] at h
        exact nomatch h
      | some x =>
        cases x with
        | none =>
          refine ⟨fun _ => rfl, ?_⟩
          rintro ⟨_, v, _, _, h⟩
          rw [hv] at h
          exact nomatch h
        | some v =>
          refine ⟨fun h => absurd ⟨ty, v, hr, hi, hv⟩ h, fun _ => ?_⟩
          cases m <;> simp [Option.join, Assert.noError, Assert.fail, giveUp, fail_fail]
    · refine ⟨fun _ => by simp [hi], ?_⟩
      rintro ⟨ty', v, h, h', _⟩
      rw [hr] at h
      cases h
      exact absurd h' hi

/-- C101 (partly): `must.Call` calls the function with the arguments given, nil standing for the zero value of the parameter's type, and returns
what it returns; if the last result is an error that is not nil, the test fails and ends.  Missing: nil among the variadic arguments, see
`nil_variadic`, and arguments that do not fit, for which it panics. -/
theorem must_call_partial (g t : Nat) (f : Fn) (hw : f.WF) (args fixed extra : List (Option V)) (h : Fits f args fixed extra) (s : St) :
    (∀ s' vals, f.body fixed extra s = (s', .ret vals) → Has g t s'.gls → ¬Failed f vals → mustCall g f args s = (s', .ret vals)) ∧
    (∀ s' vals, f.body fixed extra s = (s', .ret vals) → Has g t s'.gls → Failed f vals → mustCall g f args s = (s'.fail t, .exit)) ∧
    (∀ s' v, f.body fixed extra s = (s', .panic v) → mustCall g f args s = (s', .panic v)) ∧
    (∀ s', f.body fixed extra s = (s', .exit) → mustCall g f args s = (s', .exit)) := by
  have hargs : mustArgs f 0 args = some (fixed ++ extra) := by
    obtain ⟨pre, rfl, hpl, hfl, hp⟩ := h.split
    refine mustArgs_eq f fixed extra pre 0 (by omega) (fun j x y hx hy => ?_) (fun x hx => ?_)
    · rw [Nat.zero_add]
      have hj : j < pre.length := (List.getElem?_eq_some_iff.mp hx).1
      have hle : f.fixed ≤ f.params.length := by unfold Fn.fixed; split <;> omega
      have : j < f.params.length := by omega
      refine ⟨f.params[j], by simp [this], hp j x y _ hx hy (by simp [this])⟩
    · obtain ⟨v, _, h1, _⟩ := h.rest x hx
      exact ⟨v, h1⟩
  unfold mustCall
  rw [hargs]
  simp only [reflectCall_fits f hw args fixed extra h s]
  refine ⟨fun s' vals hb hh hf => ?_, fun s' vals hb hh hf => ?_, fun s' v hb => ?_, fun s' hb => ?_⟩ <;> simp only [hb]
  · exact (afterCall_spec .must g t f s' vals hh).1 hf
  · exact (afterCall_spec .must g t f s' vals hh).2 hf

/-- C101 (partly): `should.Call` does so too for arguments that are not nil, but lets the test go on and returns the results even if it
fails.  Missing: nil arguments, see `should_nil_panics`. -/
theorem should_call_partial (g t : Nat) (f : Fn) (hw : f.WF) (args fixed extra : List (Option V)) (h : Fits f args fixed extra)
    (hn : none ∉ args) (s : St) :
    fixed ++ extra = args ∧
    (∀ s' vals, f.body fixed extra s = (s', .ret vals) → Has g t s'.gls → ¬Failed f vals → shouldCall g f args s = (s', .ret vals)) ∧
    (∀ s' vals, f.body fixed extra s = (s', .ret vals) → Has g t s'.gls → Failed f vals → shouldCall g f args s = (s'.fail t, .ret vals)) ∧
    (∀ s' v, f.body fixed extra s = (s', .panic v) → shouldCall g f args s = (s', .panic v)) ∧
    (∀ s', f.body fixed extra s = (s', .exit) → shouldCall g f args s = (s', .exit)) := by
  have heq : fixed ++ extra = args := by
    obtain ⟨pre, rfl, hpl, hfl, hp⟩ := h.split
    congr 1
    refine List.ext_getElem? (fun j => ?_)
    rcases Nat.lt_or_ge j pre.length with hj | hj
    · have hj' : j < fixed.length := by omega
      have hle : f.fixed ≤ f.params.length := by unfold Fn.fixed; split <;> omega
      have hj2 : j < f.params.length := by omega
      have := hp j pre[j] fixed[j] f.params[j] (by simp [hj]) (by simp [hj']) (by simp [hj2])
      have hne : pre[j] ≠ none := fun e => hn (List.mem_append_left _ (e ▸ List.getElem_mem hj))
      rw [List.getElem?_eq_getElem hj, List.getElem?_eq_getElem hj']
      revert this hne
      generalize pre[j] = x
      generalize fixed[j] = y
      intro hpass hne
      cases hpass with
      | value v _ => rfl
      | nil => exact absurd rfl hne
    · rw [List.getElem?_eq_none hj, List.getElem?_eq_none (by omega)]
  have hany : args.any Option.isNone = false := by
    rw [List.any_eq_false]
    intro x hx
    cases x with
    | none => exact absurd hx hn
    | some v => simp
  refine ⟨heq, ?_⟩
  unfold shouldCall
  rw [hany]
  have hb' := reflectCall_fits f hw args fixed extra h s
  rw [heq] at hb'
  simp only [hb']
  refine ⟨fun s' vals hb hh hf => ?_, fun s' vals hb hh hf => ?_, fun s' v hb => ?_, fun s' hb => ?_⟩ <;> simp only [hb, Bool.false_eq_true, if_false]
  · exact (afterCall_spec .should g t f s' vals hh).1 hf
  · exact (afterCall_spec .should g t f s' vals hh).2 hf

/-- C101 is false of `should.Call` with a nil argument: it panics without calling the function, whatever that is. -/
theorem should_nil_panics (g : Nat) (f : Fn) (args : List (Option V)) (h : none ∈ args) (s : St) :
    shouldCall g f args s = (s, .panic runtimeError) := by
  unfold shouldCall
  rw [if_pos]
  rw [List.any_eq_true]
  exact ⟨none, h, rfl⟩

theorem mustArgs_passed (f : Fn) (args out : List (Option V)) (i : Nat) (h : mustArgs f i args = some out) :
    args.length = out.length ∧ ∀ (j : Nat) (x y : Option V) (ty : Ty), args[j]? = some x → out[j]? = some y → f.params[i + j]? = some ty → assignable ty y = true → Passed ty x y := by
  induction args generalizing i out with
  | nil =>
    simp only [mustArgs, Option.some.injEq] at h
    subst h
    exact ⟨rfl, fun j x y ty hx => by simp at hx⟩
  | cons a r ih =>
    have next : ∀ (o : List (Option V)) (b : Option V), mustArgs f (i + 1) r = some o → out = b :: o → (∀ ty, f.params[i]? = some ty → assignable ty b = true → Passed ty a b) →
        (a :: r).length = out.length ∧ ∀ (j : Nat) (x y : Option V) (ty : Ty), (a :: r)[j]? = some x → out[j]? = some y → f.params[i + j]? = some ty → assignable ty y = true → Passed ty x y := by
      rintro o b ho rfl hb
      obtain ⟨h1, h2⟩ := ih o (i + 1) ho
      refine ⟨by simp [h1], fun j x y ty hx hy ht ha => ?_⟩
      cases j with
      | zero =>
        simp only [List.getElem?_cons_zero, Option.some.injEq] at hx hy
        subst hx hy
        exact hb ty ht ha
      | succ j => exact h2 j x y ty (by simpa using hx) (by simpa using hy) (by rw [show i + 1 + j = i + (j + 1) by omega]; exact ht) ha
    cases a with
    | some v =>
      simp only [mustArgs, Option.map_eq_some_iff] at h
      obtain ⟨o, ho, rfl⟩ := h
      exact next o (some v) ho rfl fun ty _ ha => .value v ha
    | none =>
      simp only [mustArgs] at h
      cases hp : f.params[i]? with
      | none => rw [hp] at h; cases h
      | some ty =>
        rw [hp] at h
        simp only [Option.map_eq_some_iff] at h
        obtain ⟨o, ho, rfl⟩ := h
        refine next o ty.zero ho rfl fun ty' ht ha => ?_
        rw [hp] at ht
        cases ht
        exact .nil

theorem assignableAll_at (tys : List Ty) (as : List (Option V)) (h : assignableAll tys as = true) (j : Nat) (y : Option V) (ty : Ty) (hy : as[j]? = some y) (ht : tys[j]? = some ty) :
    assignable ty y = true := by
  induction as generalizing tys j with
  | nil => simp at hy
  | cons a r ih =>
    cases tys with
    | nil => cases h
    | cons t tys =>
      simp only [assignableAll, Bool.and_eq_true] at h
      cases j with
      | zero =>
        simp only [List.getElem?_cons_zero, Option.some.injEq] at hy ht
        subst hy ht
        exact h.1
      | succ j => exact ih tys h.2 j (by simpa using hy) (by simpa using ht)

theorem reflectCall_misfit (f : Fn) (hv : f.variadic = none) (args out : List (Option V)) (hlen : args.length = out.length)
    (hp : ∀ (j : Nat) (x y : Option V) (ty : Ty), args[j]? = some x → out[j]? = some y → f.params[j]? = some ty → assignable ty y = true → Passed ty x y)
    (h : ∀ fixed, ¬ Fits f args fixed []) (s : St) : reflectCall f out s = (s, .panic runtimeError) := by
  unfold reflectCall
  rw [hv]
  simp only
  rw [if_neg]
  intro hc
  simp only [Bool.and_eq_true, decide_eq_true_eq] at hc
  have hfix : f.fixed = f.params.length := by unfold Fn.fixed; rw [hv]; rfl
  refine h out ⟨⟨args, by simp, by omega, by omega, fun j x y ty hx hy ht => hp j x y ty hx hy ht (assignableAll_at _ _ hc.2 j y ty hy ht)⟩, by simp⟩

/-- C101: with too few or too many arguments, or with one that its parameter does not take, both panic without calling the function. -/
theorem misfit_panics (g : Nat) (f : Fn) (hv : f.variadic = none) (args : List (Option V)) (h : ∀ fixed, ¬ Fits f args fixed []) (s : St) :
    mustCall g f args s = (s, .panic runtimeError) ∧ shouldCall g f args s = (s, .panic runtimeError) := by
  constructor
  · unfold mustCall
    cases hm : mustArgs f 0 args with
    | none => rfl
    | some out =>
      obtain ⟨h1, h2⟩ := mustArgs_passed f args out 0 hm
      have := reflectCall_misfit f hv args out h1 (fun j x y ty hx hy ht ha => h2 j x y ty hx hy (by rw [Nat.zero_add]; exact ht) ha) h s
      simp only [this]
  · unfold shouldCall
    by_cases hn : args.any Option.isNone = true
    · rw [if_pos hn]
    · rw [if_neg hn]
      have := reflectCall_misfit f hv args args rfl (fun j x y ty hx hy ht ha => by
        rw [hx] at hy
        cases hy
        cases x with
        | none =>
          exfalso
          apply hn
          rw [List.any_eq_true]
          exact ⟨none, List.mem_of_getElem? hx, rfl⟩
        | some v => exact .value v ha) h s
      simp only [this]

/-- C101 is false of nil as a variadic argument: where the first one is nil the function gets a nil slice as that argument if it takes one there
(as with `...interface{}`), and any other nil panics. -/
theorem nil_variadic (g : Nat) (f : Fn) (ty last : Ty) (sl : V) (hv : f.variadic = some ty) (hp : f.params = [last]) (hz : last.zero = some sl) (ha : ty.accepts sl = true) (s : St) :
    (∀ s' v, f.body [] [some sl] s = (s', .panic v) → mustCall g f [none] s = (s', .panic v)) ∧
    (∀ v, mustCall g f [some v, none] s = (s, .panic runtimeError)) := by
  constructor
  · intro s' v hb
    simp [mustCall, mustArgs, hp, hz, reflectCall, hv, Fn.fixed, assignableAll, assignable, ha, hb]
  · intro v
    simp [mustCall, mustArgs, hp]

/-- C101 is false of a function whose last result is a nil pointer of a type that implements `error`: the test fails though there is no
error. -/
theorem typed_nil_error (g t : Nat) (f : Fn) (hw : f.WF) (ty : Ty) (s : St) (hs : Has g t s.gls) (i : Nat) (w : V)
    (hr : f.results = [ty]) (hi : ty.isError = true) (hp : f.params = [])
    (hb : f.body [] [] s = (s, .ret [some (.ptr i 0 w)])) : mustCall g f [] s = (s.fail t, .exit) := by
  have hfit : Fits f [] [] [] := ⟨⟨[], rfl, by simp [Fn.fixed, hp], by simp [Fn.fixed, hp], by simp⟩, by simp⟩
  exact (must_call_partial g t f hw [] [] [] hfit s).2.1 s _ hb hs ⟨ty, .ptr i 0 w, by simp [hr], hi, rfl⟩

/-! ### `Set` -/

theorem setLoop_ok (accepts : Nat → V → Bool) (ret : List (Option V)) (i : Nat) (addrs : List Nat) (store : Nat → Option V)
    (h : ∀ j a, addrs[j]? = some a → ∃ v, ret[i + j]? = some (some v) ∧ accepts a v = true) :
    (setLoop accepts ret i (addrs.map some) store).2 = true ∧
    (∀ x, x ∉ addrs → (setLoop accepts ret i (addrs.map some) store).1 x = store x) ∧
    (∀ (j a : Nat), addrs[j]? = some a → (∀ k, j < k → addrs[k]? ≠ some a) →
      ret[i + j]? = some ((setLoop accepts ret i (addrs.map some) store).1 a)) := by
  induction addrs generalizing i store with
  | nil => exact ⟨rfl, fun _ _ => rfl, fun j a h => by simp at h⟩
  | cons b bs ih =>
    obtain ⟨v, hv, hacc⟩ := h 0 b rfl
    rw [Nat.add_zero] at hv
    have := ih (i + 1) (fun x => if x = b then some v else store x) (fun j a hj => by
      have := h (j + 1) a (by simpa using hj)
      rwa [show i + (j + 1) = i + 1 + j by omega] at this)
    simp only [List.map_cons, setLoop, hv, hacc, if_true]
    refine ⟨this.1, fun x hx => ?_, fun j a hj hlast => ?_⟩
    · rw [this.2.1 x (fun hm => hx (List.mem_cons_of_mem _ hm)), if_neg (fun (e : x = b) => hx (e ▸ List.mem_cons_self ..))]
    · cases j with
      | zero =>
        simp only [List.getElem?_cons_zero, Option.some.injEq] at hj
        subst hj
        rw [Nat.add_zero, hv]
        have hnot : b ∉ bs := by
          intro hm
          obtain ⟨k, hk⟩ := List.mem_iff_getElem?.mp hm
          exact hlast (k + 1) (by omega) (by simpa using hk)
        rw [this.2.1 b hnot, if_pos rfl]
      | succ j =>
        rw [show i + (j + 1) = i + 1 + j by omega]
        refine this.2.2 j a (by simpa using hj) (fun k hk hk' => hlast (k + 1) (by omega) (by simpa using hk'))

/-- C102 (partly): `Set` of at most as many variables as there are results, all of which it can hold and none of which is nil, gives every
variable the result at its position - the last one if it is named twice - and changes no other.  Missing: nil results, see `set_nil_panics`. -/
theorem set_partial (accepts : Nat → V → Bool) (ret : List (Option V)) (addrs : List Nat) (store : Nat → Option V)
    (h : ∀ (j a : Nat), addrs[j]? = some a → ∃ v, ret[j]? = some (some v) ∧ accepts a v = true) :
    (setAll accepts ret (addrs.map some) store).2 = true ∧
    (∀ x, x ∉ addrs → (setAll accepts ret (addrs.map some) store).1 x = store x) ∧
    (∀ (j a : Nat), addrs[j]? = some a → (∀ k, j < k → addrs[k]? ≠ some a) →
      ret[j]? = some ((setAll accepts ret (addrs.map some) store).1 a)) := by
  have := setLoop_ok accepts ret 0 addrs store (by simpa using h)
  simpa [setAll] using this

/-- C102 is false if a result is nil, as the error of a call that went well: `Set` panics, having set the variables before. -/
theorem set_nil_panics (accepts : Nat → V → Bool) (v : V) (a b : Nat) (ha : accepts a v = true) (store : Nat → Option V) :
    setAll accepts [some v, none] [some a, some b] store = (fun x => if x = a then some v else store x, false) := by
  simp [setAll, setLoop, ha]

/-! ### Examples -/

/-- The type int. -/
def intTy : Ty := { accepts := fun v => match v with | .int .int 0 _ => true | _ => false, zero := some (.int .int 0 0), isError := false }

/-- The type error; errors are structs here. -/
def errorTy : Ty := { accepts := fun v => match v with | .struct _ _ => true | _ => false, zero := none, isError := true }

/-- A function that takes two numbers and returns the second one and an error unless the first one is 0. -/
def sample : Fn := {
  params := [intTy, intTy], variadic := none, results := [intTy, errorTy]
  body := fun args _ s =>
    match args with
    | [some (.int .int 0 0), y] => (s, .ret [y, none])
    | [_, y] => (s, .ret [y, some (.struct 1 .nil)])
    | _ => (s, .panic none) }

theorem sample_wf : sample.WF := by
  refine ⟨?_, fun _ => by simp [sample]⟩
  intro ty hty v hv
  simp only [sample, List.mem_cons, List.not_mem_nil, or_false] at hty
  rcases hty with rfl | rfl <;> (simp only [intTy, Option.some.injEq] at hv; subst hv; rfl)

/-- Nil is passed as 0. -/
example : Fits sample [none, two] [some (.int .int 0 0), two] [] := by
  refine ⟨⟨[none, two], rfl, rfl, rfl, ?_⟩, by simp⟩
  intro i x y ty hx hy ht
  match i with
  | 0 =>
    simp only [sample, List.getElem?_cons_zero, Option.some.injEq] at hx hy ht
    subst hx hy ht
    exact .nil
  | 1 =>
    simp only [sample, List.getElem?_cons_succ, List.getElem?_cons_zero, Option.some.injEq] at hx hy ht
    subst hx hy ht
    exact .value _ rfl
  | n + 2 => simp at hx

example (s : St) (hs : Has 1 7 s.gls) : mustCall 1 sample [none, two] s = (s, .ret [two, none]) ∧
    mustCall 1 sample [two, one] s = (s.fail 7, .exit) ∧
    shouldCall 1 sample [two, one] s = (s.fail 7, .ret [one, some (.struct 1 .nil)]) ∧
    Failed sample [one, some (.struct 1 .nil)] ∧ ¬Failed sample [two, none] := by
  have h := currentT_of_has hs
  refine ⟨?_, ?_, ?_, ⟨errorTy, .struct 1 .nil, rfl, rfl, rfl⟩, ?_⟩
  · simp [mustCall, mustArgs, sample, intTy, reflectCall, assignableAll, assignable, two, afterCall, errorTy, h, Option.join, Assert.noError]
  · simp [mustCall, mustArgs, sample, intTy, reflectCall, assignableAll, assignable, one, two, afterCall, errorTy, h, Option.join, Assert.noError, Assert.fail, giveUp, fail_fail]
  · simp [shouldCall, sample, intTy, reflectCall, assignableAll, assignable, one, two, afterCall, errorTy, h, Option.join, Assert.noError, Assert.fail, giveUp, fail_fail]
  · rintro ⟨_, v, _, _, h⟩
    simp at h

/-- One argument too few, and one too many. -/
example : (∀ fixed, ¬ Fits sample [two] fixed []) ∧ (∀ fixed, ¬ Fits sample [two, two, two] fixed []) := by
  constructor <;> rintro fixed ⟨⟨pre, h1, h2, _⟩, _⟩ <;> rw [List.append_nil] at h1 <;> subst h1 <;> simp [Fn.fixed, sample] at h2

/-- Two variables. -/
example : (setAll (fun _ _ => true) [one, two] ([5, 6].map some) (fun _ => none)).1 6 = two ∧
    (setAll (fun _ _ => true) [one, two] ([5, 6].map some) (fun _ => none)).1 7 = none := ⟨rfl, rfl⟩

end Verif.Check
