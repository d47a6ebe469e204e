import Verif.Gls.Gls
import Verif.Assert.Panics

/-!
# C98, C99 and C100: test cases and their checks

Model of test/case.go and of the checks `Equal`, `Nil`, `NotNil`, `Assert`, `Pass` and `Panic` in test/must and test/should.  A test is
a list of actions; it runs on one goroutine, and other goroutines may use their storage at any point.
-/

namespace Verif.Check

open Verif.Assert (V Outcome)

/-! ### Model -/

/-- Keys of the storage of a goroutine: `testingTType` (test/case.go 11) and those of users. -/
inductive Key where
  | t
  | user (n : Nat)
  deriving DecidableEq, Repr

/-- Values in the storage: a `*testing.T` (test/case.go 17) and those of users.  The `T`s are numbered. -/
inductive Val where
  | t (n : Nat)
  | user (n : Nat)
  deriving DecidableEq, Repr

/-- What `WithGls` does to a value (gls/gls.go 60-65): a `T` has no method `Copy`, for values of users `f` stands for it. -/
def copyVal (f : Nat → Nat) : Val → Val
  | .t n => .t n
  | .user n => .user (f n)

/-- What a test can be seen doing: a statement of its own, or `Panic` returning what was recovered (test/must/panic.go 9). -/
inductive Event where
  | mark (n : Nat)
  | recovered (v : Option V)

/-- How actions end: by going on, by `runtime.Goexit` (as `Fatal` and `Skip` do), or with a panic. -/
inductive End where
  | next
  | exit
  | panic (v : Option V)

/-- Package `must` or package `should`. -/
inductive Mode where
  | must
  | should
  deriving DecidableEq, Repr

/-- The storage of goroutines, the `T`s that have failed and that were skipped, and what has been seen. -/
structure St where
  gls : Gls.St Key Val
  failed : Nat → Bool
  skipped : Nat → Bool
  trace : List Event

mutual

/-- What a test does.  Simplified: functions are called with values, so what they do depends on nothing else. -/
inductive Act where
  /-- A statement of the test. -/
  | mark (n : Nat)
  /-- `Equal` and `AssertEqual`, test/must/equal.go 9-37 and test/should/equal.go 9-37. -/
  | equal (m : Mode) (expected actual : Option V)
  /-- `Nil` and `AssertNil`, test/must/nil.go 9-35 and test/should/nil.go 9-35. -/
  | isNil (m : Mode) (x : Option V)
  /-- `NotNil` and `AssertNotNil`, test/must/nil.go 37-63 and test/should/nil.go 37-63. -/
  | notNil (m : Mode) (x : Option V)
  /-- `Assert`, test/must/pass.go 10-22 and test/should/pass.go 10-25. -/
  | assert (m : Mode) (result : Bool) (kv : List (Option V))
  /-- `Pass`, test/must/pass.go 25-41 and test/should/pass.go 28-43. -/
  | pass (m : Mode) (result : Bool) (kv : List (Option V))
  /-- `Panic`, test/must/panic.go 9-26 and test/should/panic.go 9-26. -/
  | panic (m : Mode) (body : Acts)
  /-- A panic of the test itself. -/
  | raise (v : Option V)
  /-- `Skip` and `Skipf`, test/case.go 30-36. -/
  | skip
  /-- `gls.Set` by the test, gls/gls.go 93-99. -/
  | set (k v : Nat)
  /-- Other goroutines use their storage meanwhile. -/
  | others (copy : Nat → Nat) (ops : List (Gls.Op Key Val))
  /-- A case inside: the result of `Case` is called with a `T`, test/case.go 13-28. -/
  | case (t : Nat) (body : Acts)

/-- One action after the other. -/
inductive Acts where
  | nil
  | cons (a : Act) (r : Acts)

end

/-- `CurrentT`, test/case.go 38-44; `none` where it panics. -/
def currentT (s : St) (g : Nat) : Option Nat :=
  match Gls.get s.gls g .t with
  | some (.t n) => some n
  | _ => none

/-- The value of the panic in test/case.go 41. -/
def notStarted : Option V := some (.str 0 (asc "test not started with check.Case()"))

/-- A run-time error of Go (for test/must/pass.go 37-38 and test/should/pass.go 21, 39).  Simplified: all are one value. -/
def runtimeError : Option V := some (.struct 1 .nil)

/-- `Fail` of a `T`, called by `Errorf`, `Error` and `Fatal` (test/must/pass.go 38 and 40). -/
def St.fail (s : St) (t : Nat) : St := { s with failed := fun x => if x = t then true else s.failed x }

/-- `t.Fatal` (test/must/equal.go 18 and 21) or `t.Error` (test/should/equal.go 18 and 21). -/
def giveUp (m : Mode) (t : Nat) (s : St) : St × End :=
  (s.fail t, match m with | .must => .exit | .should => .next)

/-- A check by an assertion with outcome `o`, as in test/must/equal.go 10-22, test/must/nil.go 10-20 and the same of test/should:
`CurrentT` comes first, so that it panics even if the assertion would hold. -/
def judge (m : Mode) (g : Nat) (s : St) (o : Outcome) : St × End :=
  match currentT s g with
  | none => (s, .panic notStarted)
  | some t =>
    match o with
    | .panic => (s, .panic runtimeError)
    | .ret true f => (if f then s.fail t else s, .next)
    | .ret false f => giveUp m t (if f then s.fail t else s)

/-- The loop over keys and values, test/must/pass.go 36-39 and test/should/pass.go 20-23, 38-41: whether anything was reported, and
whether the loop ended without a panic. -/
def kvLoop : List (Option V) → Bool × Bool
  | [] => (false, true)
  | some (.str 0 _) :: _ :: r => (true, (kvLoop r).2)
  | _ => (false, false)

/-- `Pass`, test/must/pass.go 25-41 and test/should/pass.go 28-43, and `Assert` of test/should/pass.go 10-25. -/
def passWith (m : Mode) (g : Nat) (s : St) (result : Bool) (kv : List (Option V)) : St × End :=
  if result then (s, .next)
  else
    match currentT s g with
    | none => (s, .panic notStarted)
    | some t =>
      let s := if (kvLoop kv).1 then s.fail t else s
      if (kvLoop kv).2 then giveUp m t s else (s, .panic runtimeError)

/-- The deferred function of `Panic`, test/must/panic.go 17-23 and test/should/panic.go 17-23, after the function ended with `e`; `recover`
gives nil if it did not panic.  A `Goexit` goes on after it. -/
def afterPanic (m : Mode) (t : Nat) (s : St) (e : End) : St × End :=
  let recovered := match e with | .panic v => v | _ => none
  match Assert.assertNotNil true recovered with
  | .ret true _ => ({ s with trace := s.trace ++ [.recovered recovered] }, .next)
  | .ret false f =>
    match giveUp m t (if f then s.fail t else s), e with
    | (s, .next), .exit => (s, .exit)
    | (s, .next), _ => ({ s with trace := s.trace ++ [.recovered recovered] }, .next)
    | (s, e'), _ => (s, e')
  | .panic => (s, .panic runtimeError)

mutual

/-- One action on goroutine `g` (for the functions see `Act`: test/case.go 13-36, test/must, test/should). -/
def run (g : Nat) : Act → St → St × End
  | .mark n, s => ({ s with trace := s.trace ++ [.mark n] }, .next)
  | .equal m e a, s => judge m g s (Assert.equal true e a)
  | .isNil m x, s => judge m g s (Assert.assertNil true x)
  | .notNil m x, s => judge m g s (Assert.assertNotNil true x)
  | .assert .must result _, s => passWith .must g s result []
  | .assert .should result kv, s => passWith .should g s result kv
  | .pass m result kv, s => passWith m g s result kv
  | .panic m body, s =>
    match currentT s g with
    | none => (s, .panic notStarted)
    | some t => afterPanic m t (runs g body s).1 (runs g body s).2
  | .raise v, s => (s, .panic v)
  | .skip, s =>
    match currentT s g with
    | none => (s, .panic notStarted)
    | some t => ({ s with skipped := fun x => if x = t then true else s.skipped x }, .exit)
  | .set k v, s => ({ s with gls := Gls.step id s.gls (.set g (.user k) (.user v)) }, .next)
  | .others f ops, s => ({ s with gls := Gls.run (copyVal f) s.gls ops }, .next)
  | .case t body, s =>
    let s1 := { s with gls := Gls.step id s.gls (.reset g (fun k => if k = .t then some (.t t) else none)) }
    ({ (runs g body s1).1 with gls := Gls.step id (runs g body s1).1.gls (.delete g) }, (runs g body s1).2)

/-- One after the other (test/case.go 26). -/
def runs (g : Nat) : Acts → St → St × End
  | .nil, s => (s, .next)
  | .cons a r, s =>
    match run g a s with
    | (s', .next) => runs g r s'
    | (s', e) => (s', e)

end

/-- A test function made by `Case`, called by package testing with `t` on goroutine `g` (test/case.go 13-28). -/
def runCase (g t : Nat) (body : Acts) (s : St) : St × End := run g (.case t body) s

/-! ### Specification -/

/-- The check holds, in terms of values. -/
def Holds : Act → Prop
  | .equal _ e a => Assert.SameArg e a
  | .isNil _ x => Assert.IsNilValue x
  | .notNil _ x => ¬Assert.IsNilValue x
  | .assert _ b _ => b = true
  | .pass _ b _ => b = true
  | _ => False

/-- How a check that does not hold ends: `must` ends the test, `should` lets it go on. -/
def endOf : Mode → End
  | .must => .exit
  | .should => .next

/-- Checks without a body. -/
def IsCheck (m : Mode) : Act → Prop
  | .equal m' _ _ => m' = m
  | .isNil m' _ => m' = m
  | .notNil m' _ => m' = m
  | .assert m' _ _ => m' = m
  | .pass m' _ _ => m' = m
  | _ => False

mutual

/-- What an action of a test means: whether the test fails by it, whether it is skipped by it, what is seen of it, and how it ends. -/
inductive Does : Act → Bool → Bool → List Event → End → Prop
  | mark (n : Nat) : Does (.mark n) false false [.mark n] .next
  | holds (m : Mode) (c : Act) : IsCheck m c → Holds c → Does c false false [] .next
  | must (c : Act) : IsCheck .must c → ¬Holds c → Does c true false [] .exit
  | should (c : Act) : IsCheck .should c → ¬Holds c → Does c true false [] .next
  | raise (v : Option V) : Does (.raise v) false false [] (.panic v)
  | skip : Does .skip false true [] .exit
  | set (k v : Nat) : Does (.set k v) false false [] .next
  | others (f : Nat → Nat) (ops : List (Gls.Op Key Val)) : Does (.others f ops) false false [] .next
  | caught (m : Mode) (body : Acts) (f k : Bool) (tr : List Event) (v : Option V) :
      DoesAll body f k tr (.panic v) → ¬Assert.IsNilValue v → Does (.panic m body) f k (tr ++ [.recovered v]) .next
  | mustMissed (body : Acts) (f k : Bool) (tr : List Event) (e : End) :
      DoesAll body f k tr e → (∀ v, e = .panic v → Assert.IsNilValue v) → Does (.panic .must body) true k tr .exit
  | shouldMissed (body : Acts) (f k : Bool) (tr : List Event) :
      DoesAll body f k tr .next → Does (.panic .should body) true k (tr ++ [.recovered none]) .next
  | shouldNil (body : Acts) (f k : Bool) (tr : List Event) (v : Option V) :
      DoesAll body f k tr (.panic v) → Assert.IsNilValue v → Does (.panic .should body) true k (tr ++ [.recovered v]) .next
  | shouldExit (body : Acts) (f k : Bool) (tr : List Event) :
      DoesAll body f k tr .exit → Does (.panic .should body) true k tr .exit

/-- Actions one after the other, until one does not go on. -/
inductive DoesAll : Acts → Bool → Bool → List Event → End → Prop
  | nil : DoesAll .nil false false [] .next
  | stop (a : Act) (r : Acts) (f k : Bool) (tr : List Event) (e : End) : Does a f k tr e → e ≠ .next → DoesAll (.cons a r) f k tr e
  | go (a : Act) (r : Acts) (f k f' k' : Bool) (tr tr' : List Event) (e : End) : Does a f k tr .next → DoesAll r f' k' tr' e →
      DoesAll (.cons a r) (f || f') (k || k') (tr ++ tr') e

end

/-- Keys and values alternate, and keys are strings. -/
inductive Pairs : List (Option V) → Prop
  | nil : Pairs []
  | cons (key : Bytes) (v : Option V) (r : List (Option V)) : Pairs r → Pairs (some (.str 0 key) :: v :: r)

/-- Not a nil `unsafe.Pointer`, which the assertions take for not nil (C91). -/
def NotUnsafe (x : Option V) : Prop := ∀ i, x ≠ some (.uptr i 0)

/-- An operation of another goroutine than `g`, on keys of users. -/
def Foreign (g : Nat) (x : Gls.Op Key Val) : Prop := Gls.about x ≠ some g ∧ ∀ h v, x ≠ .set h .t v

mutual

/-- What is assumed of a test: arguments without NaN and functions in `Equal`; no nil `unsafe.Pointer`; keys with values; other goroutines
use their own storage; and no other case on the same goroutine. -/
def Act.Fair (H : Assert.Heap) (g : Nat) : Act → Prop
  | .equal _ e a => Assert.ArgWF H e ∧ Assert.ArgWF H a ∧ Assert.ArgTame e ∧ Assert.ArgTame a
  | .isNil _ x => NotUnsafe x
  | .notNil _ x => NotUnsafe x
  | .assert m _ kv => m = .should → Pairs kv
  | .pass _ _ kv => Pairs kv
  | .panic _ body => body.Fair H g
  | .raise v => NotUnsafe v
  | .others _ ops => ∀ x ∈ ops, Foreign g x
  | .case _ _ => False
  | _ => True

/-- All actions. -/
def Acts.Fair (H : Assert.Heap) (g : Nat) : Acts → Prop
  | .nil => True
  | .cons a r => a.Fair H g ∧ r.Fair H g

end

/-- The state `s'` is `s` after a test with `t` that had this effect. -/
structure After (t : Nat) (s s' : St) (f k : Bool) (tr : List Event) : Prop where
  failed : ∀ x, s'.failed x = true ↔ s.failed x = true ∨ (x = t ∧ f = true)
  skipped : ∀ x, s'.skipped x = true ↔ s.skipped x = true ∨ (x = t ∧ k = true)
  trace : s'.trace = s.trace ++ tr

/-! ### The storage keeps the `T` -/

/-- The storage of goroutine `g` holds `t`. -/
def Has (g t : Nat) (s : Gls.St Key Val) : Prop := ∃ r, Gls.getGls s g = some r ∧ r < s.next ∧ s.heap r .t = some (.t t)

theorem currentT_of_has {g t : Nat} {s : St} (h : Has g t s.gls) : currentT s g = some t := by
  obtain ⟨r, hr, _, ht⟩ := h
  unfold currentT Gls.get
  rw [hr]
  simp only [ht]

theorem has_reset (g t : Nat) (s : Gls.St Key Val) :
    Has g t (Gls.step id s (.reset g (fun k => if k = .t then some (.t t) else none))) := by
  refine ⟨s.next, ?_, ?_, ?_⟩
  · simp only [Gls.step, Gls.getGls_put, if_true]
  · simp [Gls.step]
  · simp [Gls.step]

theorem has_set (copy : Val → Val) (g t h : Nat) (k : Key) (v : Val) (hk : k ≠ .t) (s : Gls.St Key Val) (hs : Has g t s) :
    Has g t (Gls.step copy s (.set h k v)) := by
  obtain ⟨r, hr, hn, ht⟩ := hs
  simp only [Gls.step]
  split
  · rename_i r' _
    refine ⟨r, hr, hn, ?_⟩
    simp only
    split
    · rename_i heq
      subst heq
      simp only [Gls.assign]
      rw [if_neg (Ne.symm hk)]
      exact ht
    · exact ht
  · exact ⟨r, hr, hn, ht⟩

theorem has_foreign (copy : Val → Val) (g t : Nat) (x : Gls.Op Key Val) (hx : Foreign g x) (s : Gls.St Key Val) (hs : Has g t s) :
    Has g t (Gls.step copy s x) := by
  obtain ⟨ha, hset⟩ := hx
  cases x with
  | set h k v =>
    exact has_set copy g t h k v (fun e => hset h v (by rw [e])) s hs
  | reset h m =>
    obtain ⟨r, hr, hn, ht⟩ := hs
    simp only [Gls.about, ne_eq, Option.some.injEq] at ha
    refine ⟨r, ?_, ?_, ?_⟩
    · simp only [Gls.step, Gls.getGls_put, if_neg (Ne.symm ha)]; exact hr
    · simp only [Gls.step]; omega
    · simp only [Gls.step]; rw [if_neg (by omega)]; exact ht
  | delete h =>
    obtain ⟨r, hr, hn, ht⟩ := hs
    simp only [Gls.about, ne_eq, Option.some.injEq] at ha
    refine ⟨r, ?_, hn, ht⟩
    simp only [Gls.step, Gls.getGls_put, if_neg (Ne.symm ha)]; exact hr
  | leave h =>
    obtain ⟨r, hr, hn, ht⟩ := hs
    simp only [Gls.about, ne_eq, Option.some.injEq] at ha
    refine ⟨r, ?_, hn, ht⟩
    simp only [Gls.step, Gls.getGls_put, if_neg (Ne.symm ha)]; exact hr
  | wrap h =>
    obtain ⟨r, hr, hn, ht⟩ := hs
    refine ⟨r, hr, ?_, ?_⟩
    · simp only [Gls.step]; omega
    · simp only [Gls.step]; rw [if_neg (by omega)]; exact ht
  | wrapEmpty => exact hs
  | enter h c =>
    obtain ⟨r, hr, hn, ht⟩ := hs
    simp only [Gls.about, ne_eq, Option.some.injEq] at ha
    simp only [Gls.step]
    split
    · exact ⟨r, by simp only [Gls.getGls_put, if_neg (Ne.symm ha)]; exact hr, hn, ht⟩
    · refine ⟨r, by simp only [Gls.getGls_put, if_neg (Ne.symm ha)]; exact hr, ?_, ?_⟩
      · simp only; omega
      · simp only; rw [if_neg (by omega)]; exact ht
    · exact ⟨r, hr, hn, ht⟩

theorem has_run (copy : Val → Val) (g t : Nat) (ops : List (Gls.Op Key Val)) (ho : ∀ x ∈ ops, Foreign g x) (s : Gls.St Key Val)
    (hs : Has g t s) : Has g t (Gls.run copy s ops) := by
  induction ops generalizing s with
  | nil => exact hs
  | cons x xs ih =>
    exact ih (fun y hy => ho y (List.mem_cons_of_mem _ hy)) _ (has_foreign copy g t x (ho x (List.mem_cons_self ..)) s hs)

/-- C98 (partly): from the call of a test function made by `Case` until it ends, `CurrentT` on its goroutine gives the `T` it was called with,
whatever was stored there before and whatever other goroutines do with their storage meanwhile. -/
theorem currentT_partial (f : Nat → Nat) (before ops : List (Gls.Op Key Val)) (g t : Nat) (ho : ∀ x ∈ ops, Foreign g x) (s : St)
    (hs : s.gls = Gls.run (copyVal f) Gls.start (before ++ .reset g (fun k => if k = .t then some (.t t) else none) :: ops)) :
    currentT s g = some t := by
  refine currentT_of_has ?_
  rw [hs]
  have : Gls.run (copyVal f) Gls.start (before ++ .reset g (fun k => if k = .t then some (.t t) else none) :: ops) =
      Gls.run (copyVal f) (Gls.step id (Gls.run (copyVal f) Gls.start before) (.reset g (fun k => if k = .t then some (.t t) else none))) ops := by
    simp only [Gls.run, List.foldl_append, List.foldl_cons]
    rfl
  rw [this]
  exact has_run _ _ _ _ ho _ (has_reset g t _)

/-- C98: a goroutine started by the test with a function wrapped by `gls.WithGls` has the same `T`; proved if no wrapped function is run
twice. -/
theorem child_currentT_partial (f : Nat → Nat) (before between after : List (Gls.Op Key Val)) (parent child t : Nat)
    (hn : (Gls.entered (before ++ .wrap parent :: between ++ .enter child (Gls.wraps before) :: after)).Nodup)
    (ho : ∀ x ∈ after, Gls.about x ≠ some child) (s s' : St)
    (hs : s.gls = Gls.run (copyVal f) Gls.start before) (ht : currentT s parent = some t)
    (hs' : s'.gls = Gls.run (copyVal f) Gls.start (before ++ .wrap parent :: between ++ .enter child (Gls.wraps before) :: after)) :
    currentT s' child = some t := by
  have h := Gls.inherits_partial (copyVal f) before between after parent child .t hn ho
  unfold currentT at ht ⊢
  rw [hs] at ht
  rw [hs', h]
  revert ht
  cases Gls.get (Gls.run (copyVal f) Gls.start before) parent .t with
  | none => intro h; exact nomatch h
  | some v =>
    cases v with
    | t n => intro h; exact h
    | user n => intro h; exact nomatch h

/-! ### Checks -/

theorem fail_failed (s : St) (t x : Nat) : (s.fail t).failed x = true ↔ s.failed x = true ∨ x = t := by
  simp only [St.fail]
  by_cases h : x = t <;> simp [h]

theorem after_same (t : Nat) (s : St) : After t s s false false [] := ⟨fun x => by simp, fun x => by simp, by simp⟩

theorem after_fail (t : Nat) (s : St) : After t s (s.fail t) true false [] :=
  ⟨fun x => by rw [fail_failed]; simp, fun x => by simp [St.fail], by simp [St.fail]⟩

theorem fail_fail (s : St) (t : Nat) : (s.fail t).fail t = s.fail t := by
  simp only [St.fail]
  congr 1
  funext x
  by_cases h : x = t <;> simp [h]

/-- A check by an assertion that reports. -/
theorem judge_spec (m : Mode) (g t : Nat) (s : St) (hs : Has g t s.gls) (o : Outcome) (P : Prop)
    (h1 : P → o = .ret true false) (h2 : ¬P → o = .ret false true) :
    (P → judge m g s o = (s, .next)) ∧ (¬P → judge m g s o = (s.fail t, endOf m)) := by
  unfold judge
  rw [currentT_of_has hs]
  constructor
  · intro h; rw [h1 h]; rfl
  · intro h; rw [h2 h]; simp only [giveUp, if_true, fail_fail]; cases m <;> rfl

theorem kv_ok {kv : List (Option V)} (h : Pairs kv) : (kvLoop kv).2 = true := by
  induction h with
  | nil => rfl
  | cons key v r _ ih => simpa [kvLoop] using ih

/-- Only alternating keys and values get through the loop. -/
theorem kv_iff (kv : List (Option V)) : (kvLoop kv).2 = true ↔ Pairs kv := by
  refine ⟨?_, kv_ok⟩
  fun_induction kvLoop kv with
  | case1 => intro _; exact .nil
  | case2 key v r ih => intro h; exact .cons key v r (ih h)
  | case3 => intro h; exact nomatch h

theorem pass_spec (m : Mode) (g t : Nat) (s : St) (hs : Has g t s.gls) (b : Bool) (kv : List (Option V)) (hk : (kvLoop kv).2 = true) :
    (b = true → passWith m g s b kv = (s, .next)) ∧
    (¬b = true → passWith m g s b kv = (s.fail t, endOf m)) := by
  unfold passWith
  rw [currentT_of_has hs]
  constructor
  · rintro rfl; rfl
  · intro h
    rw [if_neg h]
    simp only [hk, if_true, giveUp]
    cases (kvLoop kv).1
    · cases m <;> rfl
    · simp only [if_true, fail_fail]; cases m <;> rfl

theorem nilValue_dec (x : Option V) : Assert.IsNilValue x ∨ ¬Assert.IsNilValue x := Classical.em _

/-- C99 (partly): a check that holds does nothing; one that does not makes the test fail, and in `must` ends it.  This is so for all fair
arguments, at any point of a test run by `Case`. -/
theorem check_partial (H : Assert.Heap) (g t : Nat) (m : Mode) (c : Act) (hc : IsCheck m c) (hf : c.Fair H g) (s : St) (hs : Has g t s.gls) :
    (Holds c → run g c s = (s, .next)) ∧
    (¬Holds c → run g c s = (s.fail t, endOf m)) := by
  cases c with
  | equal m' e a =>
    cases hc
    simp only [Act.Fair] at hf
    have h := Assert.equal_partial H e a hf.1 hf.2.1 hf.2.2.1 hf.2.2.2
    simp only [run, Holds]
    exact judge_spec _ g t s hs _ _ h.1 h.2
  | isNil m' x =>
    cases hc
    simp only [Act.Fair] at hf
    have h := Assert.nil_partial x hf
    simp only [run, Holds]
    exact judge_spec _ g t s hs _ _ (fun p => (h.1 p).1) (fun p => (h.2 p).1)
  | notNil m' x =>
    cases hc
    simp only [Act.Fair] at hf
    have h := Assert.nil_partial x hf
    simp only [run, Holds]
    refine judge_spec _ g t s hs _ _ (fun p => (h.2 p).2) (fun p => (h.1 (Classical.not_not.mp p)).2)
  | assert m' b kv =>
    cases hc
    simp only [Act.Fair] at hf
    cases m with
    | must => simp only [run, Holds]; exact pass_spec .must g t s hs b [] rfl
    | should => simp only [run, Holds]; exact pass_spec .should g t s hs b kv (kv_ok (hf rfl))
  | pass m' b kv =>
    cases hc
    simp only [Act.Fair] at hf
    simp only [run, Holds]
    exact pass_spec _ g t s hs b kv (kv_ok hf)
  | _ => exact hc.elim

theorem has_fail {g t t' : Nat} {s : St} (h : Has g t s.gls) : Has g t (s.fail t').gls := h

theorem after_trans {t : Nat} {s s' s'' : St} {f k f' k' : Bool} {tr tr' : List Event} (h : After t s s' f k tr)
    (h' : After t s' s'' f' k' tr') : After t s s'' (f || f') (k || k') (tr ++ tr') := by
  refine ⟨fun x => ?_, fun x => ?_, ?_⟩
  · rw [h'.failed, h.failed, Bool.or_eq_true]
    constructor
    · rintro ((a | ⟨a, b⟩) | ⟨a, b⟩)
      · exact Or.inl a
      · exact Or.inr ⟨a, Or.inl b⟩
      · exact Or.inr ⟨a, Or.inr b⟩
    · rintro (a | ⟨a, b | b⟩)
      · exact Or.inl (Or.inl a)
      · exact Or.inl (Or.inr ⟨a, b⟩)
      · exact Or.inr ⟨a, b⟩
  · rw [h'.skipped, h.skipped, Bool.or_eq_true]
    constructor
    · rintro ((a | ⟨a, b⟩) | ⟨a, b⟩)
      · exact Or.inl a
      · exact Or.inr ⟨a, Or.inl b⟩
      · exact Or.inr ⟨a, Or.inr b⟩
    · rintro (a | ⟨a, b | b⟩)
      · exact Or.inl (Or.inl a)
      · exact Or.inl (Or.inr ⟨a, b⟩)
      · exact Or.inr ⟨a, b⟩
  · rw [h'.trace, h.trace, List.append_assoc]

theorem after_event {t : Nat} {s s' : St} {f k : Bool} {tr : List Event} (h : After t s s' f k tr) (ev : Event) :
    After t s { s' with trace := s'.trace ++ [ev] } f k (tr ++ [ev]) :=
  ⟨h.failed, h.skipped, by simp [h.trace]⟩

theorem after_failed {t : Nat} {s s' : St} {f k : Bool} {tr : List Event} (h : After t s s' f k tr) :
    After t s (s'.fail t) true k tr := by
  have := after_trans h (after_fail t s')
  simpa using this

/-- What is kept of panics on the way out. -/
def EndFair : End → Prop
  | .panic v => NotUnsafe v
  | _ => True

theorem check_does (H : Assert.Heap) (g t : Nat) (m : Mode) (c : Act) (hc : IsCheck m c) (hf : c.Fair H g) (s : St) (hs : Has g t s.gls) :
    ∃ f k tr, Does c f k tr (run g c s).2 ∧ After t s (run g c s).1 f k tr ∧ Has g t (run g c s).1.gls ∧ EndFair (run g c s).2 := by
  have h := check_partial H g t m c hc hf s hs
  rcases Classical.em (Holds c) with hh | hh
  · rw [h.1 hh]
    exact ⟨false, false, [], .holds m c hc hh, after_same t s, hs, trivial⟩
  · rw [h.2 hh]
    cases m with
    | must => exact ⟨true, false, [], .must c hc hh, after_fail t s, hs, trivial⟩
    | should => exact ⟨true, false, [], .should c hc hh, after_fail t s, hs, trivial⟩

mutual

theorem run_does (H : Assert.Heap) (g t : Nat) : ∀ (a : Act) (s : St), a.Fair H g → Has g t s.gls →
    ∃ f k tr, Does a f k tr (run g a s).2 ∧ After t s (run g a s).1 f k tr ∧ Has g t (run g a s).1.gls ∧ EndFair (run g a s).2
  | .mark n, s, _, hs => ⟨false, false, [.mark n], .mark n, ⟨fun x => by simp [run], fun x => by simp [run], rfl⟩, hs, trivial⟩
  | .equal m e a, s, hf, hs => check_does H g t m (.equal m e a) rfl hf s hs
  | .isNil m x, s, hf, hs => check_does H g t m (.isNil m x) rfl hf s hs
  | .notNil m x, s, hf, hs => check_does H g t m (.notNil m x) rfl hf s hs
  | .assert m b kv, s, hf, hs => check_does H g t m (.assert m b kv) rfl hf s hs
  | .pass m b kv, s, hf, hs => check_does H g t m (.pass m b kv) rfl hf s hs
  | .raise v, s, hf, hs => ⟨false, false, [], .raise v, after_same t s, hs, hf⟩
  | .skip, s, _, hs => by
    refine ⟨false, true, [], ?_, ?_, ?_, ?_⟩
    · simp only [run, currentT_of_has hs]; exact .skip
    · simp only [run, currentT_of_has hs]
      refine ⟨fun x => by simp, fun x => ?_, by simp⟩
      by_cases h : x = t <;> simp [h]
    · simp only [run, currentT_of_has hs]; exact hs
    · simp only [run, currentT_of_has hs]; trivial
  | .set k v, s, _, hs =>
    ⟨false, false, [], .set k v, ⟨fun x => by simp [run], fun x => by simp [run], by simp [run]⟩,
      has_set id g t g (.user k) (.user v) (fun h => (nomatch h)) s.gls hs, trivial⟩
  | .others f ops, s, hf, hs =>
    ⟨false, false, [], .others f ops, ⟨fun x => by simp [run], fun x => by simp [run], by simp [run]⟩,
      has_run (copyVal f) g t ops hf s.gls hs, trivial⟩
  | .case t body, s, hf, _ => hf.elim
  | .panic m body, s, hf, hs => by
    obtain ⟨f, k, tr, hd, ha, hh, he⟩ := runs_does H g t body s hf hs
    simp only [run, currentT_of_has hs]
    revert hd ha hh he
    generalize (runs g body s).1 = s'
    generalize (runs g body s).2 = e
    intro hd ha hh he
    cases e with
    | next =>
      cases m with
      | must =>
        exact ⟨true, k, tr, .mustMissed body f k tr .next hd (fun v h => (nomatch h)), by
          simpa [afterPanic, Assert.assertNotNil, Assert.isNil, Assert.fail, giveUp, fail_fail] using after_failed ha, hh, trivial⟩
      | should =>
        exact ⟨true, k, tr ++ [.recovered none], .shouldMissed body f k tr hd, by
          have := after_event (after_failed ha) (.recovered none)
          simpa [afterPanic, Assert.assertNotNil, Assert.isNil, Assert.fail, giveUp, fail_fail] using this, hh, trivial⟩
    | exit =>
      cases m with
      | must =>
        exact ⟨true, k, tr, .mustMissed body f k tr .exit hd (fun v h => (nomatch h)), by
          simpa [afterPanic, Assert.assertNotNil, Assert.isNil, Assert.fail, giveUp, fail_fail] using after_failed ha, hh, trivial⟩
      | should =>
        exact ⟨true, k, tr, .shouldExit body f k tr hd, by
          simpa [afterPanic, Assert.assertNotNil, Assert.isNil, Assert.fail, giveUp, fail_fail] using after_failed ha, hh, trivial⟩
    | panic v =>
      have hn := Assert.nil_partial v he
      rcases Classical.em (Assert.IsNilValue v) with hv | hv
      · have h2 := (hn.1 hv).2
        cases m with
        | must =>
          refine ⟨true, k, tr, ?_, ?_, ?_, ?_⟩
          · simp only [afterPanic, h2, giveUp]
            exact .mustMissed body f k tr (.panic v) hd (fun w h => by cases h; exact hv)
          · simp only [afterPanic, h2, giveUp, if_true, fail_fail]
            exact after_failed ha
          · simp only [afterPanic, h2, giveUp]; exact hh
          · simp only [afterPanic, h2, giveUp]; trivial
        | should =>
          refine ⟨true, k, tr ++ [.recovered v], ?_, ?_, ?_, ?_⟩
          · simp only [afterPanic, h2, giveUp]
            exact .shouldNil body f k tr v hd hv
          · simp only [afterPanic, h2, giveUp, if_true, fail_fail]
            exact after_event (after_failed ha) _
          · simp only [afterPanic, h2, giveUp]; exact hh
          · simp only [afterPanic, h2, giveUp]; trivial
      · have h2 := (hn.2 hv).2
        refine ⟨f, k, tr ++ [.recovered v], ?_, ?_, ?_, ?_⟩
        · simp only [afterPanic, h2]
          exact .caught m body f k tr v hd hv
        · simp only [afterPanic, h2]
          exact after_event ha _
        · simp only [afterPanic, h2]; exact hh
        · simp only [afterPanic, h2]; trivial

theorem runs_does (H : Assert.Heap) (g t : Nat) : ∀ (a : Acts) (s : St), a.Fair H g → Has g t s.gls →
    ∃ f k tr, DoesAll a f k tr (runs g a s).2 ∧ After t s (runs g a s).1 f k tr ∧ Has g t (runs g a s).1.gls ∧ EndFair (runs g a s).2
  | .nil, s, _, hs => ⟨false, false, [], .nil, after_same t s, hs, trivial⟩
  | .cons a r, s, hf, hs => by
    obtain ⟨f, k, tr, hd, ha, hh, he⟩ := run_does H g t a s hf.1 hs
    have hr := runs_does H g t r (run g a s).1 hf.2 hh
    simp only [runs]
    revert hd ha hh he hr
    generalize run g a s = p
    obtain ⟨s', e⟩ := p
    intro hd ha hh he hr
    cases e with
    | next =>
      obtain ⟨f', k', tr', hd', ha', hh', he'⟩ := hr
      exact ⟨f || f', k || k', tr ++ tr', .go a r f k f' k' tr tr' _ hd hd', after_trans ha ha', hh', he'⟩
    | exit => exact ⟨f, k, tr, .stop a r f k tr _ hd (fun h => (nomatch h)), ha, hh, he⟩
    | panic v => exact ⟨f, k, tr, .stop a r f k tr _ hd (fun h => (nomatch h)), ha, hh, he⟩

end

/-- C99 and C100 (partly): a test run by `Case` fails, is skipped, is seen doing things and ends just as its actions mean: checks that hold
do nothing, failing ones of `should` let it go on and those of `must` end it; `Panic` returns what its function panicked with, and fails if there
was no such value.  Other tests are not touched, and afterwards the goroutine has no storage.  Missing: tests that are not fair. -/
theorem case_partial (H : Assert.Heap) (g t : Nat) (body : Acts) (hf : body.Fair H g) (s : St) :
    ∃ f k tr, DoesAll body f k tr (runCase g t body s).2 ∧ After t s (runCase g t body s).1 f k tr ∧
      Gls.isGlsEnabled (runCase g t body s).1.gls g = false := by
  obtain ⟨f, k, tr, hd, ha, _, _⟩ := runs_does H g t body
    { s with gls := Gls.step id s.gls (.reset g (fun k => if k = .t then some (.t t) else none)) } hf (has_reset g t s.gls)
  refine ⟨f, k, tr, hd, ⟨ha.failed, ha.skipped, ha.trace⟩, ?_⟩
  simp only [runCase, run, Gls.isGlsEnabled, Gls.step, Gls.getGls_put, if_true]
  rfl

/-! ### What the meaning says -/

theorem check_alone {m : Mode} {c : Act} (hc : IsCheck m c) {f k : Bool} {tr : List Event} {e : End} (h : Does c f k tr e) :
    k = false ∧ tr = [] ∧ (Holds c → f = false ∧ e = .next) ∧ (¬Holds c → f = true ∧ e = endOf m) := by
  cases h with
  | holds m' _ _ hh => exact ⟨rfl, rfl, fun _ => ⟨rfl, rfl⟩, fun hn => absurd hh hn⟩
  | must _ hc' hh =>
    have : m = .must := by cases c <;> first | exact hc.elim | exact hc.symm.trans hc'
    subst this
    exact ⟨rfl, rfl, fun h => absurd h hh, fun _ => ⟨rfl, rfl⟩⟩
  | should _ hc' hh =>
    have : m = .should := by cases c <;> first | exact hc.elim | exact hc.symm.trans hc'
    subst this
    exact ⟨rfl, rfl, fun h => absurd h hh, fun _ => ⟨rfl, rfl⟩⟩
  | _ => exact hc.elim

/-- Concatenation of actions. -/
def Acts.ofList : List Act → Acts
  | [] => .nil
  | a :: r => .cons a (Acts.ofList r)

/-- A test that consists of statements and checks: `(none, n)` is statement `n`. -/
inductive Item where
  | statement (n : Nat)
  | check (m : Mode) (c : Act)

/-- The action of an item. -/
def Item.act : Item → Act
  | .statement n => .mark n
  | .check _ c => c

/-- Checks are checks. -/
def Item.Ok : Item → Prop
  | .statement _ => True
  | .check m c => IsCheck m c

/-- A check of `must` that does not hold. -/
def Item.Ends : Item → Prop
  | .statement _ => False
  | .check m c => m = .must ∧ ¬Holds c

/-- A check that does not hold. -/
def Item.Fails : Item → Prop
  | .statement _ => False
  | .check _ c => ¬Holds c

/-- What is seen of an item. -/
def Item.seen : Item → List Event
  | .statement n => [.mark n]
  | .check _ _ => []

theorem flat {items : List Item} (hi : ∀ i ∈ items, i.Ok) {f k : Bool} {tr : List Event} {e : End}
    (h : DoesAll (Acts.ofList (items.map Item.act)) f k tr e) :
    k = false ∧ ∃ done rest, items = done ++ rest ∧ tr = done.flatMap Item.seen ∧ (f = true ↔ ∃ i ∈ done, i.Fails) ∧
      ((e = .next ∧ rest = [] ∧ ∀ i ∈ done, ¬i.Ends) ∨
       (e = .exit ∧ ∃ l last, done = l ++ [last] ∧ last.Ends ∧ ∀ i ∈ l, ¬i.Ends)) := by
  induction items generalizing f k tr e with
  | nil =>
    cases h
    exact ⟨rfl, [], [], rfl, rfl, by simp, Or.inl ⟨rfl, rfl, by simp⟩⟩
  | cons i r ih =>
    have hok := hi i (List.mem_cons_self ..)
    have hr : ∀ j ∈ r, j.Ok := fun j hj => hi j (List.mem_cons_of_mem _ hj)
    simp only [List.map_cons, Acts.ofList] at h
    cases i with
    | statement n =>
      cases h with
      | stop _ _ _ _ _ _ hd hne =>
        cases hd with
        | mark => exact absurd rfl hne
        | holds _ _ hc => exact hc.elim
        | must _ hc => exact hc.elim
        | should _ hc => exact hc.elim
      | go _ _ f1 k1 f2 k2 tr1 tr2 _ hd ht =>
        obtain ⟨hk, done, rest, h1, h2, h3, h4⟩ := ih hr ht
        have hd' : f1 = false ∧ k1 = false ∧ tr1 = [.mark n] := by
          cases hd with
          | mark => exact ⟨rfl, rfl, rfl⟩
          | holds _ _ hc => exact hc.elim
          | should _ hc => exact hc.elim
        obtain ⟨rfl, rfl, rfl⟩ := hd'
        refine ⟨by simp [hk], .statement n :: done, rest, by rw [h1]; rfl, by rw [h2]; rfl, ?_, ?_⟩
        · simp [h3, Item.Fails]
        · rcases h4 with ⟨a, b, c⟩ | ⟨a, l, last, b, c, d⟩
          · refine Or.inl ⟨a, b, fun j hj => ?_⟩
            rcases List.mem_cons.mp hj with rfl | hj
            · exact fun h => h
            · exact c j hj
          · refine Or.inr ⟨a, .statement n :: l, last, by rw [b]; rfl, c, fun j hj => ?_⟩
            rcases List.mem_cons.mp hj with rfl | hj
            · exact fun h => h
            · exact d j hj
    | check m c =>
      cases h with
      | stop _ _ _ _ _ _ hd hne =>
        obtain ⟨rfl, rfl, h1, h2⟩ := check_alone hok hd
        rcases Classical.em (Holds c) with hh | hh
        · exact absurd (h1 hh).2 hne
        · obtain ⟨rfl, he⟩ := h2 hh
          cases m with
          | should => exact absurd he hne
          | must =>
            subst he
            exact ⟨rfl, [.check .must c], r, rfl, rfl, by simp [Item.Fails, hh],
              Or.inr ⟨rfl, [], .check .must c, rfl, ⟨rfl, hh⟩, by simp⟩⟩
      | go _ _ f1 k1 f2 k2 tr1 tr2 _ hd ht =>
        obtain ⟨hk, done, rest, h1, h2, h3, h4⟩ := ih hr ht
        obtain ⟨rfl, rfl, h5, h6⟩ := check_alone hok hd
        have hend : ¬(Item.check m c).Ends := by
          rintro ⟨rfl, hh⟩
          exact nomatch (h6 hh).2
        have hfail : f1 = true ↔ (Item.check m c).Fails := by
          rcases Classical.em (Holds c) with hh | hh
          · rw [(h5 hh).1]; simp [Item.Fails, hh]
          · rw [(h6 hh).1]; simp [Item.Fails, hh]
        refine ⟨by simp [hk], .check m c :: done, rest, by rw [h1]; rfl, by rw [h2]; rfl, ?_, ?_⟩
        · simp only [Bool.or_eq_true, h3, hfail, List.mem_cons, exists_eq_or_imp]
        · rcases h4 with ⟨a, b, d⟩ | ⟨a, l, last, b, d, d'⟩
          · refine Or.inl ⟨a, b, fun j hj => ?_⟩
            rcases List.mem_cons.mp hj with rfl | hj
            · exact hend
            · exact d j hj
          · refine Or.inr ⟨a, .check m c :: l, last, by rw [b]; rfl, d, fun j hj => ?_⟩
            rcases List.mem_cons.mp hj with rfl | hj
            · exact hend
            · exact d' j hj

theorem fair_ofList (H : Assert.Heap) (g : Nat) (l : List Act) (h : ∀ a ∈ l, a.Fair H g) : (Acts.ofList l).Fair H g := by
  induction l with
  | nil => trivial
  | cons a r ih => exact ⟨h a (List.mem_cons_self ..), ih (fun b hb => h b (List.mem_cons_of_mem _ hb))⟩

/-- C99 (partly): a test of statements and checks performs them in order up to and including the first check of `must` that does not hold, and
nothing after it; it is then ended by it, and else goes on to its end.  It has failed exactly if one of the checks performed does not hold. -/
theorem must_ends_should_goes_on_partial (H : Assert.Heap) (g t : Nat) (items : List Item) (hi : ∀ i ∈ items, i.Ok)
    (hf : ∀ i ∈ items, i.act.Fair H g) (s : St) (h0 : s.failed t = false) :
    ∃ done rest, items = done ++ rest ∧
      (runCase g t (Acts.ofList (items.map Item.act)) s).1.trace = s.trace ++ done.flatMap Item.seen ∧
      ((runCase g t (Acts.ofList (items.map Item.act)) s).1.failed t = true ↔ ∃ i ∈ done, i.Fails) ∧
      (((runCase g t (Acts.ofList (items.map Item.act)) s).2 = .next ∧ rest = [] ∧ ∀ i ∈ done, ¬i.Ends) ∨
       ((runCase g t (Acts.ofList (items.map Item.act)) s).2 = .exit ∧ ∃ l last, done = l ++ [last] ∧ last.Ends ∧ ∀ i ∈ l, ¬i.Ends)) := by
  obtain ⟨f, k, tr, hd, ha, _⟩ := case_partial H g t (Acts.ofList (items.map Item.act)) (fair_ofList H g _ (fun a h => by
    obtain ⟨i, hi, rfl⟩ := List.mem_map.mp h
    exact hf i hi)) s
  obtain ⟨_, done, rest, h1, h2, h3, h4⟩ := flat hi hd
  refine ⟨done, rest, h1, by rw [ha.trace, h2], ?_, h4⟩
  rw [ha.failed, h0, ← h3]
  simp

/-! ### `Panic` -/

/-- C100 (partly): `Panic` of a function that panics with a value that is not nil goes on and returns that value, without a failure of its own;
of any other function it fails the test, and in `must` ends it. -/
theorem panic_partial (H : Assert.Heap) (g t : Nat) (m : Mode) (body : Acts) (hf : body.Fair H g) (s : St) (hs : Has g t s.gls) :
    (∀ v, (runs g body s).2 = .panic v → ¬Assert.IsNilValue v →
      run g (.panic m body) s = ({ (runs g body s).1 with trace := (runs g body s).1.trace ++ [.recovered v] }, .next)) ∧
    ((∀ v, (runs g body s).2 = .panic v → Assert.IsNilValue v) →
      (run g (.panic m body) s).1.failed t = true ∧ (m = .must → (run g (.panic m body) s).2 = .exit)) := by
  obtain ⟨_, _, _, _, _, _, he⟩ := runs_does H g t body s hf hs
  simp only [run, currentT_of_has hs]
  revert he
  generalize (runs g body s).1 = s'
  generalize (runs g body s).2 = e
  intro he
  constructor
  · rintro v rfl hv
    simp only [afterPanic, ((Assert.nil_partial v he).2 hv).2]
  · intro hv
    have hft : (s'.fail t).failed t = true := (fail_failed s' t t).mpr (Or.inr rfl)
    cases e with
    | panic v =>
      have hn := ((Assert.nil_partial v he).1 (hv v rfl)).2
      cases m <;> simp [afterPanic, hn, giveUp, fail_fail, hft]
    | next => cases m <;> simp [afterPanic, Assert.assertNotNil, Assert.isNil, Assert.fail, giveUp, fail_fail, hft]
    | exit => cases m <;> simp [afterPanic, Assert.assertNotNil, Assert.isNil, Assert.fail, giveUp, fail_fail, hft]

/-! ### Where the properties fail -/

/-- Nothing has happened. -/
def fresh : St := { gls := Gls.start, failed := fun _ => false, skipped := fun _ => false, trace := [] }

/-- The number 1. -/
def one : Option V := some (.int .int 0 1)

/-- The number 2. -/
def two : Option V := some (.int .int 0 2)

theorem lone_currentT (f : Nat → Nat) (ops : List (Gls.Op Key Val)) (g : Nat) (ho : ∀ x ∈ ops, Gls.about x ≠ some g) (s : St)
    (hs : s.gls = Gls.run (copyVal f) Gls.start ops) : currentT s g = none := by
  have h := Gls.gone_after (copyVal f) [] ops g ho
  have h2 : Gls.run (copyVal f) Gls.start ([] ++ Gls.Op.leave g :: ops) = Gls.run (copyVal f) Gls.start ops := by
    simp only [List.nil_append, Gls.run, List.foldl_cons]
    congr 1
    simp only [Gls.step, Gls.start]
    congr 1
    funext i h
    simp only [Gls.put]
    split <;> rfl
  rw [h2] at h
  unfold currentT Gls.get
  rw [hs]
  unfold Gls.isGlsEnabled at h
  cases hg : Gls.getGls (Gls.run (copyVal f) Gls.start ops) g with
  | none => rfl
  | some r => rw [hg] at h; exact nomatch h

/-- C98 is false on goroutines that a test starts with a plain `go` statement: whatever happens elsewhere, all checks there except `Assert` and
`Pass` panic, whether or not they hold. -/
theorem plain_goroutine_panics (f : Nat → Nat) (ops : List (Gls.Op Key Val)) (g : Nat) (ho : ∀ x ∈ ops, Gls.about x ≠ some g) (s : St)
    (hs : s.gls = Gls.run (copyVal f) Gls.start ops) (m : Mode) (x y : Option V) (body : Acts) :
    run g (.equal m x y) s = (s, .panic (some (.str 0 (asc "test not started with check.Case()")))) ∧ run g (.isNil m x) s = (s, .panic (some (.str 0 (asc "test not started with check.Case()")))) ∧
    run g (.notNil m x) s = (s, .panic (some (.str 0 (asc "test not started with check.Case()")))) ∧ run g (.panic m body) s = (s, .panic (some (.str 0 (asc "test not started with check.Case()")))) ∧
    run g .skip s = (s, .panic (some (.str 0 (asc "test not started with check.Case()")))) ∧ ∀ kv, run g (.pass m true kv) s = (s, .next) ∧ run g (.pass m false kv) s = (s, .panic (some (.str 0 (asc "test not started with check.Case()")))) := by
  have h := lone_currentT f ops g ho s hs
  refine ⟨?_, ?_, ?_, ?_, ?_, fun kv => ⟨?_, ?_⟩⟩ <;> simp [run, judge, passWith, h, notStarted]

/-- Test 7 runs on goroutine 1 and uses its storage, and a check on goroutine 2 panics. -/
example (s : St) (hs : s.gls = Gls.run (copyVal id) Gls.start [.reset 1 (fun k => if k = .t then some (.t 7) else none), .set 1 (.user 3) (.user 4)]) :
    run 2 (.equal .should one one) s = (s, .panic notStarted) :=
  (plain_goroutine_panics id _ 2 (by decide) s hs .should one one .nil).1

/-- ... though goroutine 1 has its `T`. -/
example (s : St) (hs : s.gls = Gls.run (copyVal id) Gls.start ([] ++ .reset 1 (fun k => if k = .t then some (.t 7) else none) :: [.reset 2 (fun _ => none), .set 2 (.user 3) (.user 4), .delete 2])) :
    currentT s 1 = some 7 := by
  refine currentT_partial id [] _ 1 7 ?_ s hs
  intro x hx
  simp only [List.mem_cons, List.not_mem_nil, or_false] at hx
  rcases hx with rfl | rfl | rfl <;> exact ⟨by decide, fun h v e => (nomatch e)⟩

/-- C98 is false after a case inside a case: the outer one has lost its `T`, and its next check panics though it holds. -/
theorem inner_case_loses_t : ∃ v, (runCase 1 7 (Acts.ofList [.case 8 (Acts.ofList [.equal .must one one]), .mark 1, .equal .must one one, .mark 2]) fresh).2 = .panic v ∧
    (runCase 1 7 (Acts.ofList [.case 8 (Acts.ofList [.equal .must one one]), .mark 1, .equal .must one one, .mark 2]) fresh).1.trace = [.mark 1] :=
  ⟨notStarted, rfl, rfl⟩

/-- C99 is false of a check with a key but no value, or a key that is not a string: it panics instead of reporting, and the test is not marked
as failed; `Assert` of `must` does not even look at them. -/
theorem odd_pairs (g t : Nat) (s : St) (hs : Has g t s.gls) (m : Mode) (key : Bytes) :
    run g (.pass m false [some (.str 0 key)]) s = (s, .panic runtimeError) ∧
    run g (.pass m false [one, two]) s = (s, .panic runtimeError) ∧
    run g (.assert .should false [some (.str 0 key)]) s = (s, .panic runtimeError) ∧
    ∀ kv, run g (.assert .must false kv) s = (s.fail t, .exit) := by
  have h := currentT_of_has hs
  refine ⟨?_, ?_, ?_, fun kv => ?_⟩ <;> simp [run, passWith, h, kvLoop, one, two, giveUp]

/-- C99: so does every other list that is not one of keys with values, wherever in it the fault is. -/
theorem no_pairs_panics (g t : Nat) (s : St) (hs : Has g t s.gls) (m : Mode) (kv : List (Option V)) (hk : ¬Pairs kv) :
    (run g (.pass m false kv) s).2 = .panic runtimeError ∧ (run g (.assert .should false kv) s).2 = .panic runtimeError := by
  have h : (kvLoop kv).2 = false := by
    cases h : (kvLoop kv).2 with
    | false => rfl
    | true => exact absurd ((kv_iff kv).mp h) hk
  constructor <;> simp [run, passWith, currentT_of_has hs, h]

/-- A value is missing at the end. -/
example : ¬Pairs [some (.str 0 (asc "a")), one, some (.str 0 (asc "b"))] := by
  intro h
  cases h with
  | cons _ _ _ h => cases h

/-- C100 is false of functions that panic with a nil pointer: the test fails as if there were no panic. -/
theorem panic_with_nil (g t : Nat) (s : St) (hs : Has g t s.gls) (i : Nat) (v : V) :
    runs g (Acts.ofList [.raise (some (.ptr i 0 v))]) s = (s, .panic (some (.ptr i 0 v))) ∧
    run g (.panic .must (Acts.ofList [.raise (some (.ptr i 0 v))])) s = (s.fail t, .exit) := by
  refine ⟨rfl, ?_⟩
  simp [run, Acts.ofList, runs, currentT_of_has hs, afterPanic, Assert.assertNotNil, Assert.isNil, Assert.fail, giveUp, fail_fail]

/-- Checks of `should`, then one of `must` that fails: statement 3 is not reached. -/
example : (runCase 1 7 (Acts.ofList [.mark 1, .equal .should one two, .mark 2, .pass .must false [some (.str 0 (asc "key")), one], .mark 3]) fresh).1.trace =
      [.mark 1, .mark 2] ∧
    (runCase 1 7 (Acts.ofList [.mark 1, .equal .should one two, .mark 2, .pass .must false [some (.str 0 (asc "key")), one], .mark 3]) fresh).1.failed 7 = true ∧
    (runCase 1 7 (Acts.ofList [.mark 1, .equal .should one two, .mark 2, .pass .must false [some (.str 0 (asc "key")), one], .mark 3]) fresh).2 = .exit :=
  ⟨rfl, rfl, rfl⟩

/-- Its checks are fair, and one of each kind fails. -/
example (H : Assert.Heap) : (∀ i ∈ [Item.statement 1, .check .should (.equal .should one two), .statement 2, .check .must (.pass .must false [some (.str 0 (asc "key")), one]), .statement 3],
    i.Ok ∧ i.act.Fair H 1) ∧ (Item.check .should (.equal .should one two)).Fails ∧ (Item.check .must (.pass .must false [some (.str 0 (asc "key")), one])).Ends := by
  refine ⟨?_, ?_, ?_⟩
  · intro i hi
    simp only [List.mem_cons, List.not_mem_nil, or_false] at hi
    rcases hi with rfl | rfl | rfl | rfl | rfl
    · exact ⟨trivial, trivial⟩
    · exact ⟨rfl, trivial, trivial, trivial, trivial⟩
    · exact ⟨trivial, trivial⟩
    · exact ⟨rfl, .cons _ _ _ .nil⟩
    · exact ⟨trivial, trivial⟩
  · intro h
    simp only [Holds, one, two, Assert.SameArg] at h
    cases h
  · exact ⟨rfl, fun h => (nomatch h)⟩

/-- `Panic` returns 2, the check inside has failed the test, and the test goes on. -/
example : (runCase 1 7 (Acts.ofList [.panic .must (Acts.ofList [.equal .should one two, .raise two, .mark 1]), .mark 2]) fresh).1.trace = [.recovered two, .mark 2] ∧
    (runCase 1 7 (Acts.ofList [.panic .must (Acts.ofList [.equal .should one two, .raise two, .mark 1]), .mark 2]) fresh).1.failed 7 = true ∧
    (runCase 1 7 (Acts.ofList [.panic .must (Acts.ofList [.equal .should one two, .raise two, .mark 1]), .mark 2]) fresh).1.failed 8 = false ∧
    ¬Assert.IsNilValue two :=
  ⟨rfl, rfl, rfl, fun h => h⟩

/-- A goroutine of test 7 started with `gls.WithGls` finds its `T`. -/
example (s s' : St) (hs : s.gls = Gls.run (copyVal id) Gls.start [.reset 1 (fun k => if k = .t then some (.t 7) else none)])
    (hs' : s'.gls = Gls.run (copyVal id) Gls.start ([.reset 1 (fun k => if k = .t then some (.t 7) else none)] ++ .wrap 1 :: [.set 1 (.user 3) (.user 4)] ++ .enter 2 0 :: [.delete 1])) :
    currentT s' 2 = some 7 :=
  child_currentT_partial id _ _ [.delete 1] 1 2 7 (by decide) (by decide) s s' hs
    (currentT_partial id [] [] 1 7 (fun x hx => (nomatch hx)) s hs) hs'

end Verif.Check
