import Verif.Assert.Collections
import Verif.Jsonfmt.DecimalSpec

/-!
# C129: `True`, `False`, `Condition`, `IsType`, `Implements`, `Regexp`, `NotRegexp` and `FailNow`

Model of the assertions of test/testify/assert/assertions.go that are about one fact only.
-/

namespace Verif.Simple

open Verif.Assert

/-! ### Model -/

/-- `True`, assertions.go 498-506. -/
def assertTrue (msgOk value : Bool) : Outcome := if value ≠ true then fail msgOk else .ret true false

/-- `False`, assertions.go 511-519. -/
def assertFalse (msgOk value : Bool) : Outcome := if value ≠ false then fail msgOk else .ret true false

/-- What follows `Fail` where its result is not returned, assertions.go 757-761, 1094-1100 and 1108-1114: the assertion returns `result`. -/
def failAnd (msgOk result : Bool) : Outcome :=
  match fail msgOk with
  | .ret _ f => .ret result f
  | .panic => .panic

/-- `Condition`, assertions.go 756-762; `none` is a comparison that panics. -/
def condition (msgOk : Bool) (comp : Option Bool) : Outcome :=
  match comp with
  | none => .panic
  | some result => if !result then failAnd msgOk result else .ret result false

/-- A type, as `reflect.TypeOf` gives it, assertions.go 275 and 290: a number for a type that is neither a pointer nor an interface. -/
inductive Ty
  | plain (id : Nat)
  | iface (id : Nat)
  | ptr (t : Ty)
  deriving DecidableEq

/-- `IsType`, assertions.go 288-295, for the dynamic types of its arguments, `none` for nil.  `ObjectsAreEqual`, 39-55, compares the
descriptors of the types. -/
def isType (msgOk : Bool) (expectedType object : Option Ty) : Outcome := if object ≠ expectedType then fail msgOk else .ret true false

/-- `Type.Elem`, assertions.go 275: it panics for nil and for types without elements.  Simplified: other types with elements are left out. -/
def elem : Option Ty → Option Ty
  | some (.ptr t) => some t
  | _ => none

/-- `Implements`, assertions.go 274-285, for the dynamic types of its arguments; `impl` is `Type.Implements`, which panics unless it is
asked about an interface. -/
def implements (impl : Ty → Nat → Bool) (msgOk : Bool) (interfaceObject object : Option Ty) : Outcome :=
  match elem interfaceObject with
  | none => .panic
  | some it =>
    match object with
    | none => fail msgOk
    | some t =>
      match it with
      | .iface i => if !impl t i then fail msgOk else .ret true false
      | _ => .panic

/-- An argument of `Regexp`, assertions.go 1075: a compiled pattern, a text, bytes, or another value by what `fmt.Sprint` gives. -/
inductive Arg (R : Type)
  | compiled (r : R)
  | text (s : Bytes)
  | bytes (b : Bytes)
  | other (printed : Bytes)

/-- Decimal digits of a byte, for `fmt.Sprint`, assertions.go 1081 and 1084. -/
def digits (n : Nat) : Bytes := if n < 10 then [48 + n.toUInt8] else if n < 100 then [48 + (n / 10).toUInt8, 48 + (n % 10).toUInt8] else
  [48 + (n / 100).toUInt8, 48 + (n / 10 % 10).toUInt8, 48 + (n % 10).toUInt8]

/-- `fmt.Sprint`, assertions.go 1081 and 1084: bytes are printed as numbers.  `shown` is how a compiled pattern is printed. -/
def sprint {R : Type} (shown : R → Bytes) : Arg R → Bytes
  | .compiled r => shown r
  | .text s => s
  | .bytes b => [91] ++ ([32] : Bytes).intercalate (b.map fun c => digits c.toNat) ++ [93]
  | .other p => p

/-- What package regexp is to assertions.go 1081 and 1084: compiling a pattern, `none` being its panic, finding one in a text, and printing it. -/
structure Engine (R : Type) where
  compile : Bytes → Option R
  find : R → Bytes → Bool
  shown : R → Bytes

/-- `matchRegexp`, assertions.go 1075-1086; `none` is a panic of `MustCompile`. -/
def matchRegexp {R : Type} (E : Engine R) (rx str : Arg R) : Option Bool :=
  match (match rx with | .compiled r => some r | _ => E.compile (sprint E.shown rx)) with
  | none => none
  | some r => some (E.find r (sprint E.shown str))

/-- `Regexp`, assertions.go 1092-1101. -/
def regexp {R : Type} (E : Engine R) (msgOk : Bool) (rx str : Arg R) : Outcome :=
  match matchRegexp E rx str with
  | none => .panic
  | some m => if !m then failAnd msgOk m else .ret m false

/-- `NotRegexp`, assertions.go 1107-1116. -/
def notRegexp {R : Type} (E : Engine R) (msgOk : Bool) (rx str : Arg R) : Outcome :=
  match matchRegexp E rx str with
  | none => .panic
  | some m => if m then failAnd msgOk (!m) else .ret (!m) false

/-- How `FailNow` ends, assertions.go 210-225: the goroutine of the test is ended by `t.FailNow`, or it panics. -/
inductive End
  | stopped (reported : Bool)
  | panicked (reported : Bool)
  deriving DecidableEq

/-- `FailNow`, assertions.go 210-225; `canStop`: `t` has a method FailNow. -/
def failNow (msgOk canStop : Bool) : End :=
  match fail msgOk with
  | .panic => .panicked false
  | .ret _ reported => if canStop then .stopped reported else .panicked reported

/-! ### Specification -/

/-- An assertion that decides `P`: it returns true, silently, exactly if `P`, and otherwise returns false after reporting a failure. -/
def Decides (o : Outcome) (P : Prop) : Prop := (P → o = .ret true false) ∧ (¬ P → o = .ret false true)

/-! ### Proofs -/

/-- C129: `True`, `False` and `Condition` decide their argument, unless the comparison panics. -/
theorem decides_bool (b : Bool) : Decides (assertTrue true b) (b = true) ∧ Decides (assertFalse true b) (b = false) ∧
    Decides (condition true (some b)) (b = true) := by
  cases b <;> exact ⟨⟨by decide, by decide⟩, ⟨by decide, by decide⟩, ⟨by decide, by decide⟩⟩

/-- C129: `IsType` decides whether both arguments have one type, where nil has none. -/
theorem decides_isType (e o : Option Ty) : Decides (isType true e o) (o = e) := by
  unfold isType
  refine ⟨fun h => by rw [if_neg (by simp [h])], fun h => by rw [if_pos h]; rfl⟩

/-- C129, part: given a pointer to an interface, `Implements` decides whether the type of the object implements it; nil does not.  Missing:
other first arguments, see `implements_panics`. -/
theorem implements_partial (impl : Ty → Nat → Bool) (i : Nat) (o : Option Ty) :
    Decides (implements impl true (some (.ptr (.iface i))) o) (∃ t, o = some t ∧ impl t i = true) := by
  cases o with
  | none =>
    refine ⟨?_, fun _ => rfl⟩
    rintro ⟨t, h, _⟩
    cases h
  | some t =>
    cases h : impl t i with
    | true =>
      refine ⟨fun _ => by simp [implements, elem, h], fun hn => absurd ⟨t, rfl, h⟩ hn⟩
    | false =>
      refine ⟨?_, fun _ => by simp [implements, elem, h, fail]⟩
      rintro ⟨t', ht, h'⟩
      cases ht
      rw [h] at h'; cases h'

/-- C129 fails: `Implements` panics for nil, for what is not a pointer, and for an object that is not nil and a pointer to what is no
interface. -/
theorem implements_panics (impl : Ty → Nat → Bool) (n : Nat) (o : Option Ty) (t : Ty) :
    implements impl true none o = .panic ∧ implements impl true (some (.plain n)) o = .panic ∧
    implements impl true (some (.ptr (.plain n))) (some t) = .panic := ⟨rfl, rfl, rfl⟩

/-- The pattern that an argument is. -/
inductive PatternOf {R : Type} (E : Engine R) : Arg R → R → Prop
  | compiled (r : R) : PatternOf E (.compiled r) r
  | text (s : Bytes) (r : R) (h : E.compile s = some r) : PatternOf E (.text s) r

/-- C129, part: for a pattern, compiled or as text, and a text, `Regexp` decides whether the pattern is found, `NotRegexp` whether it is not.
Missing: texts that are no patterns (`regexp_panics`), and arguments that are bytes (`bytes_not_text`). -/
theorem regexp_partial {R : Type} (E : Engine R) (rx : Arg R) (r : R) (s : Bytes) (h : PatternOf E rx r) :
    Decides (regexp E true rx (.text s)) (E.find r s = true) ∧ Decides (notRegexp E true rx (.text s)) (E.find r s = false) := by
  have hm : matchRegexp E rx (.text s) = some (E.find r s) := by
    cases h with
    | compiled => rfl
    | text p _ hp => simp only [matchRegexp, sprint, hp]
  unfold regexp notRegexp
  rw [hm]
  cases E.find r s <;> exact ⟨⟨by simp [failAnd, fail], by simp [failAnd, fail]⟩, ⟨by simp [failAnd, fail], by simp [failAnd, fail]⟩⟩

/-- C129: exactly one of `Regexp` and `NotRegexp` passes, for all arguments with which neither panics. -/
theorem regexp_or_not {R : Type} (E : Engine R) (rx str : Arg R) (h : regexp E true rx str ≠ .panic) :
    (regexp E true rx str = .ret true false ∧ notRegexp E true rx str = .ret false true) ∨
    (regexp E true rx str = .ret false true ∧ notRegexp E true rx str = .ret true false) := by
  unfold regexp notRegexp at *
  cases hm : matchRegexp E rx str with
  | none => rw [hm] at h; exact absurd rfl h
  | some m => cases m <;> simp [failAnd, fail]

/-- C129 fails: a text that is no pattern panics instead of failing. -/
theorem regexp_panics {R : Type} (E : Engine R) (p : Bytes) (str : Arg R) (h : E.compile p = none) :
    regexp E true (.text p) str = .panic ∧ notRegexp E true (.text p) str = .panic := by
  simp [regexp, notRegexp, matchRegexp, sprint, h]

/-- Each byte is printed as its number, in decimal. -/
theorem bytes_numbers (c : UInt8) : Verif.Spec.CanonicalDecimal (digits c.toNat) c.toNat := by
  have h : ∀ n : Fin 256, Verif.Spec.CanonicalDecimal (digits n.val) n.val := by
    unfold Verif.Spec.CanonicalDecimal
    decide +kernel
  exact h ⟨c.toNat, c.toNat_lt⟩

/-- C129 fails: bytes are matched as a list of numbers: the text "b" as bytes has the pattern "9", and does not have "b", with any
engine that finds plain letters and digits. -/
theorem bytes_not_text {R : Type} (E : Engine R) (nine bee : R) (h9 : ∀ s, E.find nine s = true ↔ 57 ∈ s) (hb : ∀ s, E.find bee s = true ↔ 98 ∈ s) :
    regexp E true (.compiled nine) (.bytes (asc "b")) = .ret true false ∧ regexp E true (.compiled bee) (.bytes (asc "b")) = .ret false true := by
  have hs : sprint E.shown (.bytes (asc "b") : Arg R) = asc "[98]" := by
    show [91] ++ ([32] : Bytes).intercalate ((asc "b").map fun c => digits c.toNat) ++ [93] = asc "[98]"
    decide
  have h1 : E.find nine (asc "[98]") = true := (h9 _).mpr (by decide)
  have h2 : E.find bee (asc "[98]") = false := by
    cases hf : E.find bee (asc "[98]") with
    | false => rfl
    | true => exact absurd ((hb _).mp hf) (by decide)
  simp only [regexp, matchRegexp, hs, h1, h2]
  exact ⟨rfl, rfl⟩

/-- C129: `FailNow` never returns; it has reported the failure, unless the message is not a string. -/
theorem failNow_ends (canStop : Bool) : failNow true canStop = (if canStop then .stopped true else .panicked true) ∧
    failNow false canStop = .panicked false := by
  cases canStop <;> exact ⟨rfl, rfl⟩

/-- C129 fails: a comparison that panics takes the assertion with it. -/
theorem condition_panics : condition true none = .panic := rfl

/-- C90: these assertions report a failure exactly if they return false. -/
theorem reported_simple (b : Bool) (e o : Option Ty) : Reported (assertTrue true b) ∧ Reported (assertFalse true b) ∧
    Reported (condition true (some b)) ∧ Reported (isType true e o) := by
  refine ⟨by cases b <;> simp [assertTrue, Reported, fail], by cases b <;> simp [assertFalse, Reported, fail],
    by cases b <;> simp [condition, failAnd, Reported, fail], ?_⟩
  unfold isType Reported fail
  by_cases h : o = e <;> simp [h]

/-! ### A concrete case -/

/-- An engine whose patterns are bytes to be found. -/
def sampleEngine : Engine UInt8 := ⟨fun s => match s with | [c] => some c | _ => none, fun c s => s.contains c, fun c => [c]⟩

example : PatternOf sampleEngine (.text (asc "e")) 101 ∧ regexp sampleEngine true (.text (asc "e")) (.text (asc "yes")) = .ret true false ∧
    notRegexp sampleEngine true (.text (asc "e")) (.text (asc "yes")) = .ret false true ∧
    regexp sampleEngine true (.text (asc "(")) (.text (asc "yes")) ≠ .panic ∧ regexp sampleEngine true (.text (asc "((")) (.text (asc "yes")) = .panic :=
  ⟨.text _ _ rfl, by decide, by decide, by decide, by decide⟩

end Verif.Simple
