import Verif.Assert.Equal
import Mathlib.Data.List.Perm.Basic
import Mathlib.Data.List.Infix

/-!
# C89, C90 and C91: assertions about lists, and what becomes of failures

Model of `Nil`, `NotNil`, `Empty`, `NotEmpty`, `Zero`, `NotZero`, `Len`, `Contains`, `NotContains`, `Subset`, `NotSubset` and
`ElementsMatch` in test/testify/assert/assertions.go.
-/

namespace Verif.Assert

/-! ### Model -/

/-- `isNil`, assertions.go 383-395: the kinds from `reflect.Chan` to `reflect.Slice`, which do not include `unsafe.Pointer`. -/
def isNil : Option V → Bool
  | none => true
  | some (.chan _ a _) => a = 0
  | some (.func _ a) => a = 0
  | some (.map _ a _) => a = 0
  | some (.ptr _ a _) => a = 0
  | some (.slice _ a _) => a = 0
  | some _ => false

/-- `Nil`, assertions.go 400-405. -/
def assertNil (msgOk : Bool) (object : Option V) : Outcome := if isNil object then .ret true false else fail msgOk

/-- `NotNil`, assertions.go 375-380. -/
def assertNotNil (msgOk : Bool) (object : Option V) : Outcome := if !isNil object then .ret true false else fail msgOk

mutual

/-- `reflect.Zero` of the type of a value (assertions.go 430). -/
def zeroOf : V → V
  | .bool i _ => .bool i false
  | .int k i _ => .int k i 0
  | .float d i _ => .float d i (.fin 0)
  | .str i _ => .str i []
  | .chan i _ _ => .chan i 0 0
  | .func i _ => .func i 0
  | .uptr i _ => .uptr i 0
  | .ptr i _ v => .ptr i 0 v
  | .slice i _ vs => .slice i 0 vs
  | .array i vs => .array i (zerosOf vs)
  | .map i _ es => .map i 0 es
  | .struct i vs => .struct i (zerosOf vs)
  | .nilIface i => .nilIface i
  | .iface i _ => .nilIface i

/-- `reflect.Zero` (assertions.go 430), element by element. -/
def zerosOf : Vs → Vs
  | .nil => .nil
  | .cons v vs => .cons (zeroOf v) (zerosOf vs)

end

/-- `Interface` of an element or of what a pointer points to (assertions.go 426, 571): interfaces become what they hold. -/
def V.arg : V → Option V
  | .nilIface _ => none
  | .iface _ v => some v
  | v => some v

/-- `isEmpty`, assertions.go 408-433, of a value that is not nil. -/
def isEmptyV : V → Bool
  | .array _ vs => vs.length = 0
  | .chan _ _ len => len = 0
  | .map _ a es => a = 0 || es.length = 0
  | .slice _ a vs => a = 0 || vs.length = 0
  | .ptr _ a v =>
    if a = 0 then true
    else match v with
      | .nilIface _ => true
      | .iface _ v => isEmptyV v
      | v => isEmptyV v
  | v => deepEqual v (zeroOf v)

/-- `isEmpty`, assertions.go 408-433. -/
def isEmpty : Option V → Bool
  | none => true
  | some v => isEmptyV v

/-- `Empty`, assertions.go 439-448. -/
def assertEmpty (msgOk : Bool) (object : Option V) : Outcome := if isEmpty object then .ret true false else fail msgOk

/-- `NotEmpty`, assertions.go 456-465. -/
def assertNotEmpty (msgOk : Bool) (object : Option V) : Outcome := if !isEmpty object then .ret true false else fail msgOk

/-- `Zero`, assertions.go 1119-1124. -/
def assertZero (msgOk : Bool) (i : Option V) : Outcome :=
  match i with
  | none => .ret true false
  | some v => if deepEqual v (zeroOf v) then .ret true false else fail msgOk

/-- `NotZero`, assertions.go 1127-1132. -/
def assertNotZero (msgOk : Bool) (i : Option V) : Outcome :=
  match i with
  | none => fail msgOk
  | some v => if deepEqual v (zeroOf v) then fail msgOk else .ret true false

/-- `getLen`, assertions.go 469-477; `none` is not ok. -/
def getLen : Option V → Option Nat
  | some (.array _ vs) => some vs.length
  | some (.chan _ _ len) => some len
  | some (.map _ a es) => some (if a = 0 then 0 else es.length)
  | some (.slice _ a vs) => some (if a = 0 then 0 else vs.length)
  | some (.str _ s) => some s.length
  | _ => none

/-- `Len`, assertions.go 483-493. -/
def assertLen (msgOk : Bool) (object : Option V) (length : Int) : Outcome :=
  match getLen object with
  | none => fail msgOk
  | some l => if (l : Int) ≠ length then fail msgOk else .ret true false

/-- What the model does not know: the value of a key with its type (from the type of the map; assertions.go 563), and the names of
types (557). -/
structure Types where
  key : Nat → Key → V
  name : V → Bytes

/-- `String` of a `reflect.Value` (assertions.go 557). -/
def Types.string (T : Types) : Option V → Bytes
  | none => asc "<invalid Value>"
  | some (.str _ s) => s
  | some v => asc "<" ++ T.name v ++ asc " Value>"

/-- The elements of a list from the first on, until one is equal (assertions.go 570-574). -/
def findElement (element : Option V) : List V → Bool
  | [] => false
  | v :: vs => if objectsAreEqual v.arg element then true else findElement element vs

/-- The keys of a map, until one is equal (assertions.go 561-566). -/
def findKey (T : Types) (i : Nat) (element : Option V) : List Key → Bool
  | [] => false
  | k :: ks => if objectsAreEqual (T.key i k).arg element then true else findKey T i element ks

/-- `includeElement`, assertions.go 545-577; `none` is not ok. -/
def includeElement (T : Types) (list element : Option V) : Option Bool :=
  match list with
  | none => none
  | some (.str _ s) => some (decide (T.string element <:+: s))
  | some (.map i a es) => some (if a = 0 then false else findKey T i element es.keys)
  | some (.array _ vs) => some (findElement element vs.list)
  | some (.slice _ a vs) => some (if a = 0 then false else findElement element vs.list)
  | some (.chan _ _ len) => if len = 0 then some false else none
  | _ => none

/-- `Contains`, assertions.go 585-597. -/
def contains (T : Types) (msgOk : Bool) (s element : Option V) : Outcome :=
  match includeElement T s element with
  | none => fail msgOk
  | some found => if !found then fail msgOk else .ret true false

/-- `NotContains`, assertions.go 605-617. -/
def notContains (T : Types) (msgOk : Bool) (s element : Option V) : Outcome :=
  match includeElement T s element with
  | none => fail msgOk
  | some found => if found then fail msgOk else .ret true false

/-- The elements of an array or a slice (`Len` and `Index`, assertions.go 646-647, 722-726), `none` for everything
else. -/
def elements : V → Option (List V)
  | .array _ vs => some vs.list
  | .slice _ a vs => some (if a = 0 then [] else vs.list)
  | _ => none

/-- A function with `recover` that sets the result to false (assertions.go 629-633, 670-674). -/
def recovered : Outcome → Outcome
  | .panic => .ret false false
  | o => o

/-- The loop of `Subset`, assertions.go 646-655. -/
def subsetLoop (T : Types) (msgOk : Bool) (list : Option V) : List V → Outcome
  | [] => .ret true false
  | v :: vs =>
    match includeElement T list v.arg with
    | none => fail msgOk
    | some found => if !found then fail msgOk else subsetLoop T msgOk list vs

/-- `Subset`, assertions.go 623-658. -/
def subset (T : Types) (msgOk : Bool) (list subset : Option V) : Outcome :=
  match subset with
  | none => .ret true false
  | some sub =>
    recovered <|
      match list with
      | none => .panic
      | some l =>
        match elements l, elements sub with
        | none, _ => fail msgOk
        | _, none => fail msgOk
        | some _, some vs => subsetLoop T msgOk list vs

/-- The loop of `NotSubset`, assertions.go 687-698. -/
def notSubsetLoop (T : Types) (msgOk : Bool) (list : Option V) : List V → Outcome
  | [] => fail msgOk
  | v :: vs =>
    match includeElement T list v.arg with
    | none => fail msgOk
    | some found => if !found then .ret true false else notSubsetLoop T msgOk list vs

/-- `NotSubset`, assertions.go 664-699. -/
def notSubset (T : Types) (msgOk : Bool) (list subset : Option V) : Outcome :=
  match subset with
  | none => fail msgOk
  | some sub =>
    recovered <|
      match list with
      | none => .panic
      | some l =>
        match elements l, elements sub with
        | none, _ => fail msgOk
        | _, none => fail msgOk
        | some _, some vs => notSubsetLoop T msgOk list vs

/-- The inner loop of `ElementsMatch`, assertions.go 737-746: the elements of `listB`, each with its flag in `visited`; the first one
that is not visited and equal is marked. -/
def visit (element : Option V) : List (Bool × V) → Option (List (Bool × V))
  | [] => none
  | (true, b) :: bs => (visit element bs).map fun r => (true, b) :: r
  | (false, b) :: bs =>
    if objectsAreEqual b.arg element then some ((true, b) :: bs) else (visit element bs).map fun r => (false, b) :: r

/-- The outer loop of `ElementsMatch`, assertions.go 734-750. -/
def matchLoop (msgOk : Bool) : List V → List (Bool × V) → Outcome
  | [], _ => .ret true false
  | a :: as, bs =>
    match visit a.arg bs with
    | none => fail msgOk
    | some bs => matchLoop msgOk as bs

/-- `ElementsMatch`, assertions.go 706-753. -/
def elementsMatch (msgOk : Bool) (listA listB : Option V) : Outcome :=
  if isEmpty listA && isEmpty listB then .ret true false
  else
    match listA, listB with
    | none, _ => .panic
    | _, none => .panic
    | some a, some b =>
      match elements a, elements b with
      | none, _ => fail msgOk
      | _, none => fail msgOk
      | some as, some bs =>
        if as.length ≠ bs.length then fail msgOk else matchLoop msgOk as (bs.map fun b => (false, b))

/-! ### C89: lists -/

/-- Elements that are well-formed, without NaN and functions. -/
def Good (H : Heap) (x : Option V) : Prop := ArgWF H x ∧ ArgTame x

theorem good_iff (H : Heap) (x y : Option V) (hx : Good H x) (hy : Good H y) : objectsAreEqual x y = true ↔ SameArg x y :=
  objects_iff H x y hx.1 hy.1 hx.2 hy.2

theorem sameArg_refl (x : Option V) (h : ArgTame x) : SameArg x x := by
  cases x with
  | none => trivial
  | some v => exact same_refl v h

theorem sameArg_symm {x y : Option V} (h : SameArg x y) : SameArg y x := by
  cases x <;> cases y <;> first | exact h | exact same_symm h

theorem sameArg_trans {x y z : Option V} (h : SameArg x y) (h' : SameArg y z) : SameArg x z := by
  cases x <;> cases y <;> first | exact h.elim | skip
  · exact h'
  · cases z with
    | none => exact h'
    | some w => exact same_trans h h'

theorem findElement_iff (H : Heap) (e : Option V) (he : Good H e) : ∀ (vs : List V), (∀ v ∈ vs, Good H v.arg) →
    (findElement e vs = true ↔ ∃ v ∈ vs, SameArg v.arg e) := by
  intro vs
  induction vs with
  | nil => intro _; simp [findElement]
  | cons v vs ih =>
    intro hv
    have h1 := good_iff H v.arg e (hv v (List.mem_cons_self ..)) he
    rw [findElement]
    by_cases h : objectsAreEqual v.arg e = true
    · rw [if_pos h]
      exact ⟨fun _ => ⟨v, List.mem_cons_self .., h1.mp h⟩, fun _ => rfl⟩
    · rw [if_neg h, ih fun w hw => hv w (List.mem_cons_of_mem _ hw)]
      constructor
      · rintro ⟨w, hw, hs⟩; exact ⟨w, List.mem_cons_of_mem _ hw, hs⟩
      · rintro ⟨w, hw, hs⟩
        rcases List.mem_cons.mp hw with rfl | hw
        · exact absurd (h1.mpr hs) h
        · exact ⟨w, hw, hs⟩

theorem include_list (T : Types) (l : V) (vs : List V) (e : Option V) (h : elements l = some vs) :
    includeElement T (some l) e = some (findElement e vs) := by
  cases l <;> simp only [elements, Option.some.injEq, reduceCtorEq] at h
  · subst h
    simp only [includeElement, Option.some.injEq]
    split <;> rfl
  · subst h
    rfl

/-- C89: in a list, `Contains` accepts exactly the elements, and `NotContains` everything else. -/
theorem contains_list_partial (T : Types) (H : Heap) (l : V) (vs : List V) (e : Option V) (hl : elements l = some vs)
    (hv : ∀ v ∈ vs, Good H v.arg) (he : Good H e) :
    ((∃ v ∈ vs, SameArg v.arg e) → contains T true (some l) e = .ret true false ∧ notContains T true (some l) e = .ret false true) ∧
    ((¬∃ v ∈ vs, SameArg v.arg e) → contains T true (some l) e = .ret false true ∧ notContains T true (some l) e = .ret true false) := by
  have h := findElement_iff H e he vs hv
  unfold contains notContains
  rw [include_list T l vs e hl]
  constructor
  · intro hs
    rw [h.mpr hs]
    exact ⟨rfl, rfl⟩
  · intro hs
    have : findElement e vs = false := by
      cases hf : findElement e vs with
      | true => exact absurd (h.mp hf) hs
      | false => rfl
    rw [this]
    exact ⟨rfl, rfl⟩

/-- C89: in a map, `Contains` accepts exactly the keys; a nil map (at 0) has none. -/
theorem contains_map_partial (T : Types) (H : Heap) (i a : Nat) (es : Es) (e : Option V)
    (hv : ∀ k ∈ es.keys, Good H (T.key i k).arg) (he : Good H e) :
    (contains T true (some (.map i a es)) e = .ret true false ↔ a ≠ 0 ∧ ∃ k ∈ es.keys, SameArg (T.key i k).arg e) ∧
    (notContains T true (some (.map i a es)) e = .ret true false ↔ ¬(a ≠ 0 ∧ ∃ k ∈ es.keys, SameArg (T.key i k).arg e)) := by
  have key : ∀ ks : List Key, (∀ k ∈ ks, Good H (T.key i k).arg) →
      (findKey T i e ks = true ↔ ∃ k ∈ ks, SameArg (T.key i k).arg e) := by
    intro ks
    induction ks with
    | nil => intro _; simp [findKey]
    | cons k ks ih =>
      intro hk
      have h1 := good_iff H _ e (hk k (List.mem_cons_self ..)) he
      rw [findKey]
      by_cases h : objectsAreEqual (T.key i k).arg e = true
      · rw [if_pos h]
        exact ⟨fun _ => ⟨k, List.mem_cons_self .., h1.mp h⟩, fun _ => rfl⟩
      · rw [if_neg h, ih fun w hw => hk w (List.mem_cons_of_mem _ hw)]
        constructor
        · rintro ⟨w, hw, hs⟩; exact ⟨w, List.mem_cons_of_mem _ hw, hs⟩
        · rintro ⟨w, hw, hs⟩
          rcases List.mem_cons.mp hw with rfl | hw
          · exact absurd (h1.mpr hs) h
          · exact ⟨w, hw, hs⟩
  rw [← key es.keys hv]
  unfold contains notContains
  by_cases ha : a = 0
  · simp [includeElement, ha, fail]
  · simp only [includeElement, if_neg ha]
    cases findKey T i e es.keys <;> simp [fail, ha]

/-- C89: in a string, `Contains` accepts exactly the substrings. -/
theorem contains_string (T : Types) (i j : Nat) (s t : Bytes) :
    (contains T true (some (.str i s)) (some (.str j t)) = .ret true false ↔ ∃ p q, s = p ++ t ++ q) ∧
    (notContains T true (some (.str i s)) (some (.str j t)) = .ret true false ↔ ¬∃ p q, s = p ++ t ++ q) := by
  have h : t <:+: s ↔ ∃ p q, s = p ++ t ++ q := by
    constructor
    · rintro ⟨p, q, h⟩; exact ⟨p, q, h.symm⟩
    · rintro ⟨p, q, h⟩; exact ⟨p, q, h.symm⟩
  rw [← h]
  unfold contains notContains
  simp only [includeElement, Types.string]
  by_cases hh : t <:+: s <;> simp [hh, fail]

/-- C89: elements that are not strings are turned into texts like "<int Value>", which may well be in a string. -/
theorem contains_string_other (i : Nat) : ∃ T : Types, contains T true (some (.str i (asc "an <int Value>"))) (some (.int .int 0 5)) = .ret true false ∧
    notContains T true (some (.str i (asc "5"))) (some (.int .int 0 5)) = .ret true false :=
  ⟨⟨fun _ _ => .nilIface 0, fun _ => asc "int"⟩, by
    unfold contains notContains
    simp only [includeElement, Types.string]
    decide +kernel⟩

/-- C89: in a string, an element that is no string counts as the text `<name Value>` with the name of its type, and nil as
`<invalid Value>`. -/
theorem contains_string_value (T : Types) (i : Nat) (s : Bytes) (e : Option V) (he : ∀ j t, e ≠ some (.str j t)) :
    contains T true (some (.str i s)) e = .ret true false ↔
      ∃ p q, s = p ++ (60 :: ((e.elim [105, 110, 118, 97, 108, 105, 100] T.name) ++ [32, 86, 97, 108, 117, 101, 62])) ++ q := by
  have h0 : T.string e = 60 :: ((e.elim [105, 110, 118, 97, 108, 105, 100] T.name) ++ [32, 86, 97, 108, 117, 101, 62]) := by
    cases e with
    | none => rfl
    | some v =>
      cases v with
      | str j t => exact absurd rfl (he j t)
      | _ => simp only [Types.string, Option.elim]; rfl
  rw [← h0]
  have h : T.string e <:+: s ↔ ∃ p q, s = p ++ T.string e ++ q := by
    constructor
    · rintro ⟨p, q, h⟩; exact ⟨p, q, h.symm⟩
    · rintro ⟨p, q, h⟩; exact ⟨p, q, h.symm⟩
  rw [← h]
  unfold contains
  simp only [includeElement]
  by_cases hh : T.string e <:+: s <;> simp [hh, fail]

example : contains ⟨fun _ _ => .nilIface 0, fun _ => asc "int"⟩ true (some (.str 0 (asc "no <invalid Value> here"))) none =
    .ret true false :=
  (contains_string_value _ _ _ _ (by intro _ _ h; cases h)).mpr ⟨asc "no ", asc " here", rfl⟩

/-- C89: the list contains every element of the subset. -/
theorem subset_partial (T : Types) (H : Heap) (l s : V) (vs us : List V) (hl : elements l = some vs) (hs : elements s = some us)
    (hv : ∀ v ∈ vs, Good H v.arg) (hu : ∀ u ∈ us, Good H u.arg) :
    ((∀ u ∈ us, ∃ v ∈ vs, SameArg v.arg u.arg) → subset T true (some l) (some s) = .ret true false ∧ notSubset T true (some l) (some s) = .ret false true) ∧
    ((¬∀ u ∈ us, ∃ v ∈ vs, SameArg v.arg u.arg) → subset T true (some l) (some s) = .ret false true ∧ notSubset T true (some l) (some s) = .ret true false) := by
  have key : ∀ us : List V, (∀ u ∈ us, Good H u.arg) →
      ((∀ u ∈ us, ∃ v ∈ vs, SameArg v.arg u.arg) → subsetLoop T true (some l) us = .ret true false ∧ notSubsetLoop T true (some l) us = .ret false true) ∧
      ((¬∀ u ∈ us, ∃ v ∈ vs, SameArg v.arg u.arg) → subsetLoop T true (some l) us = .ret false true ∧ notSubsetLoop T true (some l) us = .ret true false) := by
    intro us
    induction us with
    | nil => intro _; exact ⟨fun _ => ⟨rfl, rfl⟩, fun h => absurd (by simp) h⟩
    | cons u us ih =>
      intro hu
      obtain ⟨ih1, ih2⟩ := ih fun w hw => hu w (List.mem_cons_of_mem _ hw)
      have hf := findElement_iff H u.arg (hu u (List.mem_cons_self ..)) vs hv
      rw [subsetLoop, notSubsetLoop, include_list T l vs u.arg hl]
      simp only
      constructor
      · intro h
        rw [hf.mpr (h u (List.mem_cons_self ..))]
        exact ih1 fun w hw => h w (List.mem_cons_of_mem _ hw)
      · intro h
        cases hfe : findElement u.arg vs with
        | false => exact ⟨rfl, rfl⟩
        | true =>
          refine ih2 fun h' => h ?_
          intro w hw
          rcases List.mem_cons.mp hw with rfl | hw
          · exact hf.mp hfe
          · exact h' w hw
  unfold subset notSubset
  simp only [hl, hs]
  obtain ⟨k1, k2⟩ := key us hu
  constructor
  · intro h
    rw [(k1 h).1, (k1 h).2]
    exact ⟨rfl, rfl⟩
  · intro h
    rw [(k2 h).1, (k2 h).2]
    exact ⟨rfl, rfl⟩

/-! ### `ElementsMatch` -/

/-- The elements not yet used. -/
def unvisited (bs : List (Bool × V)) : List V := (bs.filter fun b => !b.1).map Prod.snd

theorem visit_none (e : Option V) : ∀ bs : List (Bool × V), visit e bs = none ↔ ∀ b ∈ unvisited bs, objectsAreEqual b.arg e = false := by
  intro bs
  induction bs with
  | nil => simp [visit, unvisited]
  | cons b bs ih =>
    obtain ⟨f, b⟩ := b
    cases f with
    | true => simpa [visit, unvisited] using ih
    | false =>
      rw [visit]
      by_cases h : objectsAreEqual b.arg e = true
      · rw [if_pos h]
        simp [unvisited, h]
      · rw [if_neg h]
        have hf : objectsAreEqual b.arg e = false := by simpa using h
        simp only [Option.map_eq_none_iff, ih]
        simp [unvisited, hf]

theorem visit_some (e : Option V) : ∀ (bs bs' : List (Bool × V)), visit e bs = some bs' →
    ∃ b, objectsAreEqual b.arg e = true ∧ (unvisited bs).Perm (b :: unvisited bs') := by
  intro bs
  induction bs with
  | nil => intro bs' h; simp [visit] at h
  | cons b bs ih =>
    intro bs' h
    obtain ⟨f, b⟩ := b
    cases f with
    | true =>
      simp only [visit, Option.map_eq_some_iff] at h
      obtain ⟨r, hr, rfl⟩ := h
      obtain ⟨c, hc, hp⟩ := ih r hr
      exact ⟨c, hc, hp⟩
    | false =>
      rw [visit] at h
      by_cases he : objectsAreEqual b.arg e = true
      · rw [if_pos he] at h
        injection h with h
        subst h
        exact ⟨b, he, List.Perm.refl _⟩
      · rw [if_neg he, Option.map_eq_some_iff] at h
        obtain ⟨r, hr, rfl⟩ := h
        obtain ⟨c, hc, hp⟩ := ih r hr
        refine ⟨c, hc, ?_⟩
        show (b :: unvisited bs).Perm (c :: b :: unvisited r)
        exact (List.Perm.cons b hp).trans (List.Perm.swap c b _)

/-- Elements that are the same. -/
def R (x y : V) : Prop := SameArg x.arg y.arg

/-- An element taken out of a matching list can be taken out of it elsewhere. -/
theorem exchange (a : V) : ∀ (as cs : List V) (b : V), List.Forall₂ R as cs → R a b → ∀ ds c, R a c → (b :: cs).Perm (c :: ds) →
    (∀ x, x ∈ b :: cs → R x x) → ∃ es, List.Forall₂ R as es ∧ es.Perm ds := by
  intro as cs b h hab ds c hac hp hrefl
  -- `c` is `b`, or it is among `cs`
  rcases List.mem_cons.mp (hp.mem_iff.mpr (List.mem_cons_self ..) : c ∈ b :: cs) with rfl | hc
  · exact ⟨cs, h, (List.perm_cons c).mp hp⟩
  · obtain ⟨l1, l2, rfl⟩ := List.append_of_mem hc
    refine ⟨l1 ++ b :: l2, ?_, ?_⟩
    · have hcb : R c b := sameArg_trans (sameArg_symm hac) hab
      clear hp hrefl hab hc
      induction l1 generalizing as with
      | nil =>
        cases h with
        | cons h1 h2 => exact .cons (sameArg_trans h1 hcb) h2
      | cons x l1 ih =>
        cases h with
        | cons h1 h2 => exact .cons h1 (ih _ h2)
    · have e1 : (b :: (l1 ++ c :: l2)).Perm (c :: (l1 ++ b :: l2)) :=
        (List.Perm.cons b List.perm_middle).trans ((List.Perm.swap c b _).trans (List.Perm.cons c List.perm_middle.symm))
      exact (List.perm_cons c).mp (e1.symm.trans hp)

theorem matchLoop_iff (H : Heap) : ∀ (as : List V) (bs : List (Bool × V)), (∀ a ∈ as, Good H a.arg) →
    (∀ b ∈ unvisited bs, Good H b.arg) → as.length = (unvisited bs).length →
    ((∃ cs, List.Forall₂ R as cs ∧ cs.Perm (unvisited bs)) → matchLoop true as bs = .ret true false) ∧
    ((¬∃ cs, List.Forall₂ R as cs ∧ cs.Perm (unvisited bs)) → matchLoop true as bs = .ret false true) := by
  intro as
  induction as with
  | nil =>
    intro bs _ _ hl
    refine ⟨fun _ => rfl, fun h => absurd ⟨[], .nil, ?_⟩ h⟩
    have : unvisited bs = [] := List.eq_nil_of_length_eq_zero hl.symm
    rw [this]
  | cons a as ih =>
    intro bs ha hb hl
    rw [matchLoop]
    cases hv : visit a.arg bs with
    | none =>
      have hn := (visit_none a.arg bs).mp hv
      refine ⟨?_, fun _ => rfl⟩
      rintro ⟨cs, hf, hp⟩
      cases hf with
      | cons h1 h2 =>
        rename_i b cs
        have hbm : b ∈ unvisited bs := hp.mem_iff.mp (List.mem_cons_self ..)
        have := hn b hbm
        rw [(good_iff H b.arg a.arg (hb b hbm) (ha a (List.mem_cons_self ..))).mpr (sameArg_symm h1)] at this
        cases this
    | some bs' =>
      obtain ⟨c, hc, hp⟩ := visit_some a.arg bs bs' hv
      have hcm : c ∈ unvisited bs := hp.mem_iff.mpr (List.mem_cons_self ..)
      have hac : R a c := sameArg_symm ((good_iff H c.arg a.arg (hb c hcm) (ha a (List.mem_cons_self ..))).mp hc)
      have hl' : as.length = (unvisited bs').length := by
        have := hp.length_eq
        simp only [List.length_cons] at this hl
        omega
      obtain ⟨i1, i2⟩ := ih bs' (fun x hx => ha x (List.mem_cons_of_mem _ hx))
        (fun x hx => hb x (hp.mem_iff.mpr (List.mem_cons_of_mem _ hx))) hl'
      simp only
      constructor
      · rintro ⟨cs, hf, hp'⟩
        cases hf with
        | cons h1 h2 =>
          rename_i b cs
          refine i1 (exchange a as cs b h2 h1 _ c hac (hp'.trans hp) ?_)
          intro x hx
          exact sameArg_refl _ (hb x (hp'.mem_iff.mp hx)).2
      · intro h
        refine i2 fun ⟨cs, hf, hp'⟩ => h ⟨c :: cs, .cons hac hf, ?_⟩
        exact (List.Perm.cons c hp').trans hp.symm

/-- C89 (partly): two lists are accepted by `ElementsMatch` exactly if the elements of one, in another order, are the same as those
of the other, each as often; for all lists of values without NaN and functions.  Missing: arguments that are no lists, see
`elementsMatch_nil` and `elementsMatch_empty`. -/
theorem elementsMatch_partial (H : Heap) (a b : V) (as bs : List V) (ha : elements a = some as) (hb : elements b = some bs)
    (hga : ∀ x ∈ as, Good H x.arg) (hgb : ∀ x ∈ bs, Good H x.arg) :
    ((∃ cs, List.Forall₂ R as cs ∧ cs.Perm bs) → elementsMatch true (some a) (some b) = .ret true false) ∧
    ((¬∃ cs, List.Forall₂ R as cs ∧ cs.Perm bs) → elementsMatch true (some a) (some b) = .ret false true) := by
  have hu : unvisited (bs.map fun b => (false, b)) = bs := by
    unfold unvisited
    rw [List.filter_eq_self.mpr (by simp), List.map_map]
    simp [Function.comp_def]
  have empty : ∀ (v : V) (vs : List V), elements v = some vs → isEmpty (some v) = decide (vs = []) := by
    intro v vs h
    have hlist : ∀ vs : Vs, (vs.list = []) ↔ vs.length = 0 := by
      intro vs
      cases vs <;> simp [Vs.list, Vs.length]
    cases v <;> simp only [elements, Option.some.injEq, reduceCtorEq] at h
    · subst h
      rename_i i n us
      by_cases hn : n = 0 <;> simp [isEmpty, isEmptyV, hn, hlist]
    · subst h
      simp [isEmpty, isEmptyV, hlist]
  unfold elementsMatch
  rw [empty a as ha, empty b bs hb]
  simp only [ha, hb]
  by_cases h0 : as = [] ∧ bs = []
  · obtain ⟨rfl, rfl⟩ := h0
    exact ⟨fun _ => rfl, fun h => absurd ⟨[], .nil, List.Perm.refl _⟩ h⟩
  · rw [if_neg (by simpa using h0)]
    by_cases hl : as.length = bs.length
    · rw [if_neg (by simpa using hl)]
      have := matchLoop_iff H as (bs.map fun b => (false, b)) hga (by rw [hu]; exact hgb) (by rw [hu]; exact hl)
      rw [hu] at this
      exact this
    · rw [if_pos hl]
      refine ⟨?_, fun _ => rfl⟩
      rintro ⟨cs, hf, hp⟩
      exact absurd (hf.length_eq.trans hp.length_eq) hl

/-- The example of the documentation (assertions.go 705), and one with a different number of appearances. -/
example : elementsMatch true (some (.slice 1 8 (.cons (.int .int 0 1) (.cons (.int .int 0 3) (.cons (.int .int 0 2) (.cons (.int .int 0 3) .nil))))))
    (some (.array 2 (.cons (.int .int 0 1) (.cons (.int .int 0 3) (.cons (.int .int 0 3) (.cons (.int .int 0 2) .nil)))))) = .ret true false ∧
    elementsMatch true (some (.array 2 (.cons (.int .int 0 1) (.cons (.int .int 0 1) (.cons (.int .int 0 2) .nil)))))
      (some (.array 2 (.cons (.int .int 0 1) (.cons (.int .int 0 2) (.cons (.int .int 0 2) .nil))))) = .ret false true := by decide +kernel

/-- Elements meeting the hypotheses, one of them nil. -/
example : ∃ H : Heap, ∀ x ∈ [V.int .int 0 1, .nilIface 3, .iface 3 (.str 0 (asc "x"))], Good H x.arg := by
  refine ⟨⟨fun _ _ => .nilIface 0, fun _ _ _ => .nil, fun _ _ => .nil⟩, ?_⟩
  intro x hx
  simp only [List.mem_cons, List.not_mem_nil, or_false] at hx
  rcases hx with rfl | rfl | rfl <;> exact ⟨trivial, trivial⟩

/-- C89: a nil argument makes `ElementsMatch` panic if the other one is not empty. -/
theorem elementsMatch_nil (msgOk : Bool) (x : Option V) (h : isEmpty x = false) :
    elementsMatch msgOk none x = .panic ∧ elementsMatch msgOk x none = .panic := by
  have hx : ∃ v, x = some v := by
    cases x with
    | none => cases h
    | some v => exact ⟨v, rfl⟩
  obtain ⟨v, rfl⟩ := hx
  unfold elementsMatch
  rw [h]
  exact ⟨rfl, rfl⟩

example : isEmpty (some (.slice 1 8 (.cons (.int .int 0 1) .nil))) = false := by decide +kernel

/-- C89: things that are no lists are accepted if both are empty in some sense. -/
theorem elementsMatch_empty : elementsMatch true (some (.int .int 0 0)) (some (.str 0 [])) = .ret true false := by decide +kernel

/-! ### C90: failures are reported -/

/-- The assertion holds and nothing is reported, or it does not and a failure is. -/
def Reported (o : Outcome) : Prop := o = .ret true false ∨ o = .ret false true

theorem reported_fail : Reported (fail true) := Or.inr rfl

theorem reported_pass : Reported (.ret true false) := Or.inl rfl

/-- C90 (partly): with a message that is a string or none, these assertions report a failure exactly if they return false, for all
arguments whatsoever. -/
theorem reported_partial (T : Types) (other : V → V → Option V) (x y : Option V) (n : Int) :
    Reported (equal true x y) ∧ Reported (notEqual true x y) ∧ Reported (exactly true x y) ∧ Reported (equalValues other true x y) ∧
    Reported (assertNil true x) ∧ Reported (assertNotNil true x) ∧ Reported (assertEmpty true x) ∧ Reported (assertNotEmpty true x) ∧
    Reported (assertZero true x) ∧ Reported (assertNotZero true x) ∧ Reported (assertLen true x n) ∧
    Reported (contains T true x y) ∧ Reported (notContains T true x y) := by
  have he : ∀ m, m = true → Reported (equal m x y) := by
    rintro m rfl
    unfold equal
    split
    · exact reported_fail
    · split
      · exact reported_fail
      · exact reported_pass
  refine ⟨he true rfl, ?_, by rw [exactly_equal]; exact he true rfl, ?_, ?_, ?_, ?_, ?_, ?_, ?_, ?_, ?_, ?_⟩
  · unfold notEqual
    split
    · exact reported_fail
    · split
      · exact reported_fail
      · exact reported_pass
  · unfold equalValues; split <;> first | exact reported_fail | exact reported_pass
  · unfold assertNil; split <;> first | exact reported_fail | exact reported_pass
  · unfold assertNotNil; split <;> first | exact reported_fail | exact reported_pass
  · unfold assertEmpty; split <;> first | exact reported_fail | exact reported_pass
  · unfold assertNotEmpty; split <;> first | exact reported_fail | exact reported_pass
  · unfold assertZero; split <;> first | exact reported_pass | (split <;> first | exact reported_fail | exact reported_pass)
  · unfold assertNotZero; split <;> first | exact reported_fail | (split <;> first | exact reported_fail | exact reported_pass)
  · unfold assertLen; split <;> first | exact reported_fail | (split <;> first | exact reported_fail | exact reported_pass)
  · unfold contains; split <;> first | exact reported_fail | (split <;> first | exact reported_fail | exact reported_pass)
  · unfold notContains; split <;> first | exact reported_fail | (split <;> first | exact reported_fail | exact reported_pass)

/-- C90 (partly): `Subset` and `NotSubset` report their failures if the list is not nil. -/
theorem subset_reported_partial (T : Types) (l : V) (s : Option V) :
    Reported (subset T true (some l) s) ∧ Reported (notSubset T true (some l) s) := by
  have h1 : ∀ vs, Reported (subsetLoop T true (some l) vs) := by
    intro vs
    induction vs with
    | nil => exact reported_pass
    | cons v vs ih =>
      rw [subsetLoop]
      split
      · exact reported_fail
      · split
        · exact reported_fail
        · exact ih
  have h2 : ∀ vs, Reported (notSubsetLoop T true (some l) vs) := by
    intro vs
    induction vs with
    | nil => exact reported_fail
    | cons v vs ih =>
      rw [notSubsetLoop]
      split
      · exact reported_fail
      · split
        · exact reported_pass
        · exact ih
  have hr : ∀ o, Reported o → Reported (recovered o) := by
    rintro o (rfl | rfl)
    · exact reported_pass
    · exact reported_fail
  unfold subset notSubset
  cases s with
  | none => exact ⟨reported_pass, reported_fail⟩
  | some s =>
    simp only
    constructor
    · apply hr
      split
      · exact reported_fail
      · exact reported_fail
      · exact h1 _
    · apply hr
      split
      · exact reported_fail
      · exact reported_fail
      · exact h2 _

/-- C90 is false of `Subset` and `NotSubset` with a nil list: they return false and the test passes. -/
theorem subset_silent (T : Types) (m : Bool) (s : V) :
    subset T m none (some s) = .ret false false ∧ notSubset T m none (some s) = .ret false false := ⟨rfl, rfl⟩

/-- C90 is false for a message that is not a string: the failure becomes a panic, or in `Subset` nothing at all. -/
theorem message_not_string (T : Types) : equal false (some (.int .int 0 1)) (some (.int .int 0 2)) = .panic ∧
    subset T false (some (.slice 1 8 .nil)) (some (.slice 1 8 (.cons (.int .int 0 1) .nil))) = .ret false false := by
  constructor
  · decide +kernel
  · rfl

/-! ### C91: nil, empty, zero and length -/

/-- Nil in the language: a nil interface, or a nil channel, function, map, pointer, slice or unsafe pointer. -/
def IsNilValue : Option V → Prop
  | none => True
  | some (.chan _ a _) => a = 0
  | some (.func _ a) => a = 0
  | some (.map _ a _) => a = 0
  | some (.ptr _ a _) => a = 0
  | some (.slice _ a _) => a = 0
  | some (.uptr _ a) => a = 0
  | _ => False

/-- C91 (partly): `Nil` accepts exactly nil values and `NotNil` all others, except that a nil `unsafe.Pointer` counts as not
nil. -/
theorem nil_partial (x : Option V) (h : ∀ i, x ≠ some (.uptr i 0)) :
    (IsNilValue x → assertNil true x = .ret true false ∧ assertNotNil true x = .ret false true) ∧
    (¬IsNilValue x → assertNil true x = .ret false true ∧ assertNotNil true x = .ret true false) := by
  have hi : isNil x = true ↔ IsNilValue x := by
    cases x with
    | none => exact ⟨fun _ => trivial, fun _ => rfl⟩
    | some v =>
      cases v <;> simp only [isNil, IsNilValue, decide_eq_true_eq, Bool.false_eq_true]
      rename_i i a
      constructor
      · intro h'; exact h'.elim
      · rintro rfl; exact absurd rfl (h i)
  unfold assertNil assertNotNil
  constructor
  · intro hn
    rw [hi.mpr hn]
    exact ⟨rfl, rfl⟩
  · intro hn
    have : isNil x = false := by
      cases hx : isNil x with
      | true => exact absurd (hi.mp hx) hn
      | false => rfl
    rw [this]
    exact ⟨rfl, rfl⟩

/-- C91: a nil `unsafe.Pointer` is not nil for the assertions. -/
theorem nil_unsafe_pointer (i : Nat) : assertNil true (some (.uptr i 0)) = .ret false true ∧ assertNotNil true (some (.uptr i 0)) = .ret true false :=
  ⟨rfl, rfl⟩

/-- A typed nil is nil, an empty slice is not. -/
example : assertNil true (some (.ptr 5 0 (.int .int 0 0))) = .ret true false ∧ assertNil true (some (.slice 5 8 .nil)) = .ret false true := by
  decide +kernel

/-- `len()` of a value in the language. -/
inductive HasLen : V → Nat → Prop
  | str i s : HasLen (.str i s) s.length
  | array i vs : HasLen (.array i vs) vs.list.length
  | slice i a vs : a ≠ 0 → HasLen (.slice i a vs) vs.list.length
  | nilSlice i vs : HasLen (.slice i 0 vs) 0
  | map i a es : a ≠ 0 → HasLen (.map i a es) es.keys.length
  | nilMap i es : HasLen (.map i 0 es) 0
  | chan i a n : HasLen (.chan i a n) n

theorem vs_length (vs : Vs) : vs.length = vs.list.length := by
  induction vs using Vs.rec (motive_1 := fun _ => True) (motive_3 := fun _ => True) <;> first | trivial | simp_all [Vs.length, Vs.list]

theorem es_length (es : Es) : es.length = es.keys.length := by
  induction es using Es.rec (motive_1 := fun _ => True) (motive_2 := fun _ => True) <;> first | trivial | simp_all [Es.length, Es.keys]

theorem getLen_iff (v : V) (l : Nat) : getLen (some v) = some l ↔ HasLen v l := by
  constructor
  · intro h
    cases v <;> simp only [getLen, Option.some.injEq, reduceCtorEq] at h <;> subst h
    · exact .str _ _
    · exact .chan _ _ _
    · rename_i i a vs
      by_cases ha : a = 0
      · rw [if_pos ha, ha]; exact .nilSlice _ _
      · rw [if_neg ha, vs_length]; exact .slice _ _ _ ha
    · rw [vs_length]; exact .array _ _
    · rename_i i a vs
      by_cases ha : a = 0
      · rw [if_pos ha, ha]; exact .nilMap _ _
      · rw [if_neg ha, es_length]; exact .map _ _ _ ha
  · intro h
    cases h <;> simp_all [getLen, vs_length, es_length]

/-- C91: `Len` accepts exactly the length `len()` gives, and nothing that has no length. -/
theorem len_iff (x : Option V) (n : Int) : assertLen true x n = .ret true false ↔ ∃ v l, x = some v ∧ HasLen v l ∧ (l : Int) = n := by
  unfold assertLen
  cases x with
  | none => simp [getLen, fail]
  | some v =>
    cases hg : getLen (some v) with
    | none =>
      simp only [fail]
      constructor
      · intro h; simp at h
      · rintro ⟨w, l, hw, hl, _⟩
        injection hw with hw
        subst hw
        rw [(getLen_iff v l).mpr hl] at hg
        cases hg
    | some l =>
      have hl := (getLen_iff v l).mp hg
      simp only
      by_cases h : (l : Int) = n
      · rw [if_neg (fun h' => h' h)]
        exact ⟨fun _ => ⟨v, l, rfl, hl, h⟩, fun _ => rfl⟩
      · rw [if_pos h]
        constructor
        · intro h'; simp [fail] at h'
        · rintro ⟨w, m, hw, hm, hn⟩
          injection hw with hw
          subst hw
          rw [(getLen_iff v m).mpr hm] at hg
          injection hg with hg
          subst hg
          exact absurd hn h

/-- C91: arrays, channels, maps, slices and strings are empty exactly if their length is 0. -/
theorem empty_len (v : V) (l : Nat) (h : HasLen v l) : assertEmpty true (some v) = .ret true false ↔ l = 0 := by
  rw [← getLen_iff] at h
  have : isEmpty (some v) = true ↔ l = 0 := by
    cases v <;> simp only [getLen, Option.some.injEq, reduceCtorEq] at h <;> subst h
    · rename_i i s
      cases s <;> simp [isEmpty, isEmptyV, zeroOf, deepEqual]
    · simp [isEmpty, isEmptyV]
    · rename_i i a vs
      by_cases ha : a = 0 <;> simp [isEmpty, isEmptyV, ha]
    · simp [isEmpty, isEmptyV]
    · rename_i i a es
      by_cases ha : a = 0 <;> simp [isEmpty, isEmptyV, ha]
  unfold assertEmpty
  by_cases he : isEmpty (some v) = true
  · rw [if_pos he]; exact ⟨fun _ => this.mp he, fun _ => rfl⟩
  · rw [if_neg he]
    exact ⟨fun h' => by simp [fail] at h', fun h' => absurd (this.mpr h') he⟩

/-- C91: a pointer is empty exactly if it is nil or what it points to is empty. -/
theorem empty_ptr (i a : Nat) (v : V) : isEmpty (some (.ptr i a v)) = true ↔ a = 0 ∨ isEmpty v.arg = true := by
  have h : isEmptyV (.ptr i a v) = if a = 0 then true else isEmpty v.arg := by
    cases v <;> rfl
  rw [isEmpty, h]
  by_cases ha : a = 0 <;> simp [ha]

mutual

/-- The zero value of its type, as the language defines it. -/
def IsZero : V → Prop
  | .bool _ b => b = false
  | .int _ _ n => n = 0
  | .float _ _ f => f = .fin 0
  | .str _ s => s = []
  | .chan _ a _ => a = 0
  | .func _ a => a = 0
  | .uptr _ a => a = 0
  | .ptr _ a _ => a = 0
  | .slice _ a _ => a = 0
  | .array _ vs => AllZero vs
  | .map _ a _ => a = 0
  | .struct _ vs => AllZero vs
  | .nilIface _ => True
  | .iface _ _ => False

/-- All fields or elements are zero. -/
def AllZero : Vs → Prop
  | .nil => True
  | .cons v vs => IsZero v ∧ AllZero vs

end

mutual

theorem deep_zero : ∀ v : V, deepEqual v (zeroOf v) = true ↔ IsZero v
  | .bool i b => by cases b <;> simp [zeroOf, deepEqual, IsZero]
  | .int k i n => by simp [zeroOf, deepEqual, IsZero]
  | .float d i f => by cases f <;> simp [zeroOf, deepEqual, IsZero, Fl.eq]
  | .str i s => by simp [zeroOf, deepEqual, IsZero]
  | .chan i a n => by simp [zeroOf, deepEqual, IsZero]
  | .func i a => by simp [zeroOf, deepEqual, IsZero]
  | .uptr i a => by simp [zeroOf, deepEqual, IsZero]
  | .ptr i a v => by simp [zeroOf, deepEqual, IsZero]
  | .slice i a vs => by by_cases ha : a = 0 <;> simp [zeroOf, deepEqual, IsZero, ha]
  | .map i a es => by by_cases ha : a = 0 <;> simp [zeroOf, deepEqual, IsZero, ha]
  | .array i vs => by simpa [zeroOf, deepEqual, IsZero] using deep_zeros vs
  | .struct i vs => by simpa [zeroOf, deepEqual, IsZero] using deep_zeros vs
  | .nilIface i => by simp [zeroOf, deepEqual, IsZero]
  | .iface i v => by simp [zeroOf, deepEqual, IsZero]

theorem deep_zeros : ∀ vs : Vs, deepList vs (zerosOf vs) = true ↔ AllZero vs
  | .nil => by simp [zerosOf, deepList, AllZero]
  | .cons v vs => by simp [zerosOf, deepList, AllZero, deep_zero v, deep_zeros vs]

end

/-- C91: `Zero` accepts exactly nil and the zero values, field by field; `NotZero` exactly the rest. -/
theorem zero_iff (x : Option V) : (assertZero true x = .ret true false ↔ ∀ v, x = some v → IsZero v) ∧
    (assertNotZero true x = .ret true false ↔ ∃ v, x = some v ∧ ¬IsZero v) := by
  cases x with
  | none => simp [assertZero, assertNotZero, fail]
  | some v =>
    unfold assertZero assertNotZero
    simp only [Option.some.injEq, forall_eq', exists_eq_left', ← deep_zero]
    cases deepEqual v (zeroOf v) <;> simp [fail]

/-- A struct with a number, a nil map and an array of strings. -/
example : assertZero true (some (.struct 4 (.cons (.int .int8 0 0) (.cons (.map 2 0 .nil) (.cons (.array 3 (.cons (.str 0 []) .nil)) .nil))))) = .ret true false ∧
    assertZero true (some (.struct 4 (.cons (.int .int8 0 0) (.cons (.map 2 8 .nil) .nil)))) = .ret false true := by decide +kernel

/-- C91: everything that is no array, channel, map, slice or pointer is empty exactly if it is zero. -/
theorem empty_other (v : V) (h : ∀ l, ¬HasLen v l) (hp : ∀ i a w, v ≠ .ptr i a w) : assertEmpty true (some v) = .ret true false ↔ IsZero v := by
  have : isEmpty (some v) = deepEqual v (zeroOf v) := by
    cases v <;> first | rfl | skip
    · exact absurd (HasLen.chan _ _ _) (h _)
    · exact absurd rfl (hp _ _ _)
    · rename_i i a vs
      exact absurd ((getLen_iff _ _).mp rfl) (h _)
    · exact absurd (HasLen.array _ _) (h _)
    · exact absurd ((getLen_iff _ _).mp rfl) (h _)
  unfold assertEmpty
  rw [this, ← deep_zero]
  cases deepEqual v (zeroOf v) <;> simp [fail]

/-- A number has no length and is no pointer. -/
example : (∀ l, ¬HasLen (.int .int 0 7) l) ∧ ∀ i a w, V.int .int 0 7 ≠ .ptr i a w := ⟨fun _ h => (nomatch h), fun _ _ _ h => (nomatch h)⟩

/-- C91: `Empty` and `NotEmpty` never agree. -/
theorem empty_not (x : Option V) : (assertEmpty true x = .ret true false ↔ assertNotEmpty true x = .ret false true) ∧
    (assertEmpty true x = .ret false true ↔ assertNotEmpty true x = .ret true false) := by
  unfold assertEmpty assertNotEmpty
  cases isEmpty x <;> simp [fail]

end Verif.Assert
