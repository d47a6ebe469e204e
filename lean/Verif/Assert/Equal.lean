import Verif.Assert.Value
import Verif.Spec.Utf8

/-!
# C87 and C88: `Equal`, `NotEqual`, `Exactly` and `EqualValues`

Theorems about the model in Verif/Assert/Value.lean, and model of `ObjectsAreEqualValues` and `EqualValues` in
test/testify/assert/assertions.go.
-/

namespace Verif.Assert

/-! ### Model -/

/-- Sizes in bits (for assertions.go 68-71, on a 64-bit machine). -/
def IntKind.bits : IntKind → Nat
  | .int => 64 | .int8 => 8 | .int16 => 16 | .int32 => 32 | .int64 => 64
  | .uint => 64 | .uint8 => 8 | .uint16 => 16 | .uint32 => 32 | .uint64 => 64 | .uintptr => 64

/-- Signed kinds (for assertions.go 68-71). -/
def IntKind.signed : IntKind → Bool
  | .int | .int8 | .int16 | .int32 | .int64 => true
  | _ => false

/-- Conversion of an integer to a kind (`Convert`, assertions.go 71): the low bits. -/
def IntKind.wrap (k : IntKind) (n : Int) : Int :=
  let m := n % (2 ^ k.bits : Nat)
  if k.signed && decide (2 ^ (k.bits - 1) ≤ m) then m - (2 ^ k.bits : Nat) else m

/-- Conversion of an integer to a string of one character (`Convert`, assertions.go 71): its UTF-8 encoding, U+FFFD for what is not
a character. -/
def runeString (n : Int) : Bytes :=
  if n < 0 ∨ 0x10FFFF < n ∨ (0xD800 ≤ n ∧ n < 0xE000) then [0xEF, 0xBF, 0xBD]
  else
    let n := n.toNat
    if n < 0x80 then [UInt8.ofNat n]
    else if n < 0x800 then [UInt8.ofNat (0xC0 + n / 64), UInt8.ofNat (0x80 + n % 64)]
    else if n < 0x10000 then [UInt8.ofNat (0xE0 + n / 4096), UInt8.ofNat (0x80 + n / 64 % 64), UInt8.ofNat (0x80 + n % 64)]
    else [UInt8.ofNat (0xF0 + n / 262144), UInt8.ofNat (0x80 + n / 4096 % 64), UInt8.ofNat (0x80 + n / 64 % 64), UInt8.ofNat (0x80 + n % 64)]

/-- `ConvertibleTo` and `Convert` (assertions.go 69-71) to the type of `actual`.  Integers to integers and strings are as in Go;
`other` stands for all other conversions. -/
def convert (other : V → V → Option V) (expected actual : V) : Option V :=
  match expected, actual with
  | .int _ _ n, .int l j _ => some (.int l j (l.wrap n))
  | .int _ _ n, .str j _ => some (.str j (runeString n))
  | _, _ => other expected actual

/-- `ObjectsAreEqualValues`, assertions.go 59-75. -/
def objectsAreEqualValues (other : V → V → Option V) (expected actual : Option V) : Bool :=
  if objectsAreEqual expected actual then true
  else
    match actual, expected with
    | some actual, some expected =>
      match convert other expected actual with
      | some c => deepEqual c actual
      | none => false
    | _, _ => false

/-- `EqualValues`, assertions.go 342-354. -/
def equalValues (other : V → V → Option V) (msgOk : Bool) (expected actual : Option V) : Outcome :=
  if !objectsAreEqualValues other expected actual then fail msgOk else .ret true false

/-! ### C87 -/

/-- Well-formed arguments. -/
def ArgWF (H : Heap) : Option V → Prop
  | none => True
  | some v => v.WF H

/-- Arguments without NaN and functions. -/
def ArgTame : Option V → Prop
  | none => True
  | some v => v.Tame

theorem bytesEqual_deep : ∀ (vs ws : Vs), (∀ n v, vs.at n = some v → ∃ b : UInt8, v = .int .uint8 0 b.toNat) →
    (∀ n v, ws.at n = some v → ∃ b : UInt8, v = .int .uint8 0 b.toNat) → bytesEqual vs ws = deepList vs ws
  | .nil, .nil, _, _ => rfl
  | .nil, .cons _ _, _, _ => rfl
  | .cons v vs, .nil, hv, _ => by
    obtain ⟨b, rfl⟩ := hv 0 v rfl
    rfl
  | .cons v vs, .cons w ws, hv, hw => by
    obtain ⟨b, rfl⟩ := hv 0 v rfl
    obtain ⟨c, rfl⟩ := hw 0 w rfl
    rw [bytesEqual, deepList, bytesEqual_deep vs ws (fun n => hv (n + 1)) (fun n => hw (n + 1)), deepEqual]
    simp

theorem deepList_length : ∀ (vs ws : Vs), deepList vs ws = true → vs.length = ws.length
  | .nil, .nil, _ => rfl
  | .nil, .cons _ _, h => by simp [deepList] at h
  | .cons _ _, .nil, h => by simp [deepList] at h
  | .cons _ vs, .cons _ ws, h => by
    simp only [deepList, Bool.and_eq_true] at h
    rw [Vs.length, Vs.length, deepList_length vs ws h.2]

/-- The special case for `[]byte` changes nothing. -/
theorem objects_deep (H : Heap) (v w : V) (hv : v.WF H) (hw : w.WF H) : objectsAreEqual (some v) (some w) = deepEqual v w := by
  unfold objectsAreEqual
  simp only
  split
  · rename_i a vs
    split
    · rename_i b ws
      obtain ⟨hv1, _, hv3⟩ := hv
      obtain ⟨hw1, _, hw3⟩ := hw
      have e := bytesEqual_deep vs ws (hv3 rfl) (hw3 rfl)
      by_cases ha : a = 0
      · subst ha
        rw [if_pos (Or.inl rfl)]
        by_cases hb : b = 0 <;> simp [deepEqual, hb]
      · by_cases hb : b = 0
        · rw [if_pos (Or.inr hb)]
          simp [deepEqual, ha, hb]
        · rw [if_neg (by simp [ha, hb]), e, Bool.eq_iff_iff]
          simp only [deepEqual, Bool.and_eq_true, Bool.or_eq_true, beq_iff_eq]
          constructor
          · intro h
            exact ⟨⟨trivial, by simp [ha, hb]⟩, Or.inr ⟨deepList_length _ _ h, Or.inr h⟩⟩
          · rintro ⟨_, h | ⟨hl, h | h⟩⟩
            · exact absurd h ha
            · subst h
              have e1 := hv1 ha
              have e2 := hw1 ha
              rw [hl] at e1
              have : vs = ws := e1.symm.trans e2
              subst this
              have bytesRefl : ∀ (us : Vs), (∀ n v, us.at n = some v → ∃ b : UInt8, v = .int .uint8 0 b.toNat) → bytesEqual us us = true := by
                intro us
                induction us using Vs.rec (motive_1 := fun _ => True) (motive_3 := fun _ => True) with
                | nil => intro _; rfl
                | cons u us _ ih =>
                  intro h
                  obtain ⟨b, hb⟩ := h 0 u rfl
                  rw [hb, bytesEqual, ih fun n => h (n + 1)]
                  simp
                | _ => trivial
              rw [← e]
              exact bytesRefl vs (hv3 rfl)
            · exact h
    · rename_i h
      cases w <;> first | rfl | skip
      rename_i j b ws
      cases j with
      | zero => exact absurd rfl (h b ws)
      | succ j => rfl
  · rfl

theorem objects_iff (H : Heap) (x y : Option V) (hx : ArgWF H x) (hy : ArgWF H y) (tx : ArgTame x) (ty : ArgTame y) :
    objectsAreEqual x y = true ↔ SameArg x y := by
  cases x with
  | none =>
    cases y with
    | none => exact ⟨fun _ => trivial, fun _ => rfl⟩
    | some w => exact ⟨fun h => (nomatch h), fun h => h.elim⟩
  | some v =>
    cases y with
    | none => exact ⟨fun h => (nomatch h), fun h => h.elim⟩
    | some w =>
      rw [objects_deep H v w hx hy]
      exact deep_iff H v w hx hy tx ty

theorem tame_not_function (x : Option V) (h : ArgTame x) : isFunction x = false := by
  cases x with
  | none => rfl
  | some v => cases v <;> first | rfl | exact h.elim

/-- C87 (partly): of two arguments without NaN and functions, `Equal` accepts exactly the same values, and reports a failure for
all others.  Missing: NaN and functions, for which it depends on addresses, see `equal_nan` and `equal_shared_function`. -/
theorem equal_partial (H : Heap) (x y : Option V) (hx : ArgWF H x) (hy : ArgWF H y) (tx : ArgTame x) (ty : ArgTame y) :
    (SameArg x y → equal true x y = .ret true false) ∧ (¬SameArg x y → equal true x y = .ret false true) := by
  have h := objects_iff H x y hx hy tx ty
  unfold equal
  rw [tame_not_function x tx, tame_not_function y ty]
  constructor
  · intro hs
    rw [h.mpr hs]
    rfl
  · intro hs
    have : objectsAreEqual x y = false := by
      cases ho : objectsAreEqual x y with
      | true => exact absurd (h.mp ho) hs
      | false => rfl
    rw [this]
    rfl

/-- An argument is a function, nil or not. -/
def IsFunc (x : Option V) : Prop := ∃ i a, x = some (.func i a)

theorem isFunction_iff (x : Option V) : isFunction x = true ↔ IsFunc x := by
  constructor
  · intro h
    unfold isFunction at h
    split at h
    · exact ⟨_, _, rfl⟩
    · cases h
  · rintro ⟨i, a, rfl⟩; rfl

/-- C87: `NotEqual` accepts exactly what `Equal` does not, functions apart, which both refuse. -/
theorem notEqual_iff (x y : Option V) :
    (IsFunc x ∨ IsFunc y → equal true x y = .ret false true ∧ notEqual true x y = .ret false true) ∧
    (¬IsFunc x → ¬IsFunc y →
      (notEqual true x y = .ret true false ∧ equal true x y = .ret false true) ∨
      (notEqual true x y = .ret false true ∧ equal true x y = .ret true false)) := by
  rw [← isFunction_iff, ← isFunction_iff]
  unfold equal notEqual
  constructor
  · intro h
    have : (isFunction x || isFunction y) = true := by
      rcases h with h | h <;> rw [h] <;> simp
    rw [this]
    exact ⟨rfl, rfl⟩
  · intro h1 h2
    have h1 : isFunction x = false := by simpa using h1
    have h2 : isFunction y = false := by simpa using h2
    rw [h1, h2]
    cases objectsAreEqual x y with
    | true => exact Or.inr ⟨rfl, rfl⟩
    | false => exact Or.inl ⟨rfl, rfl⟩

/-- C87: the order of the arguments does not matter. -/
theorem equal_symm (H : Heap) (x y : Option V) (hx : ArgWF H x) (hy : ArgWF H y) (tx : ArgTame x) (ty : ArgTame y) :
    equal true x y = equal true y x := by
  have hs : SameArg x y ↔ SameArg y x := by
    cases x <;> cases y <;> first | exact Iff.rfl | exact ⟨same_symm, same_symm⟩
  by_cases h : SameArg x y
  · rw [(equal_partial H x y hx hy tx ty).1 h, (equal_partial H y x hy hx ty tx).1 (hs.mp h)]
  · rw [(equal_partial H x y hx hy tx ty).2 h, (equal_partial H y x hy hx ty tx).2 (fun h' => h (hs.mpr h'))]

/-- C87: what equals the same value is equal. -/
theorem equal_trans (H : Heap) (x y z : Option V) (hx : ArgWF H x) (hy : ArgWF H y) (hz : ArgWF H z)
    (tx : ArgTame x) (ty : ArgTame y) (tz : ArgTame z)
    (h1 : equal true x y = .ret true false) (h2 : equal true y z = .ret true false) : equal true x z = .ret true false := by
  have key : ∀ a b, ArgWF H a → ArgWF H b → ArgTame a → ArgTame b → equal true a b = .ret true false → SameArg a b := by
    intro a b ha hb ta tb h
    by_cases hs : SameArg a b
    · exact hs
    · rw [(equal_partial H a b ha hb ta tb).2 hs] at h
      cases h
  have s1 := key x y hx hy tx ty h1
  have s2 := key y z hy hz ty tz h2
  refine (equal_partial H x z hx hz tx tz).1 ?_
  cases x <;> cases y <;> first | exact s1.elim | skip
  · exact s2
  · cases z with
    | none => exact s2
    | some w => exact same_trans s1 s2

/-- C87: `Exactly` is the same as `Equal`: values of different types are never equal. -/
theorem exactly_equal (m : Bool) (x y : Option V) : exactly m x y = equal m x y := by
  unfold exactly
  by_cases h : x.map V.type = y.map V.type
  · rw [if_neg (by simpa using h)]
  · rw [if_pos h]
    unfold equal
    have : objectsAreEqual x y = false := by
      cases x with
      | none =>
        cases y with
        | none => exact absurd rfl h
        | some w => rfl
      | some v =>
        cases y with
        | none => rfl
        | some w =>
          have hd : deepEqual v w = false := by
            cases hdw : deepEqual v w with
            | false => rfl
            | true =>
              refine absurd ?_ h
              simp only [Option.map_some, Option.some.injEq]
              cases v <;> cases w <;> simp only [deepEqual, Bool.and_eq_true, beq_iff_eq, Bool.false_eq_true] at hdw <;>
                simp only [V.type, Prod.mk.injEq, Option.some.injEq, and_true, true_and] <;>
                first | exact hdw | exact hdw.1 | exact hdw.1.1 |  exact ⟨hdw.1.2, hdw.1.1⟩
          unfold objectsAreEqual
          simp only
          split
          · split
            · rename_i b ws
              exact absurd rfl h
            · rfl
          · exact hd
    rw [this]
    split <;> rfl

/-- A slice in a struct, twice at different addresses, and a map with its entries in another order. -/
example : equal true
    (some (.struct 7 (.cons (.slice 3 100 (.cons (.int .int 0 1) .nil)) (.cons (.map 4 200 (.cons (.str (asc "a")) (.bool 0 true) (.cons (.str (asc "b")) (.bool 0 false) .nil))) .nil))))
    (some (.struct 7 (.cons (.slice 3 300 (.cons (.int .int 0 1) .nil)) (.cons (.map 4 400 (.cons (.str (asc "b")) (.bool 0 false) (.cons (.str (asc "a")) (.bool 0 true) .nil))) .nil)))) =
    .ret true false := by decide +kernel

/-- An empty slice is not a nil slice. -/
example : equal true (some (.slice 3 100 .nil)) (some (.slice 3 0 .nil)) = .ret false true := by decide +kernel

/-- Two values of one memory meeting the hypotheses: pointers to the same variable and to another one. -/
example : ∃ H : Heap, ArgWF H (some (.ptr 5 8 (.int .int 0 1))) ∧ ArgWF H (some (.ptr 5 16 (.int .int 0 1))) ∧
    ArgTame (some (.ptr 5 8 (.int .int 0 1))) ∧ equal true (some (.ptr 5 8 (.int .int 0 1))) (some (.ptr 5 16 (.int .int 0 1))) = .ret true false :=
  ⟨⟨fun _ _ => .int .int 0 1, fun _ _ _ => .nil, fun _ _ => .nil⟩, ⟨fun _ => rfl, trivial⟩, ⟨fun _ => rfl, trivial⟩, trivial, by decide +kernel⟩

/-- C87: a NaN is not equal to itself, but a pointer to it is. -/
theorem equal_nan : equal true (some (.float true 0 .nan)) (some (.float true 0 .nan)) = .ret false true ∧
    equal true (some (.ptr 5 8 (.float true 0 .nan))) (some (.ptr 5 8 (.float true 0 .nan))) = .ret true false ∧
    equal true (some (.ptr 5 8 (.float true 0 .nan))) (some (.ptr 5 16 (.float true 0 .nan))) = .ret false true := by
  decide +kernel

/-- C87: functions are refused as arguments, but accepted behind a pointer compared with itself, although the documentation says
that they always fail (assertions.go 302-303). -/
theorem equal_shared_function (x y : Option V) (h : IsFunc x ∨ IsFunc y) :
    equal true x y = .ret false true ∧
    equal true (some (.ptr 5 8 (.func 0 1))) (some (.ptr 5 8 (.func 0 1))) = .ret true false :=
  ⟨((notEqual_iff x y).1 h).1, by decide +kernel⟩

/-! ### C88 -/

/-- Values of an integer kind: the ranges of the language specification, on a 64-bit machine. -/
def IntKind.Fits : IntKind → Int → Prop
  | .int, n | .int64, n => -9223372036854775808 ≤ n ∧ n ≤ 9223372036854775807
  | .int8, n => -128 ≤ n ∧ n ≤ 127
  | .int16, n => -32768 ≤ n ∧ n ≤ 32767
  | .int32, n => -2147483648 ≤ n ∧ n ≤ 2147483647
  | .uint, n | .uint64, n | .uintptr, n => 0 ≤ n ∧ n ≤ 18446744073709551615
  | .uint8, n => 0 ≤ n ∧ n ≤ 255
  | .uint16, n => 0 ≤ n ∧ n ≤ 65535
  | .uint32, n => 0 ≤ n ∧ n ≤ 4294967295

/-- Numbers with the same low bits, as many as a kind has: they differ by a multiple of the number of values of the kind. -/
def IntKind.SameLow : IntKind → Int → Int → Prop
  | .int, n, m | .int64, n, m | .uint, n, m | .uint64, n, m | .uintptr, n, m => 18446744073709551616 ∣ n - m
  | .int8, n, m | .uint8, n, m => 256 ∣ n - m
  | .int16, n, m | .uint16, n, m => 65536 ∣ n - m
  | .int32, n, m | .uint32, n, m => 4294967296 ∣ n - m

instance (k : IntKind) (n m : Int) : Decidable (k.SameLow n m) := by
  cases k <;> unfold IntKind.SameLow <;> infer_instance

theorem wrap_iff (k : IntKind) (n m : Int) (h : k.Fits m) : k.wrap n = m ↔ k.SameLow n m := by
  cases k <;> simp only [IntKind.Fits, IntKind.SameLow, IntKind.wrap, IntKind.signed, IntKind.bits, Bool.true_and, Bool.false_and,
    Bool.false_eq_true, if_false] at h ⊢ <;>
    simp only [Nat.reducePow, Nat.reduceSub, Int.reducePow, Nat.cast_ofNat] at h ⊢ <;>
    first | omega | (split <;> rename_i h' <;> first | (have h' := of_decide_eq_true h'; omega) | (have h' : ¬_ := fun e => h' (decide_eq_true e); omega))

theorem wrap_fits (k : IntKind) (n : Int) (h : k.Fits n) : k.wrap n = n :=
  (wrap_iff k n n h).mpr (by cases k <;> simp [IntKind.SameLow])

theorem objects_int (k l : IntKind) (i j : Nat) (n m : Int) :
    objectsAreEqual (some (.int k i n)) (some (.int l j m)) = true ↔ k = l ∧ i = j ∧ n = m := by
  simp [objectsAreEqual, deepEqual, and_assoc]

/-- C88: integers of any kinds and types are accepted exactly if the actual number consists of the low bits of the expected
one. -/
theorem equalValues_int (other : V → V → Option V) (k l : IntKind) (i j : Nat) (n m : Int) (hm : l.Fits m) :
    equalValues other true (some (.int k i n)) (some (.int l j m)) = if l.SameLow n m then .ret true false else .ret false true := by
  unfold equalValues objectsAreEqualValues
  have hc : deepEqual (.int l j (l.wrap n)) (.int l j m) = decide (l.wrap n = m) := by
    simp only [deepEqual, beq_self_eq_true, Bool.true_and]
    by_cases h : l.wrap n = m <;> simp [h]
  simp only [convert, hc]
  by_cases ho : objectsAreEqual (some (.int k i n)) (some (.int l j m)) = true
  · obtain ⟨_, _, h⟩ := (objects_int k l i j n m).mp ho
    subst h
    rw [if_pos ho, if_pos ((wrap_iff l n n hm).mp (wrap_fits l n hm))]
    rfl
  · rw [if_neg ho]
    by_cases h : l.wrap n = m
    · simp [h, (wrap_iff l n m hm).mp h]
    · simp [h, mt (wrap_iff l n m hm).mpr h, fail]

/-- C88 (partly): for an expected number that the type of the actual one can hold, exactly equal numbers are accepted.  Missing:
other numbers, which are cut, see `equalValues_cut`. -/
theorem equalValues_partial (other : V → V → Option V) (k l : IntKind) (i j : Nat) (n m : Int) (hn : l.Fits n) (hm : l.Fits m) :
    equalValues other true (some (.int k i n)) (some (.int l j m)) = if n = m then .ret true false else .ret false true := by
  rw [equalValues_int other k l i j n m hm]
  have e : l.SameLow n m ↔ n = m := by rw [← wrap_iff l n m hm, wrap_fits l n hn]
  by_cases h : n = m
  · rw [if_pos (e.mpr h), if_pos h]
  · rw [if_neg (mt e.mp h), if_neg h]

/-- The example of the documentation (assertions.go 341), and a number that is too large. -/
example : (IntKind.int32).Fits 123 ∧ equalValues (fun _ _ => none) true (some (.int .uint32 0 123)) (some (.int .int32 0 123)) = .ret true false := by
  refine ⟨by simp [IntKind.Fits], by decide +kernel⟩

/-- C88: `EqualValues` accepts a number for another one that it is not equal to, and the order of the arguments matters. -/
theorem equalValues_cut : equalValues (fun _ _ => none) true (some (.int .uint32 0 300)) (some (.int .uint8 0 44)) = .ret true false ∧
    equalValues (fun _ _ => none) true (some (.int .uint8 0 44)) (some (.int .uint32 0 300)) = .ret false true ∧
    equalValues (fun _ _ => none) true (some (.int .int 0 (-1))) (some (.int .uint64 0 18446744073709551615)) = .ret true false := by
  decide +kernel

/-- C88: a number is accepted for the character with that number. -/
theorem equalValues_rune : equalValues (fun _ _ => none) true (some (.int .int 0 65)) (some (.str 0 (asc "A"))) = .ret true false ∧
    equalValues (fun _ _ => none) true (some (.int .int 0 65)) (some (.str 0 (asc "65"))) = .ret false true := by
  decide +kernel

/-- C88: which texts a number is accepted for: the UTF-8 encoding of the character with that number, U+FFFD if there is none. -/
theorem equalValues_runes (other : V → V → Option V) (k : IntKind) (i j : Nat) (n : Int) (t : Bytes) :
    equalValues other true (some (.int k i n)) (some (.str j t)) = .ret true false ↔
      t = Spec.utf8Encode (if 0 ≤ n ∧ Spec.isScalar n.toNat = true then n.toNat else 0xFFFD) := by
  have hr : runeString n = Spec.utf8Encode (if 0 ≤ n ∧ Spec.isScalar n.toNat = true then n.toNat else 0xFFFD) := by
    unfold runeString
    by_cases h : n < 0 ∨ 0x10FFFF < n ∨ (0xD800 ≤ n ∧ n < 0xE000)
    · have hc : ¬(0 ≤ n ∧ Spec.isScalar n.toNat = true) := by
        rintro ⟨h0, hs⟩
        simp only [Spec.isScalar, Bool.or_eq_true, decide_eq_true_eq, Bool.and_eq_true] at hs
        omega
      rw [if_pos h, if_neg hc]
      decide
    · have hc : 0 ≤ n ∧ Spec.isScalar n.toNat = true := by
        refine ⟨by omega, ?_⟩
        simp only [Spec.isScalar, Bool.or_eq_true, decide_eq_true_eq, Bool.and_eq_true]
        omega
      rw [if_neg h, if_pos hc]
      rfl
  rw [← hr]
  have ho : objectsAreEqual (some (.int k i n)) (some (.str j t)) = false := rfl
  have hv : objectsAreEqualValues other (some (.int k i n)) (some (.str j t)) = decide (runeString n = t) := by
    unfold objectsAreEqualValues
    rw [ho]
    simp only [convert, deepEqual, beq_self_eq_true, Bool.true_and]
    by_cases h : runeString n = t <;> simp [h]
  unfold equalValues
  rw [hv]
  by_cases h : runeString n = t
  · subst h; simp
  · have h' : ¬ t = runeString n := fun e => h e.symm
    simp [h, h', fail]

/-- C88: what `Equal` accepts, `EqualValues` accepts. -/
theorem equalValues_equal (other : V → V → Option V) (x y : Option V) (h : equal true x y = .ret true false) :
    equalValues other true x y = .ret true false := by
  unfold equal at h
  split at h
  · cases h
  · split at h
    · cases h
    · rename_i ho
      unfold equalValues objectsAreEqualValues
      have : objectsAreEqual x y = true := by simpa using ho
      rw [if_pos this]
      rfl

/-- C88: nil equals nil only. -/
theorem equalValues_nil (other : V → V → Option V) (v : V) :
    equalValues other true none none = .ret true false ∧ equalValues other true none (some v) = .ret false true ∧
    equalValues other true (some v) none = .ret false true :=
  ⟨rfl, rfl, rfl⟩

end Verif.Assert
