import Verif.Basic
import Mathlib.Data.List.Perm.Subperm
import Mathlib.Data.Rat.Defs
import Mathlib.Algebra.Order.Ring.Rat

/-!
# C87: which values are equal for the assertions

Go values as they are passed to the functions of test/testify/assert in `interface{}` arguments, and model of
`ObjectsAreEqual`, `Equal`, `NotEqual` and `Exactly` in test/testify/assert/assertions.go.
-/

namespace Verif.Assert

/-! ### Values -/

/-- Floating point numbers (for assertions.go 39-55 and 844-878).  Simplified: the two zeros, which no function here tells apart, are one. -/
inductive Fl where
  | nan
  | inf (neg : Bool)
  | fin (q : ℚ)
  deriving DecidableEq

/-- Go's `==` for floating point numbers, as used by `reflect.DeepEqual` (assertions.go 53). -/
def Fl.eq (a b : Fl) : Bool := a ≠ .nan && a = b

/-- The kinds of integers (`reflect.Kind`, for assertions.go 848-868). -/
inductive IntKind where
  | int | int8 | int16 | int32 | int64 | uint | uint8 | uint16 | uint32 | uint64 | uintptr
  deriving DecidableEq, Repr

/-- Keys of maps (for assertions.go 560-568).  Simplified: array, struct and interface keys are left out; pointers and channels are
keys by their address. -/
inductive Key where
  | bool (b : Bool)
  | int (n : Int)
  | str (s : Bytes)
  | float (f : Fl)
  | addr (a : Nat)
  deriving DecidableEq

/-- Go's `==` for keys, as used by `MapIndex` (for assertions.go 53 and 945). -/
def Key.eq (k l : Key) : Bool := k ≠ .float .nan && k = l

mutual

/-- A value with its dynamic type, as far as `reflect` lets the assertions see it (assertions.go 39-75).  Types of one kind are told
apart by `id`; 0 stands for the predeclared type, and for slices for `[]byte`.  Address 0 is nil; what a nil pointer, slice or map
holds is ignored.  Simplified: complex numbers are left out, and values are trees (no cycles). -/
inductive V where
  | bool (id : Nat) (b : Bool)
  | int (k : IntKind) (id : Nat) (n : Int)
  | float (double : Bool) (id : Nat) (f : Fl)
  | str (id : Nat) (s : Bytes)
  | chan (id : Nat) (a : Nat) (len : Nat)
  | func (id : Nat) (a : Nat)
  | uptr (id : Nat) (a : Nat)
  | ptr (id : Nat) (a : Nat) (v : V)
  | slice (id : Nat) (a : Nat) (vs : Vs)
  | array (id : Nat) (vs : Vs)
  | map (id : Nat) (a : Nat) (es : Es)
  | struct (id : Nat) (vs : Vs)
  | nilIface (id : Nat)
  | iface (id : Nat) (v : V)

/-- Elements of slices and arrays, fields of structs (`reflect.Value.Index` and `Field`, assertions.go 571). -/
inductive Vs where
  | nil
  | cons (v : V) (vs : Vs)

/-- Entries of a map (`reflect.Value.MapKeys`, assertions.go 561). -/
inductive Es where
  | nil
  | cons (k : Key) (v : V) (es : Es)

end

/-- `Len` of slices and arrays (assertions.go 570). -/
def Vs.length : Vs → Nat
  | .nil => 0
  | .cons _ vs => vs.length + 1

/-- `Index` (assertions.go 571). -/
def Vs.at : Vs → Nat → Option V
  | .nil, _ => none
  | .cons v _, 0 => some v
  | .cons _ vs, n + 1 => vs.at n

/-- The elements (`Index`, assertions.go 571). -/
def Vs.list : Vs → List V
  | .nil => []
  | .cons v vs => v :: vs.list

/-- `Len` of maps (assertions.go 420). -/
def Es.length : Es → Nat
  | .nil => 0
  | .cons _ _ es => es.length + 1

/-- `MapKeys` (assertions.go 561). -/
def Es.keys : Es → List Key
  | .nil => []
  | .cons k _ es => k :: es.keys

/-- `MapIndex` (assertions.go 945-946): no element for a key that is not equal to itself. -/
def Es.find : Es → Key → Option V
  | .nil, _ => none
  | .cons k v es, l => if Key.eq l k then some v else es.find l

mutual

/-- `reflect.DeepEqual` (assertions.go 53), following the documentation and source of package reflect: same type; pointers,
slices and maps with the same address are equal without a look at what they hold. -/
def deepEqual : V → V → Bool
  | .bool i a, .bool j b => i == j && a == b
  | .int k i a, .int l j b => k == l && i == j && a == b
  | .float k i a, .float l j b => k == l && i == j && a.eq b
  | .str i a, .str j b => i == j && a == b
  | .chan i a _, .chan j b _ => i == j && a == b
  | .func i a, .func j b => i == j && a == 0 && b == 0
  | .uptr i a, .uptr j b => i == j && a == b
  | .ptr i a v, .ptr j b w => i == j && (a == b || (a != 0 && b != 0 && deepEqual v w))
  | .slice i a vs, .slice j b ws =>
    i == j && (a == 0) == (b == 0) && (a == 0 || (vs.length == ws.length && (a == b || deepList vs ws)))
  | .array i vs, .array j ws => i == j && deepList vs ws
  | .map i a es, .map j b fs =>
    i == j && (a == 0) == (b == 0) && (a == 0 || (es.length == fs.length && (a == b || deepEntries es fs)))
  | .struct i vs, .struct j ws => i == j && deepList vs ws
  | .nilIface i, .nilIface j => i == j
  | .iface i v, .iface j w => i == j && deepEqual v w
  | _, _ => false

/-- `reflect.DeepEqual` (assertions.go 53), element by element. -/
def deepList : Vs → Vs → Bool
  | .nil, .nil => true
  | .cons v vs, .cons w ws => deepEqual v w && deepList vs ws
  | _, _ => false

/-- `reflect.DeepEqual` (assertions.go 53), the keys of the first map one by one in both maps. -/
def deepEntries : Es → Es → Bool
  | .nil, _ => true
  | .cons k v es, fs =>
    Key.eq k k && (match fs.find k with | some w => deepEqual v w | none => false) && deepEntries es fs

end

/-- `[]byte` (assertions.go 44). -/
def V.isBytes : V → Bool
  | .slice 0 _ _ => true
  | _ => false

/-- `bytes.Equal` (assertions.go 51) on the elements of two byte slices. -/
def bytesEqual : Vs → Vs → Bool
  | .nil, .nil => true
  | .cons (.int _ _ a) vs, .cons (.int _ _ b) ws => a == b && bytesEqual vs ws
  | _, _ => false

/-- `ObjectsAreEqual`, assertions.go 39-55; `none` is nil. -/
def objectsAreEqual : Option V → Option V → Bool
  | none, none => true
  | none, some _ => false
  | some _, none => false
  | some expected, some actual =>
    match expected with
    | .slice 0 a vs =>
      match actual with
      | .slice 0 b ws => if a = 0 ∨ b = 0 then a = 0 && b = 0 else bytesEqual vs ws
      | _ => false
    | _ => deepEqual expected actual

/-- What a call of an assertion does (assertions.go 228-241): it returns, `ok` being the result and `failed` whether `t.Errorf` was called; or it
panics. -/
inductive Outcome where
  | ret (ok : Bool) (failed : Bool)
  | panic
  deriving DecidableEq, Repr

/-- `Fail`, assertions.go 228-241, for any message.  `msgOk`: no message arguments, or the first of them is a string
(`messageFromMsgAndArgs`, 173-184, panics otherwise).  Simplified: rendering the message does not fail. -/
def fail (msgOk : Bool) : Outcome := if msgOk then .ret false true else .panic

/-- `isFunction`, assertions.go 1235-1240. -/
def isFunction : Option V → Bool
  | some (.func _ _) => true
  | _ => false

/-- `Equal`, assertions.go 304-320, with `validateEqualArgs`, 1228-1233. -/
def equal (msgOk : Bool) (expected actual : Option V) : Outcome :=
  if isFunction expected || isFunction actual then fail msgOk
  else if !objectsAreEqual expected actual then fail msgOk
  else .ret true false

/-- `NotEqual`, assertions.go 527-539. -/
def notEqual (msgOk : Bool) (expected actual : Option V) : Outcome :=
  if isFunction expected || isFunction actual then fail msgOk
  else if objectsAreEqual expected actual then fail msgOk
  else .ret true false

/-- The dynamic type: kind, name, and for integers and floating point numbers which (`reflect.TypeOf`, assertions.go 361-362). -/
def V.type : V → Nat × Nat × Option IntKind × Bool
  | .bool i _ => (0, i, none, false)
  | .int k i _ => (1, i, some k, false)
  | .float d i _ => (2, i, none, d)
  | .str i _ => (3, i, none, false)
  | .chan i _ _ => (4, i, none, false)
  | .func i _ => (5, i, none, false)
  | .uptr i _ => (6, i, none, false)
  | .ptr i _ _ => (7, i, none, false)
  | .slice i _ _ => (8, i, none, false)
  | .array i _ => (9, i, none, false)
  | .map i _ _ => (10, i, none, false)
  | .struct i _ => (11, i, none, false)
  | .nilIface i => (12, i, none, false)
  | .iface i _ => (12, i, none, false)

/-- `Exactly`, assertions.go 359-370. -/
def exactly (msgOk : Bool) (expected actual : Option V) : Outcome :=
  if expected.map V.type ≠ actual.map V.type then fail msgOk else equal msgOk expected actual

/-! ### Specification -/

/-- The same value: same type and same contents, whatever the addresses; maps with the same keys and the same values for them. -/
inductive Same : V → V → Prop
  | bool (i : Nat) (b : Bool) : Same (.bool i b) (.bool i b)
  | int (k : IntKind) (i : Nat) (n : Int) : Same (.int k i n) (.int k i n)
  | float (d : Bool) (i : Nat) (f : Fl) : f ≠ .nan → Same (.float d i f) (.float d i f)
  | str (i : Nat) (s : Bytes) : Same (.str i s) (.str i s)
  | chan (i a m n : Nat) : Same (.chan i a m) (.chan i a n)
  | func (i : Nat) : Same (.func i 0) (.func i 0)
  | uptr (i a : Nat) : Same (.uptr i a) (.uptr i a)
  | nilPtr (i : Nat) (v w : V) : Same (.ptr i 0 v) (.ptr i 0 w)
  | ptr (i a b : Nat) (v w : V) : a ≠ 0 → b ≠ 0 → Same v w → Same (.ptr i a v) (.ptr i b w)
  | nilSlice (i : Nat) (vs ws : Vs) : Same (.slice i 0 vs) (.slice i 0 ws)
  | slice (i a b : Nat) (vs ws : Vs) : a ≠ 0 → b ≠ 0 → vs.length = ws.length →
      (∀ n v w, vs.at n = some v → ws.at n = some w → Same v w) → Same (.slice i a vs) (.slice i b ws)
  | array (i : Nat) (vs ws : Vs) : vs.length = ws.length →
      (∀ n v w, vs.at n = some v → ws.at n = some w → Same v w) → Same (.array i vs) (.array i ws)
  | nilMap (i : Nat) (es fs : Es) : Same (.map i 0 es) (.map i 0 fs)
  | map (i a b : Nat) (es fs : Es) : a ≠ 0 → b ≠ 0 → (∀ k, k ∈ es.keys ↔ k ∈ fs.keys) →
      (∀ k v w, es.find k = some v → fs.find k = some w → Same v w) → Same (.map i a es) (.map i b fs)
  | struct (i : Nat) (vs ws : Vs) : vs.length = ws.length →
      (∀ n v w, vs.at n = some v → ws.at n = some w → Same v w) → Same (.struct i vs) (.struct i ws)
  | nilIface (i : Nat) : Same (.nilIface i) (.nilIface i)
  | iface (i : Nat) (v w : V) : Same v w → Same (.iface i v) (.iface i w)

/-- The same argument: both nil, or the same value. -/
def SameArg : Option V → Option V → Prop
  | none, none => True
  | some v, some w => Same v w
  | _, _ => False

/-- What is where in memory. -/
structure Heap where
  ptr : Nat → Nat → V
  slice : Nat → Nat → Nat → Vs
  map : Nat → Nat → Es

mutual

/-- Well-formed values of one memory: what has the same type and address (and length) holds the same, map keys are distinct, and a
byte slice holds bytes. -/
def V.WF (H : Heap) : V → Prop
  | .ptr i a v => (a ≠ 0 → H.ptr i a = v) ∧ v.WF H
  | .slice i a vs => (a ≠ 0 → H.slice i a vs.length = vs) ∧ vs.WF H ∧ (i = 0 → ∀ n v, vs.at n = some v → ∃ b : UInt8, v = .int .uint8 0 b.toNat)
  | .array _ vs => vs.WF H
  | .map i a es => (a ≠ 0 → H.map i a = es) ∧ es.WF H ∧ es.keys.Nodup
  | .struct _ vs => vs.WF H
  | .iface _ v => v.WF H
  | _ => True

/-- All elements. -/
def Vs.WF (H : Heap) : Vs → Prop
  | .nil => True
  | .cons v vs => v.WF H ∧ vs.WF H

/-- All entries. -/
def Es.WF (H : Heap) : Es → Prop
  | .nil => True
  | .cons _ v es => v.WF H ∧ es.WF H

end

mutual

/-- No NaN and no function in it. -/
def V.Tame : V → Prop
  | .float _ _ f => f ≠ .nan
  | .func _ _ => False
  | .ptr _ _ v => v.Tame
  | .slice _ _ vs => vs.Tame
  | .array _ vs => vs.Tame
  | .map _ _ es => es.Tame
  | .struct _ vs => vs.Tame
  | .iface _ v => v.Tame
  | _ => True

/-- All elements. -/
def Vs.Tame : Vs → Prop
  | .nil => True
  | .cons v vs => v.Tame ∧ vs.Tame

/-- All keys and elements. -/
def Es.Tame : Es → Prop
  | .nil => True
  | .cons k v es => k ≠ .float .nan ∧ v.Tame ∧ es.Tame

end

/-! ### Equality -/

theorem Vs.at_tame : ∀ (vs : Vs), vs.Tame → ∀ n v, vs.at n = some v → v.Tame
  | .nil, _, _, _, h => by simp [Vs.at] at h
  | .cons _ _, ht, 0, v, h => by
    simp only [Vs.at, Option.some.injEq] at h
    subst h
    exact ht.1
  | .cons _ vs, ht, n + 1, v, h => Vs.at_tame vs ht.2 n v h

theorem Vs.at_wf (H : Heap) : ∀ (vs : Vs), vs.WF H → ∀ n v, vs.at n = some v → v.WF H
  | .nil, _, _, _, h => by simp [Vs.at] at h
  | .cons _ _, ht, 0, v, h => by
    simp only [Vs.at, Option.some.injEq] at h
    subst h
    exact ht.1
  | .cons _ vs, ht, n + 1, v, h => Vs.at_wf H vs ht.2 n v h

theorem Es.find_tame : ∀ (es : Es), es.Tame → ∀ k v, es.find k = some v → v.Tame
  | .nil, _, _, _, h => by simp [Es.find] at h
  | .cons l u es, ht, k, v, h => by
    rw [Es.find] at h
    split at h
    · injection h with h
      subst h
      exact ht.2.1
    · exact Es.find_tame es ht.2.2 k v h

theorem Es.find_wf (H : Heap) : ∀ (es : Es), es.WF H → ∀ k v, es.find k = some v → v.WF H
  | .nil, _, _, _, h => by simp [Es.find] at h
  | .cons l u es, ht, k, v, h => by
    rw [Es.find] at h
    split at h
    · injection h with h
      subst h
      exact ht.1
    · exact Es.find_wf H es ht.2 k v h

theorem Es.key_tame : ∀ (es : Es), es.Tame → ∀ k ∈ es.keys, k ≠ .float .nan
  | .nil, _, k, h => by simp [Es.keys] at h
  | .cons l u es, ht, k, h => by
    rcases List.mem_cons.mp h with rfl | h
    · exact ht.1
    · exact Es.key_tame es ht.2.2 k h

theorem Es.find_isSome : ∀ (es : Es) (k : Key), k ≠ .float .nan → ((es.find k).isSome ↔ k ∈ es.keys)
  | .nil, k, _ => by simp [Es.find, Es.keys]
  | .cons l u es, k, hk => by
    have ih := Es.find_isSome es k hk
    rw [Es.find, Es.keys, List.mem_cons, ← ih]
    by_cases h : k = l
    · subst h
      simp [Key.eq, hk]
    · have : Key.eq k l = false := by simp [Key.eq, h]
      rw [this]
      simp [h]

theorem Es.keys_length : ∀ es : Es, es.keys.length = es.length
  | .nil => rfl
  | .cons _ _ es => by rw [Es.keys, List.length_cons, Es.keys_length es, Es.length]

theorem Key.eq_iff (k l : Key) (h : k ≠ .float .nan) : Key.eq k l = true ↔ k = l := by
  simp [Key.eq, h]

theorem Vs.at_isSome : ∀ (vs : Vs) (n : Nat), (vs.at n).isSome ↔ n < vs.length
  | .nil, n => by simp [Vs.at, Vs.length]
  | .cons _ _, 0 => by simp [Vs.at, Vs.length]
  | .cons _ vs, n + 1 => by
    rw [Vs.at, Vs.at_isSome vs n, Vs.length]
    omega

mutual

/-- A value without NaN and functions is the same as itself. -/
theorem same_refl : ∀ v : V, v.Tame → Same v v
  | .bool i b, _ => .bool i b
  | .int k i n, _ => .int k i n
  | .float d i f, h => .float d i f h
  | .str i s, _ => .str i s
  | .chan i a n, _ => .chan i a n n
  | .func i a, h => h.elim
  | .uptr i a, _ => .uptr i a
  | .ptr i a v, h => by
    by_cases ha : a = 0
    · subst ha; exact .nilPtr i v v
    · exact .ptr i a a v v ha ha (same_refl v h)
  | .slice i a vs, h => by
    by_cases ha : a = 0
    · subst ha; exact .nilSlice i vs vs
    · exact .slice i a a vs vs ha ha rfl fun n v w h1 h2 => by
        rw [h1] at h2; injection h2 with h2; subst h2; exact list_refl vs h n v h1
  | .array i vs, h => .array i vs vs rfl fun n v w h1 h2 => by
      rw [h1] at h2; injection h2 with h2; subst h2; exact list_refl vs h n v h1
  | .map i a es, h => by
    by_cases ha : a = 0
    · subst ha; exact .nilMap i es es
    · exact .map i a a es es ha ha (fun _ => Iff.rfl) fun k v w h1 h2 => by
        rw [h1] at h2; injection h2 with h2; subst h2; exact entries_refl es h k v h1
  | .struct i vs, h => .struct i vs vs rfl fun n v w h1 h2 => by
      rw [h1] at h2; injection h2 with h2; subst h2; exact list_refl vs h n v h1
  | .nilIface i, _ => .nilIface i
  | .iface i v, h => .iface i v v (same_refl v h)

theorem list_refl : ∀ (vs : Vs), vs.Tame → ∀ n v, vs.at n = some v → Same v v
  | .nil, _, _, _, h => by simp [Vs.at] at h
  | .cons u _, ht, 0, v, h => by
    simp only [Vs.at, Option.some.injEq] at h
    rw [← h]
    exact same_refl u ht.1
  | .cons _ vs, ht, n + 1, v, h => list_refl vs ht.2 n v h

theorem entries_refl : ∀ (es : Es), es.Tame → ∀ k v, es.find k = some v → Same v v
  | .nil, _, _, _, h => by simp [Es.find] at h
  | .cons l u es, ht, k, v, h => by
    rw [Es.find] at h
    split at h
    · injection h with h
      rw [← h]
      exact same_refl u ht.2.1
    · exact entries_refl es ht.2.2 k v h

end

theorem same_symm {x y : V} (h : Same x y) : Same y x := by
  induction h with
  | bool i b => exact .bool i b
  | int k i n => exact .int k i n
  | float d i f h => exact .float d i f h
  | str i s => exact .str i s
  | chan i a m n => exact .chan i a n m
  | func i => exact .func i
  | uptr i a => exact .uptr i a
  | nilPtr i v w => exact .nilPtr i w v
  | ptr i a b v w ha hb _ ih => exact .ptr i b a w v hb ha ih
  | nilSlice i vs ws => exact .nilSlice i ws vs
  | slice i a b vs ws ha hb hl _ ih => exact .slice i b a ws vs hb ha hl.symm fun n v w h1 h2 => ih n w v h2 h1
  | array i vs ws hl _ ih => exact .array i ws vs hl.symm fun n v w h1 h2 => ih n w v h2 h1
  | nilMap i es fs => exact .nilMap i fs es
  | map i a b es fs ha hb hk _ ih => exact .map i b a fs es hb ha (fun k => (hk k).symm) fun k v w h1 h2 => ih k w v h2 h1
  | struct i vs ws hl _ ih => exact .struct i ws vs hl.symm fun n v w h1 h2 => ih n w v h2 h1
  | nilIface i => exact .nilIface i
  | iface i v w _ ih => exact .iface i w v ih

/-- Elements in the middle of two pairs of lists. -/
theorem middle {vs ws us : Vs} (h1 : vs.length = ws.length) (h2 : ws.length = us.length)
    (ih : ∀ n v w, vs.at n = some v → ws.at n = some w → ∀ {z}, Same w z → Same v z)
    (h : ∀ n v w, ws.at n = some v → us.at n = some w → Same v w) :
    ∀ n v w, vs.at n = some v → us.at n = some w → Same v w := by
  intro n v u hv hu
  have hn : n < vs.length := (Vs.at_isSome vs n).mp (by rw [hv]; rfl)
  obtain ⟨w, hw⟩ := Option.isSome_iff_exists.mp ((Vs.at_isSome ws n).mpr (by omega))
  exact ih n v w hv hw (h n w u hw hu)

theorem Es.find_nan : ∀ es : Es, es.find (.float .nan) = none
  | .nil => rfl
  | .cons l u es => by
    rw [Es.find, if_neg (by simp [Key.eq]), Es.find_nan es]

theorem Es.find_not_nan (es : Es) (k : Key) (v : V) (h : es.find k = some v) : k ≠ .float .nan := by
  rintro rfl
  rw [Es.find_nan] at h
  cases h

theorem same_trans {x y : V} (h : Same x y) : ∀ {z}, Same y z → Same x z := by
  induction h with
  | bool i b => intro z h; exact h
  | int k i n => intro z h; exact h
  | float d i f h => intro z h; exact h
  | str i s => intro z h; exact h
  | chan i a m n =>
    intro z h
    cases h with
    | chan _ _ _ l => exact .chan i a m l
  | func i => intro z h; exact h
  | uptr i a => intro z h; exact h
  | nilPtr i v w =>
    intro z h
    cases h with
    | nilPtr _ _ u => exact .nilPtr i v u
    | ptr _ _ b _ u h0 _ _ => exact absurd rfl h0
  | ptr i a b v w ha hb _ ih =>
    intro z h
    cases h with
    | nilPtr _ _ u => exact absurd rfl hb
    | ptr _ _ c _ u _ hc h => exact .ptr i a c v u ha hc (ih h)
  | nilSlice i vs ws =>
    intro z h
    cases h with
    | nilSlice _ _ us => exact .nilSlice i vs us
    | slice _ _ _ _ _ h0 => exact absurd rfl h0
  | slice i a b vs ws ha hb hl _ ih =>
    intro z h
    cases h with
    | nilSlice _ _ us => exact absurd rfl hb
    | slice _ _ c _ us _ hc hl' h => exact .slice i a c vs us ha hc (hl.trans hl') (middle hl hl' ih h)
  | array i vs ws hl _ ih =>
    intro z h
    cases h with
    | array _ _ us hl' h => exact .array i vs us (hl.trans hl') (middle hl hl' ih h)
  | nilMap i es fs =>
    intro z h
    cases h with
    | nilMap _ _ gs => exact .nilMap i es gs
    | map _ _ _ _ _ h0 => exact absurd rfl h0
  | map i a b es fs ha hb hk _ ih =>
    intro z h
    cases h with
    | nilMap _ _ gs => exact absurd rfl hb
    | map _ _ c _ gs _ hc hk' h =>
      refine .map i a c es gs ha hc (fun k => (hk k).trans (hk' k)) ?_
      intro k v u hv hu
      have hn := Es.find_not_nan es k v hv
      have : k ∈ fs.keys := (hk k).mp ((Es.find_isSome es k hn).mp (by rw [hv]; rfl))
      obtain ⟨w, hw⟩ := Option.isSome_iff_exists.mp ((Es.find_isSome fs k hn).mpr this)
      exact ih k v w hv hw (h k w u hw hu)
  | struct i vs ws hl _ ih =>
    intro z h
    cases h with
    | struct _ _ us hl' h => exact .struct i vs us (hl.trans hl') (middle hl hl' ih h)
  | nilIface i => intro z h; exact h
  | iface i v w _ ih =>
    intro z h
    cases h with
    | iface _ _ u h => exact .iface i v u (ih h)

mutual

/-- `reflect.DeepEqual` finds out whether two values of one memory without NaN and functions are the same. -/
theorem deep_iff (H : Heap) : ∀ (x y : V), x.WF H → y.WF H → x.Tame → y.Tame → (deepEqual x y = true ↔ Same x y)
  | .bool i a, y, _, _, _, _ => by
    cases y with
    | bool j b =>
      simp only [deepEqual, Bool.and_eq_true, beq_iff_eq]
      constructor
      · rintro ⟨rfl, rfl⟩; exact .bool _ _
      · intro h; cases h; exact ⟨rfl, rfl⟩
    | _ => simp only [deepEqual]; constructor <;> intro h <;> cases h
  | .int k i a, y, _, _, _, _ => by
    cases y with
    | int l j b =>
      simp only [deepEqual, Bool.and_eq_true, beq_iff_eq]
      constructor
      · rintro ⟨⟨rfl, rfl⟩, rfl⟩; exact .int _ _ _
      · intro h; cases h; exact ⟨⟨rfl, rfl⟩, rfl⟩
    | _ => simp only [deepEqual]; constructor <;> intro h <;> cases h
  | .float k i a, y, _, _, tx, _ => by
    cases y with
    | float l j b =>
      have ht : a ≠ .nan := tx
      simp only [deepEqual, Bool.and_eq_true, beq_iff_eq, Fl.eq, decide_eq_true_eq]
      constructor
      · rintro ⟨⟨rfl, rfl⟩, _, rfl⟩; exact .float _ _ _ ht
      · intro h; cases h; exact ⟨⟨rfl, rfl⟩, ht, rfl⟩
    | _ => simp only [deepEqual]; constructor <;> intro h <;> cases h
  | .str i a, y, _, _, _, _ => by
    cases y with
    | str j b =>
      simp only [deepEqual, Bool.and_eq_true, beq_iff_eq]
      constructor
      · rintro ⟨rfl, rfl⟩; exact .str _ _
      · intro h; cases h; exact ⟨rfl, rfl⟩
    | _ => simp only [deepEqual]; constructor <;> intro h <;> cases h
  | .chan i a m, y, _, _, _, _ => by
    cases y with
    | chan j b n =>
      simp only [deepEqual, Bool.and_eq_true, beq_iff_eq]
      constructor
      · rintro ⟨rfl, rfl⟩; exact .chan _ _ _ _
      · intro h; cases h; exact ⟨rfl, rfl⟩
    | _ => simp only [deepEqual]; constructor <;> intro h <;> cases h
  | .func i a, y, _, _, tx, _ => tx.elim
  | .uptr i a, y, _, _, _, _ => by
    cases y with
    | uptr j b =>
      simp only [deepEqual, Bool.and_eq_true, beq_iff_eq]
      constructor
      · rintro ⟨rfl, rfl⟩; exact .uptr _ _
      · intro h; cases h; exact ⟨rfl, rfl⟩
    | _ => simp only [deepEqual]; constructor <;> intro h <;> cases h
  | .ptr i a v, y, hx, hy, tx, ty => by
    cases y with
    | ptr j b w =>
      have ih := deep_iff H v w hx.2 hy.2 tx ty
      simp only [deepEqual, Bool.and_eq_true, Bool.or_eq_true, beq_iff_eq, bne_iff_ne]
      rw [ih]
      constructor
      · rintro ⟨rfl, rfl | ⟨⟨ha, hb⟩, h⟩⟩
        · by_cases ha : a = 0
          · subst ha; exact .nilPtr _ _ _
          · have e : v = w := (hx.1 ha).symm.trans (hy.1 ha)
            rw [e]
            exact .ptr _ _ _ _ _ ha ha (same_refl w ty)
        · exact .ptr _ _ _ _ _ ha hb h
      · intro h
        cases h with
        | nilPtr => exact ⟨rfl, Or.inl rfl⟩
        | ptr _ _ _ _ _ ha hb h => exact ⟨rfl, Or.inr ⟨⟨ha, hb⟩, h⟩⟩
    | _ => simp only [deepEqual]; constructor <;> intro h <;> cases h
  | .slice i a vs, y, hx, hy, tx, ty => by
    cases y with
    | slice j b ws =>
      have ih := list_iff H vs ws hx.2.1 hy.2.1 tx ty
      simp only [deepEqual, Bool.and_eq_true, Bool.or_eq_true, beq_iff_eq]
      rw [ih]
      constructor
      · rintro ⟨⟨rfl, h0⟩, h⟩
        by_cases ha : a = 0
        · subst ha
          have hb : b = 0 := by simpa using h0.symm
          subst hb
          exact .nilSlice _ _ _
        · have hb : b ≠ 0 := by
            rintro rfl
            simp [ha] at h0
          rcases h with h | ⟨hl, h⟩
          · exact absurd h ha
          · rcases h with rfl | ⟨_, h⟩
            · have e : vs = ws := by
                have e1 := hx.1 ha
                have e2 := hy.1 hb
                rw [hl] at e1
                exact e1.symm.trans e2
              rw [e]
              refine .slice _ _ _ _ _ ha hb rfl ?_
              intro n v w h1 h2
              rw [h1] at h2
              injection h2 with h2
              subst h2
              exact list_refl ws ty n v h1
            · exact .slice _ _ _ _ _ ha hb hl h
      · intro h
        cases h with
        | nilSlice => exact ⟨⟨rfl, rfl⟩, Or.inl rfl⟩
        | slice _ _ _ _ _ ha hb hl h =>
          exact ⟨⟨rfl, by simp [ha, hb]⟩, Or.inr ⟨hl, Or.inr ⟨hl, h⟩⟩⟩
    | _ => simp only [deepEqual]; constructor <;> intro h <;> cases h
  | .array i vs, y, hx, hy, tx, ty => by
    cases y with
    | array j ws =>
      have ih := list_iff H vs ws hx hy tx ty
      simp only [deepEqual, Bool.and_eq_true, beq_iff_eq]
      rw [ih]
      constructor
      · rintro ⟨rfl, hl, h⟩; exact .array _ _ _ hl h
      · intro h
        cases h with
        | array _ _ _ hl h => exact ⟨rfl, hl, h⟩
    | _ => simp only [deepEqual]; constructor <;> intro h <;> cases h
  | .map i a es, y, hx, hy, tx, ty => by
    cases y with
    | map j b fs =>
      have ih := entries_iff H es fs hx.2.1 hy.2.1 tx ty hx.2.2
      simp only [deepEqual, Bool.and_eq_true, Bool.or_eq_true, beq_iff_eq]
      rw [ih]
      constructor
      · rintro ⟨⟨rfl, h0⟩, h⟩
        by_cases ha : a = 0
        · subst ha
          have hb : b = 0 := by simpa using h0.symm
          subst hb
          exact .nilMap _ _ _
        · have hb : b ≠ 0 := by
            rintro rfl
            simp [ha] at h0
          rcases h with h | ⟨hl, h⟩
          · exact absurd h ha
          · rcases h with rfl | h
            · have e : es = fs := (hx.1 ha).symm.trans (hy.1 hb)
              rw [e]
              refine .map _ _ _ _ _ ha hb (fun _ => Iff.rfl) ?_
              intro k v w h1 h2
              rw [h1] at h2
              injection h2 with h2
              subst h2
              exact entries_refl fs ty k v h1
            · have hsub : es.keys ⊆ fs.keys := by
                intro k hk
                have hn := Es.key_tame es tx k hk
                obtain ⟨v, hv⟩ := Option.isSome_iff_exists.mp ((Es.find_isSome es k hn).mpr hk)
                obtain ⟨w, hw, _⟩ := h k v hv
                exact (Es.find_isSome fs k hn).mp (by rw [hw]; rfl)
              have hperm := (List.subperm_of_subset hx.2.2 hsub).perm_of_length_le (by
                rw [Es.keys_length, Es.keys_length]; omega)
              refine .map _ _ _ _ _ ha hb (fun k => hperm.mem_iff) ?_
              intro k v w hv hw
              obtain ⟨w', hw', hs⟩ := h k v hv
              rw [hw] at hw'
              injection hw' with e
              subst e
              exact hs
      · intro h
        cases h with
        | nilMap => exact ⟨⟨rfl, rfl⟩, Or.inl rfl⟩
        | map _ _ _ _ _ ha hb hk h =>
          refine ⟨⟨rfl, by simp [ha, hb]⟩, Or.inr ⟨?_, Or.inr ?_⟩⟩
          · have : es.keys.Perm fs.keys := by
              rw [List.perm_ext_iff_of_nodup hx.2.2 hy.2.2]
              exact hk
            have := this.length_eq
            rwa [Es.keys_length, Es.keys_length] at this
          · intro k v hv
            have hn := Es.find_not_nan es k v hv
            have : k ∈ fs.keys := (hk k).mp ((Es.find_isSome es k hn).mp (by rw [hv]; rfl))
            obtain ⟨w, hw⟩ := Option.isSome_iff_exists.mp ((Es.find_isSome fs k hn).mpr this)
            exact ⟨w, hw, h k v w hv hw⟩
    | _ => simp only [deepEqual]; constructor <;> intro h <;> cases h
  | .struct i vs, y, hx, hy, tx, ty => by
    cases y with
    | struct j ws =>
      have ih := list_iff H vs ws hx hy tx ty
      simp only [deepEqual, Bool.and_eq_true, beq_iff_eq]
      rw [ih]
      constructor
      · rintro ⟨rfl, hl, h⟩; exact .struct _ _ _ hl h
      · intro h
        cases h with
        | struct _ _ _ hl h => exact ⟨rfl, hl, h⟩
    | _ => simp only [deepEqual]; constructor <;> intro h <;> cases h
  | .nilIface i, y, _, _, _, _ => by
    cases y with
    | nilIface j =>
      simp only [deepEqual, beq_iff_eq]
      constructor
      · rintro rfl; exact .nilIface _
      · intro h; cases h; rfl
    | _ => simp only [deepEqual]; constructor <;> intro h <;> cases h
  | .iface i v, y, hx, hy, tx, ty => by
    cases y with
    | iface j w =>
      have ih := deep_iff H v w hx hy tx ty
      simp only [deepEqual, Bool.and_eq_true, beq_iff_eq]
      rw [ih]
      constructor
      · rintro ⟨rfl, h⟩; exact .iface _ _ _ h
      · intro h
        cases h with
        | iface _ _ _ h => exact ⟨rfl, h⟩
    | _ => simp only [deepEqual]; constructor <;> intro h <;> cases h

theorem list_iff (H : Heap) : ∀ (x y : Vs), x.WF H → y.WF H → x.Tame → y.Tame → (deepList x y = true ↔
    x.length = y.length ∧ ∀ n u v, x.at n = some u → y.at n = some v → Same u v)
  | .nil, .nil, _, _, _, _ => by simp [deepList, Vs.length, Vs.at]
  | .nil, .cons v y, _, _, _, _ => by simp [deepList, Vs.length]
  | .cons u x, .nil, _, _, _, _ => by simp [deepList, Vs.length]
  | .cons u x, .cons v y, hx, hy, tx, ty => by
    simp only [deepList, Bool.and_eq_true, Vs.length, Nat.add_right_cancel_iff]
    rw [deep_iff H u v hx.1 hy.1 tx.1 ty.1, list_iff H x y hx.2 hy.2 tx.2 ty.2]
    constructor
    · rintro ⟨h1, h2, h3⟩
      refine ⟨h2, ?_⟩
      intro i a b ha hb
      cases i with
      | zero =>
        simp only [Vs.at] at ha hb
        injection ha with ha; injection hb with hb; subst ha; subst hb; exact h1
      | succ i => exact h3 i a b ha hb
    · rintro ⟨h1, h2⟩
      exact ⟨h2 0 u v rfl rfl, h1, fun i => h2 (i + 1)⟩

theorem entries_iff (H : Heap) : ∀ (x y : Es), x.WF H → y.WF H → x.Tame → y.Tame → x.keys.Nodup → (deepEntries x y = true ↔
    ∀ k u, x.find k = some u → ∃ v, y.find k = some v ∧ Same u v)
  | .nil, y, _, _, _, _, _ => by simp [deepEntries, Es.find]
  | .cons k u x, y, hx, hy, tx, ty, hn => by
    have hkk : Key.eq k k = true := (Key.eq_iff k k tx.1).mpr rfl
    simp only [deepEntries, Bool.and_eq_true]
    rw [entries_iff H x y hx.2 hy tx.2.2 ty (List.nodup_cons.mp hn).2]
    constructor
    · rintro ⟨⟨_, h1⟩, h2⟩ k' u' h
      rw [Es.find] at h
      split at h
      · rename_i hk
        have hk' : k' ≠ .float .nan := by
          rintro rfl
          simp [Key.eq] at hk
        have e := (Key.eq_iff k' k hk').mp hk
        subst e
        injection h with h
        subst h
        cases hg : y.find k' with
        | none => rw [hg] at h1; cases h1
        | some v =>
          rw [hg] at h1
          exact ⟨v, rfl, (deep_iff H u v hx.1 (Es.find_wf H y hy k' v hg) tx.2.1 (Es.find_tame y ty k' v hg)).mp h1⟩
      · exact h2 k' u' h
    · intro h
      refine ⟨⟨hkk, ?_⟩, ?_⟩
      · obtain ⟨v, hv, hs⟩ := h k u (by rw [Es.find, if_pos hkk])
        rw [hv]
        exact (deep_iff H u v hx.1 (Es.find_wf H y hy k v hv) tx.2.1 (Es.find_tame y ty k v hv)).mpr hs
      · intro k' u' h'
        refine h k' u' ?_
        have hk' := Es.find_not_nan x k' u' h'
        rw [Es.find, if_neg]
        · exact h'
        · intro e
          have e := (Key.eq_iff k' k hk').mp e
          subst e
          exact (List.nodup_cons.mp hn).1 ((Es.find_isSome x k' hk').mp (by rw [h']; rfl))

end

end Verif.Assert
