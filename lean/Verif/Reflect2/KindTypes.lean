import Verif.Basic

/-!
# C143: types of kinds

Model of `DefaultTypeOfKind` (reflect2/reflect2_kind.go) and `IsNullable` (reflect2/reflect2.go).
-/

namespace Verif.Reflect2.KindTypes

/-! ### Model -/

/-- `reflect.Kind`, as used at reflect2/reflect2_kind.go:9 and reflect2/reflect2.go:238. Numbers that are no kind are `other`. -/
inductive Kind where
  | invalid | bool | int | int8 | int16 | int32 | int64 | uint | uint8 | uint16 | uint32 | uint64 | uintptr
  | float32 | float64 | complex64 | complex128 | array | chan | func | interface | map | ptr | slice | string | struct | unsafePointer
  | other (n : Nat)
  deriving DecidableEq

/-- The types without parts, by name: those of the expressions at reflect2/reflect2_kind.go:14-29, those declared by a program, and the two complex types. -/
inductive Basic where
  | bool | int | int8 | int16 | int32 | int64 | uint | uint8 | uint16 | uint32 | uint64 | uintptr
  | float32 | float64 | complex64 | complex128 | string | unsafePointer
  deriving DecidableEq

/-- Types, as far as their kind goes: a basic type, or a type declared by the program with a kind (used for reflect2/reflect2_kind.go:8). -/
inductive Ty where
  | basic (b : Basic)
  | declared (name : String) (k : Kind)
  | made (k : Kind)
  deriving DecidableEq

/-- `kindTypes`, reflect2/reflect2_kind.go:13-30. -/
def kindTypes : List (Kind × Ty) :=
  [(.bool, .basic .bool), (.uint8, .basic .uint8), (.int8, .basic .int8), (.uint16, .basic .uint16), (.int16, .basic .int16),
   (.uint32, .basic .uint32), (.int32, .basic .int32), (.uint64, .basic .uint64), (.int64, .basic .int64), (.uint, .basic .uint), (.int, .basic .int),
   (.float32, .basic .float32), (.float64, .basic .float64), (.uintptr, .basic .uintptr), (.string, .basic .string),
   (.unsafePointer, .basic .unsafePointer)]

/-- `DefaultTypeOfKind`, reflect2/reflect2_kind.go:9-11; `none` is nil. -/
def defaultTypeOfKind (k : Kind) : Option Ty := kindTypes.lookup k

/-- `IsNullable`, reflect2/reflect2.go:238-244. -/
def isNullable : Kind → Bool
  | .ptr | .map | .chan | .func | .slice | .interface => true
  | _ => false

/-! ### Specification -/

/-- The kind of a basic type. -/
def Basic.kind : Basic → Kind
  | .bool => .bool | .int => .int | .int8 => .int8 | .int16 => .int16 | .int32 => .int32 | .int64 => .int64
  | .uint => .uint | .uint8 => .uint8 | .uint16 => .uint16 | .uint32 => .uint32 | .uint64 => .uint64 | .uintptr => .uintptr
  | .float32 => .float32 | .float64 => .float64 | .complex64 => .complex64 | .complex128 => .complex128
  | .string => .string | .unsafePointer => .unsafePointer

/-- The kind of a type. -/
def Ty.kind : Ty → Kind
  | .basic b => b.kind
  | .declared _ k => k
  | .made k => k

/-- Kinds whose types have nil, by the language: pointers, functions, slices, maps, channels and interfaces, and `unsafe.Pointer`, which is a pointer. -/
def HasNil (k : Kind) : Prop := k ∈ [Kind.ptr, .func, .slice, .map, .chan, .interface, .unsafePointer]

/-! ### Proofs -/

/-- C143 (partly): what `DefaultTypeOfKind` gives is the basic type of that kind.  Missing: the complex types, see `complex_missing`. -/
theorem default_partial (k : Kind) (t : Ty) : defaultTypeOfKind k = some t ↔ ∃ b, t = .basic b ∧ b.kind = k ∧ b ≠ .complex64 ∧ b ≠ .complex128 := by
  constructor
  · intro h
    cases k <;> first | (injection h with h; subst h; exact ⟨_, rfl, rfl, by decide, by decide⟩) | cases h
  · rintro ⟨b, rfl, rfl, h1, h2⟩
    cases b <;> first | rfl | exact absurd rfl h1 | exact absurd rfl h2

/-- There is one for no kind of composite types. -/
theorem default_none (k : Kind) (h : ∀ b, Basic.kind b ≠ k) : defaultTypeOfKind k = none := by
  cases hd : defaultTypeOfKind k with
  | none => rfl
  | some t =>
    obtain ⟨b, _, hb, _⟩ := (default_partial k t).mp hd
    exact absurd hb (h b)

/-- C143 (partly): a kind said to be nullable is one whose types have nil, and the others are not but for `unsafe.Pointer`, see `unsafePointer_nullable`. -/
theorem nullable_partial (k : Kind) (h : k ≠ .unsafePointer) : isNullable k = true ↔ HasNil k := by
  cases k <;> first | exact absurd rfl h | simp [isNullable, HasNil]

/-! ### What is not so -/

/-- The full statement of C143 is false: the complex kinds have default types, and nil is given. -/
theorem complex_missing : defaultTypeOfKind .complex64 = none ∧ defaultTypeOfKind .complex128 = none ∧ Basic.kind .complex64 = .complex64 ∧
    Basic.kind .complex128 = .complex128 := ⟨rfl, rfl, rfl, rfl⟩

/-- The full statement of C143 is false: an `unsafe.Pointer` may be nil. -/
theorem unsafePointer_nullable : isNullable .unsafePointer = false ∧ HasNil .unsafePointer := by
  refine ⟨rfl, ?_⟩
  simp [HasNil]

/-! ### Cases -/

example : defaultTypeOfKind .int16 = some (.basic .int16) ∧ (Ty.declared "myInt16" .int16).kind = .int16 ∧
    defaultTypeOfKind .slice = none ∧ isNullable .slice = true := ⟨rfl, rfl, rfl, rfl⟩

end Verif.Reflect2.KindTypes
