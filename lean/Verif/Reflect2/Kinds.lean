import Verif.Basic

/-!
# C132: what the interfaces of a `Type` tell about it

Model of `wrapType`, reflect2/reflect2.go 163-205, with the method sets of the types it makes.  A type assertion such as
`typ.(StructType)` succeeds exactly if the method set has every method of the interface.
-/

namespace Verif.Reflect2.Kinds

/-! ### Model: methods -/

/-- The methods of a type or an interface by name, with the types of parameters and results, reflect2/reflect2.go 9-117.  Those found
through an embedded type come last, so that looking up a name gives the one declared closest. -/
abbrev Methods := List (String × String)

/-- The exported methods of `reflect.Type`, embedded in reflect2/safe_type.go 8-11. -/
def reflectType : Methods :=
  [("Align", "() int"),
   ("FieldAlign", "() int"),
   ("Method", "(int) reflect.Method"),
   ("MethodByName", "(string) reflect.Method, bool"),
   ("NumMethod", "() int"),
   ("Name", "() string"),
   ("PkgPath", "() string"),
   ("Size", "() uintptr"),
   ("String", "() string"),
   ("Kind", "() reflect.Kind"),
   ("Implements", "(reflect.Type) bool"),
   ("AssignableTo", "(reflect.Type) bool"),
   ("ConvertibleTo", "(reflect.Type) bool"),
   ("Comparable", "() bool"),
   ("Bits", "() int"),
   ("ChanDir", "() reflect.ChanDir"),
   ("IsVariadic", "() bool"),
   ("Elem", "() reflect.Type"),
   ("Field", "(int) reflect.StructField"),
   ("FieldByIndex", "([]int) reflect.StructField"),
   ("FieldByName", "(string) reflect.StructField, bool"),
   ("FieldByNameFunc", "(func(string) bool) reflect.StructField, bool"),
   ("In", "(int) reflect.Type"),
   ("Key", "() reflect.Type"),
   ("Len", "() int"),
   ("NumField", "() int"),
   ("NumIn", "() int"),
   ("NumOut", "() int"),
   ("Out", "(int) reflect.Type")]

/-- `safeType`, reflect2/safe_type.go 8-11 with methods at 13, 17, 21, 25, 29, 33, 37, 41, 45, 49, 53, 57, 64, 68, 72, 76. -/
def safeType : Methods :=
  [("New", "() interface{}"),
   ("UnsafeNew", "() unsafe.Pointer"),
   ("Elem", "() Type"),
   ("Type1", "() reflect.Type"),
   ("PackEFace", "(unsafe.Pointer) interface{}"),
   ("Implements", "(Type) bool"),
   ("RType", "() uintptr"),
   ("Indirect", "(interface{}) interface{}"),
   ("UnsafeIndirect", "(unsafe.Pointer) interface{}"),
   ("LikePtr", "() bool"),
   ("IsNullable", "() bool"),
   ("IsNil", "(interface{}) bool"),
   ("UnsafeIsNil", "(unsafe.Pointer) bool"),
   ("Set", "(interface{}, interface{})"),
   ("UnsafeSet", "(unsafe.Pointer, unsafe.Pointer)"),
   ("AssignableTo", "(Type) bool")] ++ reflectType

/-- `safeStructType`, reflect2/safe_struct.go 3-5 with methods at 7. -/
def safeStructType : Methods :=
  [("FieldByName", "(string) StructField")] ++ safeType

/-- `safeSliceType`, reflect2/safe_slice.go 8-10 with methods at 12, 18, 22, 30, 34, 41, 45, 54, 58, 65, 69, 74, 78, 82, 86, 90. -/
def safeSliceType : Methods :=
  [("SetIndex", "(interface{}, int, interface{})"),
   ("UnsafeSetIndex", "(unsafe.Pointer, int, unsafe.Pointer)"),
   ("GetIndex", "(interface{}, int) interface{}"),
   ("UnsafeGetIndex", "(unsafe.Pointer, int) unsafe.Pointer"),
   ("MakeSlice", "(int, int) interface{}"),
   ("UnsafeMakeSlice", "(int, int) unsafe.Pointer"),
   ("Grow", "(interface{}, int)"),
   ("UnsafeGrow", "(unsafe.Pointer, int)"),
   ("Append", "(interface{}, interface{})"),
   ("UnsafeAppend", "(unsafe.Pointer, unsafe.Pointer)"),
   ("SetNil", "(interface{})"),
   ("UnsafeSetNil", "(unsafe.Pointer)"),
   ("LengthOf", "(interface{}) int"),
   ("UnsafeLengthOf", "(unsafe.Pointer) int"),
   ("Cap", "(interface{}) int"),
   ("UnsafeCap", "(unsafe.Pointer) int")] ++ safeType

/-- `safeMapType`, reflect2/safe_map.go 8-10 with methods at 12, 16, 22, 26, 33, 37, 49, 62, 66, 74. -/
def safeMapType : Methods :=
  [("Key", "() Type"),
   ("MakeMap", "(int) interface{}"),
   ("UnsafeMakeMap", "(int) unsafe.Pointer"),
   ("SetIndex", "(interface{}, interface{}, interface{})"),
   ("UnsafeSetIndex", "(unsafe.Pointer, unsafe.Pointer, unsafe.Pointer)"),
   ("TryGetIndex", "(interface{}, interface{}) interface{}, bool"),
   ("GetIndex", "(interface{}, interface{}) interface{}"),
   ("UnsafeGetIndex", "(unsafe.Pointer, unsafe.Pointer) unsafe.Pointer"),
   ("Iterate", "(interface{}) MapIterator"),
   ("UnsafeIterate", "(unsafe.Pointer) MapIterator")] ++ safeType

/-- `unsafeType`, reflect2/unsafe_type.go 8-12 with methods at 25, 33, 37, 43, 47, 51, 55, 59, 63, 69, 73. -/
def unsafeType : Methods :=
  [("Set", "(interface{}, interface{})"),
   ("UnsafeSet", "(unsafe.Pointer, unsafe.Pointer)"),
   ("IsNil", "(interface{}) bool"),
   ("UnsafeIsNil", "(unsafe.Pointer) bool"),
   ("UnsafeNew", "() unsafe.Pointer"),
   ("New", "() interface{}"),
   ("PackEFace", "(unsafe.Pointer) interface{}"),
   ("RType", "() uintptr"),
   ("Indirect", "(interface{}) interface{}"),
   ("UnsafeIndirect", "(unsafe.Pointer) interface{}"),
   ("LikePtr", "() bool")] ++ safeType

/-- `UnsafeStructType`, reflect2/unsafe_struct.go 8-11 with methods at 20, 24, 30, 37, 45, 49, 53. -/
def unsafeStructType : Methods :=
  [("LikePtr", "() bool"),
   ("Indirect", "(interface{}) interface{}"),
   ("UnsafeIndirect", "(unsafe.Pointer) interface{}"),
   ("FieldByName", "(string) StructField"),
   ("Field", "(int) StructField"),
   ("FieldByIndex", "([]int) StructField"),
   ("FieldByNameFunc", "(func(string) bool) StructField")] ++ unsafeType

/-- `UnsafeArrayType`, reflect2/unsafe_array.go 8-14 with methods at 26, 30, 36, 43, 51, 56, 63. -/
def unsafeArrayType : Methods :=
  [("LikePtr", "() bool"),
   ("Indirect", "(interface{}) interface{}"),
   ("UnsafeIndirect", "(unsafe.Pointer) interface{}"),
   ("SetIndex", "(interface{}, int, interface{})"),
   ("UnsafeSetIndex", "(unsafe.Pointer, int, unsafe.Pointer)"),
   ("GetIndex", "(interface{}, int) interface{}"),
   ("UnsafeGetIndex", "(unsafe.Pointer, int) unsafe.Pointer")] ++ unsafeType

/-- `UnsafeSliceType`, reflect2/unsafe_slice.go 15-20 with methods at 32, 40, 44, 53, 60, 66, 73, 77, 82, 88, 93, 101, 107, 114, 119, 127, 134, 140, 144, 150. -/
def unsafeSliceType : Methods :=
  [("Set", "(interface{}, interface{})"),
   ("UnsafeSet", "(unsafe.Pointer, unsafe.Pointer)"),
   ("IsNil", "(interface{}) bool"),
   ("UnsafeIsNil", "(unsafe.Pointer) bool"),
   ("SetNil", "(interface{})"),
   ("UnsafeSetNil", "(unsafe.Pointer)"),
   ("MakeSlice", "(int, int) interface{}"),
   ("UnsafeMakeSlice", "(int, int) unsafe.Pointer"),
   ("LengthOf", "(interface{}) int"),
   ("UnsafeLengthOf", "(unsafe.Pointer) int"),
   ("SetIndex", "(interface{}, int, interface{})"),
   ("UnsafeSetIndex", "(unsafe.Pointer, int, unsafe.Pointer)"),
   ("GetIndex", "(interface{}, int) interface{}"),
   ("UnsafeGetIndex", "(unsafe.Pointer, int) unsafe.Pointer"),
   ("Append", "(interface{}, interface{})"),
   ("UnsafeAppend", "(unsafe.Pointer, unsafe.Pointer)"),
   ("Cap", "(interface{}) int"),
   ("UnsafeCap", "(unsafe.Pointer) int"),
   ("Grow", "(interface{}, int)"),
   ("UnsafeGrow", "(unsafe.Pointer, int)")] ++ unsafeType

/-- `UnsafeMapType`, reflect2/unsafe_map.go 8-12 with methods at 22, 31, 38, 42, 48, 52, 56, 60, 65, 75, 79, 91, 100, 104, 110. -/
def unsafeMapType : Methods :=
  [("IsNil", "(interface{}) bool"),
   ("UnsafeIsNil", "(unsafe.Pointer) bool"),
   ("LikePtr", "() bool"),
   ("Indirect", "(interface{}) interface{}"),
   ("UnsafeIndirect", "(unsafe.Pointer) interface{}"),
   ("Key", "() Type"),
   ("MakeMap", "(int) interface{}"),
   ("UnsafeMakeMap", "(int) unsafe.Pointer"),
   ("SetIndex", "(interface{}, interface{}, interface{})"),
   ("UnsafeSetIndex", "(unsafe.Pointer, unsafe.Pointer, unsafe.Pointer)"),
   ("TryGetIndex", "(interface{}, interface{}) interface{}, bool"),
   ("GetIndex", "(interface{}, interface{}) interface{}"),
   ("UnsafeGetIndex", "(unsafe.Pointer, unsafe.Pointer) unsafe.Pointer"),
   ("Iterate", "(interface{}) MapIterator"),
   ("UnsafeIterate", "(unsafe.Pointer) MapIterator")] ++ unsafeType

/-- `UnsafePtrType`, reflect2/unsafe_ptr.go 8-10 with methods at 18, 27, 34, 38, 44. -/
def unsafePtrType : Methods :=
  [("IsNil", "(interface{}) bool"),
   ("UnsafeIsNil", "(unsafe.Pointer) bool"),
   ("LikePtr", "() bool"),
   ("Indirect", "(interface{}) interface{}"),
   ("UnsafeIndirect", "(unsafe.Pointer) interface{}")] ++ unsafeType

/-- `UnsafeEFaceType`, reflect2/unsafe_eface.go 25-27 with methods at 35, 44, 51, 57. -/
def unsafeEFaceType : Methods :=
  [("IsNil", "(interface{}) bool"),
   ("UnsafeIsNil", "(unsafe.Pointer) bool"),
   ("Indirect", "(interface{}) interface{}"),
   ("UnsafeIndirect", "(unsafe.Pointer) interface{}")] ++ unsafeType

/-- `UnsafeIFaceType`, reflect2/unsafe_iface.go 26-28 with methods at 36, 42, 46, 55. -/
def unsafeIFaceType : Methods :=
  [("Indirect", "(interface{}) interface{}"),
   ("UnsafeIndirect", "(unsafe.Pointer) interface{}"),
   ("IsNil", "(interface{}) bool"),
   ("UnsafeIsNil", "(unsafe.Pointer) bool")] ++ unsafeType

/-- The interface `Type`, reflect2/reflect2.go 9-34. -/
def iType : Methods :=
  [("Kind", "() reflect.Kind"),
   ("New", "() interface{}"),
   ("UnsafeNew", "() unsafe.Pointer"),
   ("PackEFace", "(unsafe.Pointer) interface{}"),
   ("Indirect", "(interface{}) interface{}"),
   ("UnsafeIndirect", "(unsafe.Pointer) interface{}"),
   ("Type1", "() reflect.Type"),
   ("Implements", "(Type) bool"),
   ("String", "() string"),
   ("RType", "() uintptr"),
   ("LikePtr", "() bool"),
   ("IsNullable", "() bool"),
   ("IsNil", "(interface{}) bool"),
   ("UnsafeIsNil", "(unsafe.Pointer) bool"),
   ("Set", "(interface{}, interface{})"),
   ("UnsafeSet", "(unsafe.Pointer, unsafe.Pointer)"),
   ("AssignableTo", "(Type) bool")]

/-- The interface `ListType`, reflect2/reflect2.go 36-43. -/
def iListType : Methods :=
  [("Elem", "() Type"),
   ("SetIndex", "(interface{}, int, interface{})"),
   ("UnsafeSetIndex", "(unsafe.Pointer, int, unsafe.Pointer)"),
   ("GetIndex", "(interface{}, int) interface{}"),
   ("UnsafeGetIndex", "(unsafe.Pointer, int) unsafe.Pointer")] ++ iType

/-- The interface `ArrayType`, reflect2/reflect2.go 45-48. -/
def iArrayType : Methods :=
  [("Len", "() int")] ++ iListType

/-- The interface `SliceType`, reflect2/reflect2.go 50-64. -/
def iSliceType : Methods :=
  [("MakeSlice", "(int, int) interface{}"),
   ("UnsafeMakeSlice", "(int, int) unsafe.Pointer"),
   ("Grow", "(interface{}, int)"),
   ("UnsafeGrow", "(unsafe.Pointer, int)"),
   ("Append", "(interface{}, interface{})"),
   ("UnsafeAppend", "(unsafe.Pointer, unsafe.Pointer)"),
   ("LengthOf", "(interface{}) int"),
   ("UnsafeLengthOf", "(unsafe.Pointer) int"),
   ("SetNil", "(interface{})"),
   ("UnsafeSetNil", "(unsafe.Pointer)"),
   ("Cap", "(interface{}) int"),
   ("UnsafeCap", "(unsafe.Pointer) int")] ++ iListType

/-- The interface `StructType`, reflect2/reflect2.go 66-73. -/
def iStructType : Methods :=
  [("NumField", "() int"),
   ("Field", "(int) StructField"),
   ("FieldByName", "(string) StructField"),
   ("FieldByIndex", "([]int) StructField"),
   ("FieldByNameFunc", "(func(string) bool) StructField")] ++ iType

/-- The interface `MapType`, reflect2/reflect2.go 89-102. -/
def iMapType : Methods :=
  [("Key", "() Type"),
   ("Elem", "() Type"),
   ("MakeMap", "(int) interface{}"),
   ("UnsafeMakeMap", "(int) unsafe.Pointer"),
   ("SetIndex", "(interface{}, interface{}, interface{})"),
   ("UnsafeSetIndex", "(unsafe.Pointer, unsafe.Pointer, unsafe.Pointer)"),
   ("TryGetIndex", "(interface{}, interface{}) interface{}, bool"),
   ("GetIndex", "(interface{}, interface{}) interface{}"),
   ("UnsafeGetIndex", "(unsafe.Pointer, unsafe.Pointer) unsafe.Pointer"),
   ("Iterate", "(interface{}) MapIterator"),
   ("UnsafeIterate", "(unsafe.Pointer) MapIterator")] ++ iType

/-- The interface `PtrType`, reflect2/reflect2.go 110-113. -/
def iPtrType : Methods :=
  [("Elem", "() Type")] ++ iType

/-- The interface `InterfaceType`, reflect2/reflect2.go 115-117. -/
def iInterfaceType : Methods :=
  [("NumMethod", "() int")]

/-! ### Model: `wrapType` -/

/-- The kind of a type, as far as reflect2/reflect2.go 165-204 tells them apart; interfaces by whether they have methods, all others are `plain`. -/
inductive Kind
  | struct | array | slice | map | ptr | chan | func
  | iface (hasMethods : Bool)
  | plain
  deriving DecidableEq

/-- The methods of what `wrapType` makes, reflect2/reflect2.go 163-205. -/
def wrapType (useSafeImplementation : Bool) : Kind → Methods
  | .struct => if useSafeImplementation then safeStructType else unsafeStructType
  | .array => if useSafeImplementation then safeSliceType else unsafeArrayType
  | .slice => if useSafeImplementation then safeSliceType else unsafeSliceType
  | .map => if useSafeImplementation then safeMapType else unsafeMapType
  | .ptr => if useSafeImplementation then safeMapType else unsafePtrType
  | .chan => if useSafeImplementation then safeMapType else unsafePtrType
  | .func => if useSafeImplementation then safeMapType else unsafePtrType
  | .iface hasMethods => if useSafeImplementation then safeMapType else if !hasMethods then unsafeEFaceType else unsafeIFaceType
  | .plain => if useSafeImplementation then safeType else unsafeType

/-- A type assertion: every method of the interface is in the method set, with its types (used with reflect2/reflect2.go 36-117). -/
def asserts (methods interface_ : Methods) : Bool := interface_.all fun m => methods.lookup m.1 == some m.2

/-! ### Specification -/

/-- An interface that tells a kind: the assertion succeeds exactly for types of that kind. -/
def Tells (safe : Bool) (i : Methods) (K : Kind → Prop) : Prop := ∀ k, asserts (wrapType safe k) i = true ↔ K k

/-! ### Proofs -/

/-- All kinds. -/
theorem kind_cases {P : Kind → Prop} (h : ∀ k ∈ [Kind.struct, .array, .slice, .map, .ptr, .chan, .func, .iface true, .iface false, .plain], P k) : ∀ k, P k := by
  intro k
  cases k with
  | iface b => cases b <;> exact h _ (by decide)
  | _ => exact h _ (by decide)

/-- C132: what is made for any type is a `Type`. -/
theorem is_type (safe : Bool) (k : Kind) : asserts (wrapType safe k) iType = true := by
  revert k
  refine kind_cases ?_
  cases safe <;> decide +kernel

/-- C132, part: with the unsafe configuration `StructType`, `SliceType` and `MapType` tell their kind.  Missing: arrays, pointers and
interfaces (`slice_is_array`, `all_ptr`, `all_interface`) and the safe configuration (`safe_struct`, `safe_map`, `safe_slice`). -/
theorem unsafe_tells_partial : Tells false iStructType (· = .struct) ∧ Tells false iSliceType (· = .slice) ∧ Tells false iMapType (· = .map) := by
  refine ⟨?_, ?_, ?_⟩ <;> exact kind_cases (by decide +kernel)

/-! ### Disagreements -/

/-- C132 fails: a slice type is an `ArrayType` too, as it has `Len` from `reflect.Type`. -/
theorem slice_is_array : Tells false iArrayType (fun k => k = .array ∨ k = .slice) := kind_cases (by decide +kernel)

/-- C132 fails: every type is a `PtrType`. -/
theorem all_ptr (safe : Bool) : Tells safe iPtrType (fun _ => True) := by
  refine kind_cases ?_
  cases safe <;> decide +kernel

/-- C132 fails: every type is an `InterfaceType`. -/
theorem all_interface (safe : Bool) : Tells safe iInterfaceType (fun _ => True) := by
  refine kind_cases ?_
  cases safe <;> decide +kernel

/-- C132 fails: with the safe configuration no type is a `StructType`; the methods for fields have the types of package reflect. -/
theorem safe_struct : Tells true iStructType (fun _ => False) ∧ safeStructType.lookup "Field" = some "(int) reflect.StructField" :=
  ⟨kind_cases (by decide +kernel), by decide +kernel⟩

/-- C132 fails: with the safe configuration pointers, channels, functions and interfaces are a `MapType`. -/
theorem safe_map : Tells true iMapType (fun k => k = .map ∨ k = .ptr ∨ k = .chan ∨ k = .func ∨ k = .iface true ∨ k = .iface false) :=
  kind_cases (by decide +kernel)

/-- C132 fails: with the safe configuration arrays are a `SliceType`, and slices an `ArrayType`. -/
theorem safe_slice : Tells true iSliceType (fun k => k = .array ∨ k = .slice) ∧ Tells true iArrayType (fun k => k = .array ∨ k = .slice) :=
  ⟨kind_cases (by decide +kernel), kind_cases (by decide +kernel)⟩

/-- The two configurations differ: code that asserts `StructType` works with one of them only. -/
theorem configurations_differ : asserts (wrapType false .struct) iStructType = true ∧ asserts (wrapType true .struct) iStructType = false := by
  decide +kernel

example : Tells false iStructType (· = .struct) ∧ asserts (wrapType false .struct) iStructType = true ∧
    asserts (wrapType false .map) iStructType = false := ⟨unsafe_tells_partial.1, by decide +kernel, by decide +kernel⟩

end Verif.Reflect2.Kinds
