import Verif.Basic

/-!
# C80 to C83: values, fields and elements through reflect2

Model of the unsafe implementation of reflect2 other than slices and maps: interface values (`eface`), `Indirect`, `IsNil`,
struct fields and array elements.  Memory is a function from addresses to words.  Simplification: every scalar, pointer and header field
takes one word and addresses count words, so there is no padding; recursive types are not represented (a pointer's
element type does not matter for anything but the comparison of types).
-/

namespace Verif.Reflect2.Types

/-! ### Model -/

mutual
/-- `reflect.Type`, as far as reflect2 looks at it: the kinds `wrapType` (reflect2.go:163-205) and `likePtrType`
(reflect2.go:254-271) distinguish.  `scalar` stands for the types of the default case, one word each (numbers, bool), apart from
`string` (two words) and `unsafePointer`. -/
inductive Ty where
  | scalar (name : Nat)
  | str
  | unsafePointer
  | ptr (e : Ty)
  | chan (e : Ty)
  | func (name : Nat)
  | map (k e : Ty)
  | slice (e : Ty)
  | eface
  | iface (name : Nat)
  | array (n : Nat) (e : Ty)
  | struct (fs : Fields)
  deriving DecidableEq
/-- The fields of a struct: their names and types (`reflect.StructField`) (unsafe_field.go:8-13). -/
inductive Fields where
  | nil
  | cons (name : Nat) (t : Ty) (rest : Fields)
  deriving DecidableEq
end

mutual
/-- `Type.Size`, in words (used by unsafe_array.go:16-24). -/
def Ty.size : Ty → Nat
  | .scalar _ => 1
  | .str => 2
  | .unsafePointer => 1
  | .ptr _ => 1
  | .chan _ => 1
  | .func _ => 1
  | .map _ _ => 1
  | .slice _ => 3
  | .eface => 2
  | .iface _ => 2
  | .array n e => n * e.size
  | .struct fs => fs.size
/-- The size of a struct with these fields: no padding (as `Ty.size`, for unsafe_struct.go:13-18). -/
def Fields.size : Fields → Nat
  | .nil => 0
  | .cons _ t rest => t.size + rest.size
end

/-- Words by address. -/
abbrev Mem := Nat → Nat

/-- `eface`, unsafe_eface.go:8-11: type word (nil: `none`) and data word. -/
structure EFace where
  rtype : Option Ty
  data : Nat
  deriving DecidableEq

/-- What the runtime's tables say: the type a type word stands for (nil for 0), and the type in an itab
(unsafe_iface.go:13-16). -/
structure Runtime where
  typeAt : Nat → Option Ty
  itabType : Nat → Option Ty

mutual
/-- `likePtrType`, reflect2.go:254-271 (`likePtrKind`, 246-252). -/
def Ty.likePtr : Ty → Bool
  | .ptr _ => true
  | .map _ _ => true
  | .chan _ => true
  | .func _ => true
  | .struct fs => fs.likePtr
  | .array n e => if n ≠ 1 then false else e.likePtr
  | _ => false
/-- The struct case, reflect2.go:258-263. -/
def Fields.likePtr : Fields → Bool
  | .cons _ t .nil => t.likePtr
  | _ => false
end

/-- `UnsafeIndirect` of the type `wrapType` (reflect2.go:163-205) makes: unsafe_struct.go:30-35, unsafe_array.go:36-41,
unsafe_map.go:48-50, unsafe_ptr.go:44-46, unsafe_eface.go:57-59, unsafe_iface.go:42-44 (`IFaceToEFace` 18-24),
unsafe_type.go:69-71 for the rest, slices included. -/
def unsafeIndirect (rt : Runtime) (m : Mem) (t : Ty) (p : Nat) : EFace :=
  match t with
  | .struct _ => if t.likePtr then ⟨some t, m p⟩ else ⟨some t, p⟩
  | .array _ _ => if t.likePtr then ⟨some t, m p⟩ else ⟨some t, p⟩
  | .map _ _ => ⟨some t, m p⟩
  | .ptr _ => ⟨some t, m p⟩
  | .chan _ => ⟨some t, m p⟩
  | .func _ => ⟨some t, m p⟩
  | .eface => ⟨rt.typeAt (m p), m (p + 1)⟩
  | .iface _ => if m p = 0 then ⟨none, 0⟩ else ⟨rt.itabType (m p), m (p + 1)⟩
  | _ => ⟨some t, p⟩

/-- `assertType` with `unpackEFace`, unsafe_type.go:77-85: the data word of `obj` if it is a pointer to `t`, a
panic (`none`) otherwise. -/
def pointerTo (t : Ty) (obj : EFace) : Option Nat := if obj.rtype = some (.ptr t) then some obj.data else none

/-- `Indirect`, unsafe_type.go:63-67 and the like. -/
def indirect (rt : Runtime) (m : Mem) (t : Ty) (obj : EFace) : Option EFace :=
  (pointerTo t obj).map (unsafeIndirect rt m t)

/-- `UnsafeIsNil`: unsafe_map.go:31-36, unsafe_ptr.go:27-32, unsafe_slice.go:53-58, unsafe_eface.go:44-49,
unsafe_iface.go:55-64, unsafe_type.go:43-45. -/
def unsafeIsNil (m : Mem) (t : Ty) (p : Nat) : Bool :=
  match t with
  | .map _ _ | .ptr _ | .chan _ | .func _ | .slice _ => if p = 0 then true else m p = 0
  | .eface => if p = 0 then true else m (p + 1) = 0
  | .iface _ => if p = 0 then true else m p = 0
  | _ => p = 0

/-- `IsNil` of a type: unsafe_map.go:22-29 and the like give true for nil first; unsafe_type.go:37-41 (structs, arrays, scalars)
does not and panics. -/
def isNil (m : Mem) (t : Ty) (obj : EFace) : Option Bool :=
  match t with
  | .map _ _ | .ptr _ | .chan _ | .func _ | .slice _ | .eface | .iface _ =>
    if obj.rtype = none then some true else (pointerTo t obj).map (unsafeIsNil m t)
  | _ => (pointerTo t obj).map (unsafeIsNil m t)

/-- `reflect2.IsNil`, reflect2.go:231-236. -/
def isNilAny (obj : EFace) : Bool := if obj.rtype = none then true else obj.data = 0

/-- `typedmemmove`, unsafe_link.go:8-9. -/
def move (m : Mem) (size dst src : Nat) : Mem := fun a => if dst ≤ a ∧ a < dst + size then m (src + (a - dst)) else m a

/-- `UnsafeSet`, unsafe_type.go:33-35, unsafe_slice.go:40-42. -/
def unsafeSet (m : Mem) (t : Ty) (p val : Nat) : Mem := move m t.size p val

/-- `Set`, unsafe_type.go:25-31, unsafe_slice.go:32-38. -/
def set (m : Mem) (t : Ty) (obj val : EFace) : Option Mem :=
  match pointerTo t obj, pointerTo t val with
  | some p, some v => some (unsafeSet m t p v)
  | _, _ => none

/-- `Type.Field` of reflect: offset and type of a field (nil and a panic outside) (unsafe_struct.go:45-47). -/
def Fields.field : Fields → Nat → Option (Nat × Ty)
  | .nil, _ => none
  | .cons _ t _, 0 => some (0, t)
  | .cons _ t rest, i + 1 => (rest.field i).map fun r => (t.size + r.1, r.2)

/-- `Type.FieldByIndex` of reflect, which goes through embedded structs and pointers to structs; what it returns
is the last field, with the offset in the struct it stands in.  `FieldByName` returns the
same for the path to the field, promoted or not (for unsafe_struct.go:37-51). -/
def fieldByIndex : Ty → List Nat → Option (Nat × Ty)
  | .struct fs, [i] => fs.field i
  | .struct fs, i :: path =>
    match fs.field i with
    | some (_, .struct gs) => fieldByIndex (.struct gs) path
    | some (_, .ptr (.struct gs)) => fieldByIndex (.struct gs) path
    | _ => none
  | _, _ => none

/-- `UnsafeGet` of the field `FieldByIndex` (unsafe_struct.go:49-51) or `FieldByName` (37-43) gave, unsafe_field.go:72-74;
the type is that of the field. -/
def fieldGet (t : Ty) (path : List Nat) (obj : Nat) : Option (Nat × Ty) :=
  (fieldByIndex t path).map fun f => (obj + f.1, f.2)

/-- `Set` of such a field, unsafe_field.go:52-63. -/
def fieldSet (m : Mem) (t : Ty) (path : List Nat) (obj value : EFace) : Option Mem :=
  match fieldByIndex t path with
  | none => none
  | some (off, ft) =>
    match pointerTo t obj, pointerTo ft value with
    | some p, some v => some (move m ft.size (p + off) v)
    | _, _ => none

/-- `arrayAt`, unsafe_link.go:68-70: addresses have 64 bits. -/
def arrayAt (p : Nat) (i : Int) (eltSize : Nat) : Nat := (((p : Int) + i * eltSize) % 2 ^ 64).toNat

/-- `SetIndex` of arrays, unsafe_array.go:43-54. -/
def arraySet (m : Mem) (n : Nat) (e : Ty) (obj : EFace) (index : Int) (elem : EFace) : Option Mem :=
  match pointerTo (.array n e) obj, pointerTo e elem with
  | some p, some v => some (move m e.size (arrayAt p index e.size) v)
  | _, _ => none

/-- `GetIndex` of arrays, unsafe_array.go:56-65: a pointer to the element. -/
def arrayGet (n : Nat) (e : Ty) (obj : EFace) (index : Int) : Option EFace :=
  (pointerTo (.array n e) obj).map fun p => ⟨some (.ptr e), arrayAt p index e.size⟩

/-! ### Specification -/

/-- The words of a variable of size `n` at `a`. -/
def read (m : Mem) (a n : Nat) : List Nat := (List.range n).map fun i => m (a + i)

mutual
/-- The types whose values the compiler keeps in the data word itself: pointers of all kinds, structs of one such
field and arrays of one such element. -/
inductive Direct : Ty → Prop where
  | ptr (e) : Direct (.ptr e)
  | map (k e) : Direct (.map k e)
  | chan (e) : Direct (.chan e)
  | func (n) : Direct (.func n)
  | unsafePointer : Direct .unsafePointer
  | struct (fs) (h : DirectField fs) : Direct (.struct fs)
  | array (e) (h : Direct e) : Direct (.array 1 e)
inductive DirectField : Fields → Prop where
  | one (name t) (h : Direct t) : DirectField (.cons name t .nil)
end

/-- The value an interface holds: its type and words; nil holds none. -/
inductive Holds (m : Mem) : EFace → Option (Ty × List Nat) → Prop where
  | nil (data : Nat) : Holds m ⟨none, data⟩ none
  | direct (t : Ty) (h : Direct t) (w : Nat) : Holds m ⟨some t, w⟩ (some (t, [w]))
  | boxed (t : Ty) (h : ¬ Direct t) (a : Nat) : Holds m ⟨some t, a⟩ (some (t, read m a t.size))

mutual
/-- Types that come down to a single `unsafe.Pointer`. -/
inductive OnlyUnsafe : Ty → Prop where
  | unsafePointer : OnlyUnsafe .unsafePointer
  | struct (fs) (h : OnlyUnsafeField fs) : OnlyUnsafe (.struct fs)
  | array (e) (h : OnlyUnsafe e) : OnlyUnsafe (.array 1 e)
inductive OnlyUnsafeField : Fields → Prop where
  | one (name t) (h : OnlyUnsafe t) : OnlyUnsafeField (.cons name t .nil)
end

/-! ### C80: Indirect -/

mutual
theorem direct_iff : ∀ t : Ty, Direct t ↔ (t.likePtr = true ∨ OnlyUnsafe t)
  | .scalar _ => ⟨fun h => (by cases h), fun h => (by rcases h with h | h <;> cases h)⟩
  | .str => ⟨fun h => (by cases h), fun h => (by rcases h with h | h <;> cases h)⟩
  | .unsafePointer => ⟨fun _ => .inr .unsafePointer, fun _ => .unsafePointer⟩
  | .ptr e => ⟨fun _ => .inl rfl, fun _ => .ptr e⟩
  | .chan e => ⟨fun _ => .inl rfl, fun _ => .chan e⟩
  | .func n => ⟨fun _ => .inl rfl, fun _ => .func n⟩
  | .map k e => ⟨fun _ => .inl rfl, fun _ => .map k e⟩
  | .slice _ => ⟨fun h => (by cases h), fun h => (by rcases h with h | h <;> cases h)⟩
  | .eface => ⟨fun h => (by cases h), fun h => (by rcases h with h | h <;> cases h)⟩
  | .iface _ => ⟨fun h => (by cases h), fun h => (by rcases h with h | h <;> cases h)⟩
  | .array n e => by
    have ih := direct_iff e
    rw [Ty.likePtr]
    by_cases hn : n = 1
    · subst hn
      simp only [ne_eq, not_true_eq_false, if_false]
      constructor
      · intro h
        cases h with
        | array _ h =>
          rcases ih.mp h with h | h
          · exact .inl h
          · exact .inr (.array _ h)
      · rintro (h | h)
        · exact .array _ (ih.mpr (.inl h))
        · cases h with
          | array _ h => exact .array _ (ih.mpr (.inr h))
    · rw [if_pos hn]
      constructor
      · intro h; cases h; exact absurd rfl hn
      · rintro (h | h)
        · cases h
        · cases h; exact absurd rfl hn
  | .struct fs => by
    have ih := directField_iff fs
    rw [Ty.likePtr]
    constructor
    · intro h
      cases h with
      | struct _ h =>
        rcases ih.mp h with h | h
        · exact .inl h
        · exact .inr (.struct _ h)
    · rintro (h | h)
      · exact .struct _ (ih.mpr (.inl h))
      · cases h with
        | struct _ h => exact .struct _ (ih.mpr (.inr h))
theorem directField_iff : ∀ fs : Fields, DirectField fs ↔ (fs.likePtr = true ∨ OnlyUnsafeField fs)
  | .nil => by
    constructor
    · intro h; cases h
    · rintro (h | h) <;> cases h
  | .cons name t .nil => by
    have ih := direct_iff t
    rw [Fields.likePtr]
    constructor
    · intro h
      cases h with
      | one _ _ h =>
        rcases ih.mp h with h | h
        · exact .inl h
        · exact .inr (.one _ _ h)
    · rintro (h | h)
      · exact .one _ _ (ih.mpr (.inl h))
      · cases h with
        | one _ _ h => exact .one _ _ (ih.mpr (.inr h))
  | .cons name t (.cons _ _ _) => by
    constructor
    · intro h; cases h
    · rintro (h | h)
      · cases h
      · cases h
end

mutual
theorem direct_size : ∀ t : Ty, Direct t → t.size = 1
  | .scalar _, h => by cases h
  | .str, h => by cases h
  | .unsafePointer, _ => rfl
  | .ptr _, _ => rfl
  | .chan _, _ => rfl
  | .func _, _ => rfl
  | .map _ _, _ => rfl
  | .slice _, h => by cases h
  | .eface, h => by cases h
  | .iface _, h => by cases h
  | .array n e, h => by
    cases h with
    | array _ h => rw [Ty.size, direct_size e h]
  | .struct fs, h => by
    cases h with
    | struct _ h => rw [Ty.size, directField_size fs h]
theorem directField_size : ∀ fs : Fields, DirectField fs → fs.size = 1
  | .nil, h => by cases h
  | .cons _ t rest, h => by
    cases h with
    | one _ _ h => rw [Fields.size, direct_size t h, Fields.size]
end

mutual
/-- No type is both. -/
theorem onlyUnsafe_not_likePtr {t : Ty} : OnlyUnsafe t → t.likePtr = false
  | .unsafePointer => rfl
  | .struct fs h => by rw [Ty.likePtr]; exact onlyUnsafeField_not_likePtr h
  | .array e h => by rw [Ty.likePtr]; simp [onlyUnsafe_not_likePtr h]
theorem onlyUnsafeField_not_likePtr {fs : Fields} : OnlyUnsafeField fs → fs.likePtr = false
  | .one name t h => by rw [Fields.likePtr]; exact onlyUnsafe_not_likePtr h
end

/-- What dereferencing a variable at `p` gives, as an interface: the dynamic value if the variable is itself an interface, its
own words otherwise. -/
inductive Deref (rt : Runtime) (m : Mem) : Ty → Nat → Option (Ty × List Nat) → Prop where
  | value (t : Ty) (p : Nat) (h1 : t ≠ .eface) (h2 : ∀ n, t ≠ .iface n) : Deref rt m t p (some (t, read m p t.size))
  | eface (p : Nat) (v) (h : Holds m ⟨rt.typeAt (m p), m (p + 1)⟩ v) : Deref rt m .eface p v
  | iface (n p : Nat) (v) (h0 : m p ≠ 0) (h : Holds m ⟨rt.itabType (m p), m (p + 1)⟩ v) : Deref rt m (.iface n) p v
  | ifaceNil (n p : Nat) (h0 : m p = 0) : Deref rt m (.iface n) p none

theorem holds_of_word {m : Mem} {t : Ty} (hd : Direct t) (p : Nat) :
    Holds m ⟨some t, m p⟩ (some (t, read m p t.size)) := by
  rw [direct_size t hd]
  have : read m p 1 = [m p] := by simp [read]
  rw [this]
  exact .direct t hd (m p)

theorem deref_cases (rt : Runtime) (m : Mem) (t : Ty) (p : Nat) :
    unsafeIndirect rt m t p = (match t with
      | .eface => ⟨rt.typeAt (m p), m (p + 1)⟩
      | .iface _ => if m p = 0 then ⟨none, 0⟩ else ⟨rt.itabType (m p), m (p + 1)⟩
      | t => if t.likePtr then ⟨some t, m p⟩ else ⟨some t, p⟩) := by
  cases t <;> simp [unsafeIndirect, Ty.likePtr]

/-- C80, partial: `Indirect` gives an interface holding what the pointer points to, for all types that do not come down to a
single `unsafe.Pointer`. -/
theorem indirect_partial (rt : Runtime) (m : Mem) (t : Ty) (h : ¬ OnlyUnsafe t) (p : Nat) (v : Option (Ty × List Nat))
    (hv : Deref rt m t p v) :
    ∃ e, indirect rt m t ⟨some (.ptr t), p⟩ = some e ∧ Holds m e v := by
  refine ⟨unsafeIndirect rt m t p, by simp [indirect, pointerTo], ?_⟩
  rw [deref_cases]
  cases hv with
  | value _ _ h1 h2 =>
    have main : Holds m (if t.likePtr then ⟨some t, m p⟩ else ⟨some t, p⟩) (some (t, read m p t.size)) := by
      by_cases hl : t.likePtr = true
      · rw [if_pos hl]
        exact holds_of_word ((direct_iff t).mpr (.inl hl)) p
      · rw [if_neg hl]
        exact .boxed t (fun hd => by rcases (direct_iff t).mp hd with hx | hx <;> contradiction) p
    cases t with
    | eface => exact absurd rfl h1
    | iface n => exact absurd rfl (h2 n)
    | _ => exact main
  | eface _ _ h => exact h
  | iface n _ _ h0 h => simp only [if_neg h0]; exact h
  | ifaceNil n _ h0 => simp only [if_pos h0]; exact .nil 0

/-- C80 fails for the others: `Indirect` gives the address of the variable instead of the pointer in it. -/
theorem indirect_unsafe_pointer (rt : Runtime) (m : Mem) (t : Ty) (h : OnlyUnsafe t) (p : Nat) :
    ∃ e, indirect rt m t ⟨some (.ptr t), p⟩ = some e ∧ Holds m e (some (t, [p])) ∧ Deref rt m t p (some (t, [m p])) := by
  have hl := onlyUnsafe_not_likePtr h
  have hd := (direct_iff t).mpr (.inr h)
  have hr : read m p t.size = [m p] := by rw [direct_size t hd]; simp [read]
  refine ⟨⟨some t, p⟩, ?_, .direct t hd p, ?_⟩
  · simp only [indirect, pointerTo, if_true, Option.map_some]
    rw [deref_cases]
    cases h <;> simp [hl]
  · rw [← hr]
    refine .value t p ?_ ?_
    · rintro rfl; cases h
    · rintro n rfl; cases h

example : OnlyUnsafe (.struct (.cons 0 (.array 1 .unsafePointer) .nil)) := .struct _ (.one _ _ (.array _ .unsafePointer))
example : ¬ OnlyUnsafe (.struct (.cons 0 (.ptr (.scalar 0)) .nil)) := by
  intro h; cases h with | struct _ h => cases h with | one _ _ h => cases h

/-- An argument of another type panics. -/
theorem indirect_checked (rt : Runtime) (m : Mem) (t : Ty) (obj : EFace) :
    (indirect rt m t obj).isSome ↔ obj.rtype = some (.ptr t) := by
  unfold indirect pointerTo
  by_cases h : obj.rtype = some (.ptr t) <;> simp [h]

theorem read_congr {m m' : Mem} {a n : Nat} (h : ∀ i < n, m (a + i) = m' (a + i)) : read m a n = read m' a n := by
  unfold read
  apply List.map_congr_left
  intro i hi
  exact h i (List.mem_range.mp hi)

theorem read_move (m : Mem) (n dst src : Nat) : read (move m n dst src) dst n = read m src n := by
  unfold read
  apply List.map_congr_left
  intro i hi
  have := List.mem_range.mp hi
  simp only [move]
  rw [if_pos ⟨by omega, by omega⟩]
  congr 1
  omega

/-- C80 fails: what `Indirect` gave changes when the variable is set later (types not kept in the data word; interfaces apart). -/
theorem indirect_follows (rt : Runtime) (m : Mem) (t : Ty) (h : ¬ Direct t) (h1 : t ≠ .eface) (h2 : ∀ n, t ≠ .iface n) (p q : Nat) :
    ∃ e m', indirect rt m t ⟨some (.ptr t), p⟩ = some e ∧ set m t ⟨some (.ptr t), p⟩ ⟨some (.ptr t), q⟩ = some m' ∧
      Holds m e (some (t, read m p t.size)) ∧ Holds m' e (some (t, read m q t.size)) := by
  have hl : t.likePtr = false := by
    cases hb : t.likePtr with
    | false => rfl
    | true => exact absurd ((direct_iff t).mpr (.inl hb)) h
  refine ⟨⟨some t, p⟩, move m t.size p q, ?_, by simp [set, pointerTo, unsafeSet], .boxed t h p, ?_⟩
  · simp only [indirect, pointerTo, if_true, Option.map_some]
    rw [deref_cases]
    cases t with
    | eface => exact absurd rfl h1
    | iface n => exact absurd rfl (h2 n)
    | _ => simp only [hl]; rfl
  · rw [← read_move m t.size p q]
    exact .boxed t h p

/-- C80, partial: for types kept in the data word what `Indirect` gave stays the same whatever is written. -/
theorem indirect_keeps_partial (rt : Runtime) (m m' : Mem) (t : Ty) (h : t.likePtr = true) (p : Nat) :
    ∃ e, indirect rt m t ⟨some (.ptr t), p⟩ = some e ∧ Holds m e (some (t, [m p])) ∧ Holds m' e (some (t, [m p])) := by
  have hd := (direct_iff t).mpr (.inl h)
  refine ⟨⟨some t, m p⟩, ?_, .direct t hd _, .direct t hd _⟩
  simp only [indirect, pointerTo, if_true, Option.map_some]
  rw [deref_cases]
  cases t with
  | eface => simp [Ty.likePtr] at h
  | iface n => simp [Ty.likePtr] at h
  | _ => simp only [h]; rfl

/-! ### C81: IsNil -/

/-- The variable at `p` compares equal to nil, for the types that can. -/
inductive NilVar (m : Mem) : Ty → Nat → Prop where
  | ptr (e p) (h : m p = 0) : NilVar m (.ptr e) p
  | map (k e p) (h : m p = 0) : NilVar m (.map k e) p
  | chan (e p) (h : m p = 0) : NilVar m (.chan e) p
  | func (n p) (h : m p = 0) : NilVar m (.func n) p
  | slice (e p) (h : m p = 0) : NilVar m (.slice e) p
  | unsafePointer (p) (h : m p = 0) : NilVar m .unsafePointer p
  | eface (p) (h : m p = 0) : NilVar m .eface p
  | iface (n p) (h : m p = 0) : NilVar m (.iface n) p

/-- C81, partial: `IsNil` on a pointer to a variable says whether the variable is nil, for all types but `unsafe.Pointer` and
`interface{}`; for the latter if it holds no nil pointer (and a nil interface has a zero data word). -/
theorem isNil_partial (m : Mem) (t : Ty) (p : Nat) (hp : p ≠ 0) (h1 : t ≠ .unsafePointer)
    (h2 : t = .eface → (m p = 0 ↔ m (p + 1) = 0)) :
    ∃ b, isNil m t ⟨some (.ptr t), p⟩ = some b ∧ (b = true ↔ NilVar m t p) := by
  have key : ∀ {t : Ty} {b : Bool}, unsafeIsNil m t p = b → isNil m t ⟨some (.ptr t), p⟩ = some b := by
    intro t b hb
    cases t <;> simp [isNil, pointerTo, hb]
  refine ⟨_, key rfl, ?_⟩
  cases t with
  | scalar n => simp only [unsafeIsNil, hp, decide_false]; constructor <;> intro h <;> cases h
  | str => simp only [unsafeIsNil, hp, decide_false]; constructor <;> intro h <;> cases h
  | unsafePointer => exact absurd rfl h1
  | ptr e => simp only [unsafeIsNil, if_neg hp, decide_eq_true_eq]; exact ⟨.ptr e p, fun h => by cases h; assumption⟩
  | chan e => simp only [unsafeIsNil, if_neg hp, decide_eq_true_eq]; exact ⟨.chan e p, fun h => by cases h; assumption⟩
  | func e => simp only [unsafeIsNil, if_neg hp, decide_eq_true_eq]; exact ⟨.func e p, fun h => by cases h; assumption⟩
  | map k e => simp only [unsafeIsNil, if_neg hp, decide_eq_true_eq]; exact ⟨.map k e p, fun h => by cases h; assumption⟩
  | slice e => simp only [unsafeIsNil, if_neg hp, decide_eq_true_eq]; exact ⟨.slice e p, fun h => by cases h; assumption⟩
  | eface =>
    simp only [unsafeIsNil, if_neg hp, decide_eq_true_eq]
    exact ⟨fun h => .eface p ((h2 rfl).mpr h), fun h => by cases h; rename_i h; exact (h2 rfl).mp h⟩
  | iface e => simp only [unsafeIsNil, if_neg hp, decide_eq_true_eq]; exact ⟨.iface e p, fun h => by cases h; assumption⟩
  | array n e => simp only [unsafeIsNil, hp, decide_false]; constructor <;> intro h <;> cases h
  | struct fs => simp only [unsafeIsNil, hp, decide_false]; constructor <;> intro h <;> cases h

/-- C81 fails: a variable of type `interface{}` holding a nil pointer is not nil, but `IsNil` says so; a variable of an interface
type with methods holding the same is not reported. -/
theorem isNil_typed_nil (m : Mem) (p : Nat) (hp : p ≠ 0) (h0 : m p ≠ 0) (h1 : m (p + 1) = 0) (n : Nat) :
    isNil m .eface ⟨some (.ptr .eface), p⟩ = some true ∧ ¬ NilVar m .eface p ∧
    isNil m (.iface n) ⟨some (.ptr (.iface n)), p⟩ = some false := by
  refine ⟨by simp [isNil, pointerTo, unsafeIsNil, hp, h1], ?_, by simp [isNil, pointerTo, unsafeIsNil, hp, h0]⟩
  intro h; cases h; contradiction

/-- The kinds that can be nil, `unsafe.Pointer` apart. -/
def Nilable : Ty → Prop
  | .ptr _ | .map _ _ | .chan _ | .func _ | .slice _ | .eface | .iface _ => True
  | _ => False

/-- C81: for the kinds that can be nil, nil itself is reported as nil, as is a nil pointer to a variable, and an argument of
another type panics; for the others nil panics too. -/
theorem isNil_argument (m : Mem) (t : Ty) (obj : EFace) :
    (Nilable t → obj.rtype = none → isNil m t obj = some true) ∧
    (¬ Nilable t → obj.rtype = none → isNil m t obj = none) ∧
    (obj.rtype = some (.ptr t) → obj.data = 0 → isNil m t obj = some true) ∧
    (∀ t', t' ≠ .ptr t → obj.rtype = some t' → isNil m t obj = none) := by
  refine ⟨fun ht h => ?_, fun ht h => ?_, fun h h0 => ?_, fun t' hne h => ?_⟩
  · cases t <;> first | exact absurd ht (fun h => h) | simp [isNil, h]
  · cases t <;> first | exact absurd trivial ht | simp [isNil, pointerTo, h]
  · cases t <;> simp [isNil, pointerTo, unsafeIsNil, h, h0]
  · cases t <;> simp [isNil, pointerTo, h, hne]

/-- C81 fails: a nil `unsafe.Pointer` is not reported. -/
theorem isNil_unsafe_pointer (m : Mem) (p : Nat) (hp : p ≠ 0) (h0 : m p = 0) :
    isNil m .unsafePointer ⟨some (.ptr .unsafePointer), p⟩ = some false ∧ NilVar m .unsafePointer p :=
  ⟨by simp [isNil, pointerTo, unsafeIsNil, hp], .unsafePointer p h0⟩

/-- C81 fails: the function `IsNil` does not report a nil slice. -/
theorem isNilAny_slice (m : Mem) (e : Ty) (a : Nat) (ha : a ≠ 0) (h0 : m a = 0) :
    isNilAny ⟨some (.slice e), a⟩ = false ∧ Holds m ⟨some (.slice e), a⟩ (some (.slice e, [0, m (a + 1), m (a + 2)])) := by
  refine ⟨by simp [isNilAny, ha], ?_⟩
  have : read m a (Ty.slice e).size = [0, m (a + 1), m (a + 2)] := by
    simp only [read, Ty.size]
    rw [show List.range 3 = [0, 1, 2] from rfl]
    simp [h0]
  rw [← this]
  exact .boxed _ (fun h => by cases h) a

/-- C81, partial: it is right about nil and about values kept in the data word. -/
theorem isNilAny_partial (m : Mem) (obj : EFace) :
    (Holds m obj none → isNilAny obj = true) ∧
    (∀ t w, Direct t → Holds m obj (some (t, [w])) → (isNilAny obj = true ↔ w = 0)) := by
  constructor
  · intro h; cases h; simp [isNilAny]
  · intro t w hd h
    generalize hv : some (t, [w]) = v at h
    cases h with
    | nil => cases hv
    | direct => cases hv; simp [isNilAny]
    | boxed t' hn a =>
      simp only [Option.some.injEq, Prod.mk.injEq] at hv
      exact absurd (hv.1 ▸ hd) hn

/-! ### C82: fields -/

theorem Fields.field_le : ∀ (fs : Fields) (i : Nat) {off : Nat} {t : Ty}, fs.field i = some (off, t) → off + t.size ≤ fs.size
  | .nil, _, _, _, h => by simp [Fields.field] at h
  | .cons _ t rest, 0, off, t', h => by
    simp only [Fields.field, Option.some.injEq, Prod.mk.injEq] at h
    obtain ⟨rfl, rfl⟩ := h
    rw [Fields.size]; omega
  | .cons _ t rest, i + 1, off, t', h => by
    simp only [Fields.field, Option.map_eq_some_iff] at h
    obtain ⟨⟨o, t''⟩, h, he⟩ := h
    simp only [Prod.mk.injEq] at he
    obtain ⟨rfl, rfl⟩ := he
    have := Fields.field_le rest i h
    rw [Fields.size]; omega

/-- Fields do not overlap. -/
theorem Fields.field_lt : ∀ (fs : Fields) (i j : Nat) {oi oj : Nat} {ti tj : Ty}, i < j → fs.field i = some (oi, ti) →
    fs.field j = some (oj, tj) → oi + ti.size ≤ oj
  | .nil, _, _, _, _, _, _, _, h, _ => by simp [Fields.field] at h
  | .cons _ t rest, _, 0, _, _, _, _, hij, _, _ => by omega
  | .cons _ t rest, 0, j + 1, oi, oj, ti, tj, _, hi, hj => by
    simp only [Fields.field, Option.some.injEq, Prod.mk.injEq] at hi
    obtain ⟨rfl, rfl⟩ := hi
    simp only [Fields.field, Option.map_eq_some_iff] at hj
    obtain ⟨⟨o, t''⟩, h, he⟩ := hj
    simp only [Prod.mk.injEq] at he
    omega
  | .cons _ t rest, i + 1, j + 1, oi, oj, ti, tj, hij, hi, hj => by
    simp only [Fields.field, Option.map_eq_some_iff] at hi hj
    obtain ⟨⟨o, t1⟩, h1, he⟩ := hi
    obtain ⟨⟨o', t2⟩, h2, he'⟩ := hj
    simp only [Prod.mk.injEq] at he he'
    have := Fields.field_lt rest i j (by omega) h1 h2
    obtain ⟨rfl, rfl⟩ := he
    obtain ⟨rfl, rfl⟩ := he'
    omega

/-- Where a selector `v.f.g...` finds its field in a variable of type `t` at `a`: pointers are followed (not nil ones). -/
inductive Place (m : Mem) : Ty → Nat → List Nat → Nat → Ty → Prop where
  | last (fs a i off ft) (h : fs.field i = some (off, ft)) : Place m (.struct fs) a [i] (a + off) ft
  | struct (fs a i off gs path p ft) (h : fs.field i = some (off, .struct gs)) (hr : Place m (.struct gs) (a + off) path p ft) :
      Place m (.struct fs) a (i :: path) p ft
  | ptr (fs a i off gs path p ft) (h : fs.field i = some (off, .ptr (.struct gs))) (h0 : m (a + off) ≠ 0)
      (hr : Place m (.struct gs) (m (a + off)) path p ft) : Place m (.struct fs) a (i :: path) p ft

/-- C82, partial: `Set` through a field of the struct itself makes that field the given value and
changes no other field and nothing outside the struct; `Get` is a pointer to the field. -/
theorem field_set_partial (m : Mem) (fs : Fields) (i off : Nat) (ft : Ty) (hf : fs.field i = some (off, ft)) (a v : Nat) :
    fieldGet (.struct fs) [i] a = some (a + off, ft) ∧ Place m (.struct fs) a [i] (a + off) ft ∧
    ∃ m', fieldSet m (.struct fs) [i] ⟨some (.ptr (.struct fs)), a⟩ ⟨some (.ptr ft), v⟩ = some m' ∧
      read m' (a + off) ft.size = read m v ft.size ∧
      (∀ j oj tj, j ≠ i → fs.field j = some (oj, tj) → read m' (a + oj) tj.size = read m (a + oj) tj.size) ∧
      (∀ b, b < a ∨ a + fs.size ≤ b → m' b = m b) := by
  refine ⟨by simp [fieldGet, fieldByIndex, hf], .last fs a i off ft hf, move m ft.size (a + off) v, ?_, read_move .., ?_, ?_⟩
  · simp [fieldSet, fieldByIndex, hf, pointerTo]
  · intro j oj tj hj hfj
    apply read_congr
    intro k hk
    simp only [move]
    rw [if_neg]
    rintro ⟨h1, h2⟩
    rcases Nat.lt_or_gt_of_ne hj with hlt | hgt
    · have := Fields.field_lt fs j i hlt hfj hf; omega
    · have := Fields.field_lt fs i j hgt hf hfj; omega
  · intro b hb
    have := Fields.field_le fs i hf
    simp only [move]
    rw [if_neg (by omega)]

/-- Arguments of other types panic. -/
theorem field_set_checked (m : Mem) (fs : Fields) (path : List Nat) (off : Nat) (ft : Ty)
    (hf : fieldByIndex (.struct fs) path = some (off, ft)) (obj value : EFace) :
    (fieldSet m (.struct fs) path obj value).isSome ↔ obj.rtype = some (.ptr (.struct fs)) ∧ value.rtype = some (.ptr ft) := by
  unfold fieldSet pointerTo
  rw [hf]
  by_cases h1 : obj.rtype = some (.ptr (.struct fs)) <;> by_cases h2 : value.rtype = some (.ptr ft) <;> simp [h1, h2]

/-- The type `FieldByIndex` gives is that of the selected field, and its offset is the one in the innermost struct. -/
theorem field_type (m : Mem) : ∀ (path : List Nat) (t : Ty) (a p : Nat) (ft : Ty), Place m t a path p ft →
    ∃ off, fieldByIndex t path = some (off, ft) ∧ ∃ base, p = base + off := by
  intro path t a p ft h
  induction h with
  | last fs a i off ft h => exact ⟨off, by rw [fieldByIndex, h], a, rfl⟩
  | struct fs a i off gs path p ft h hr ih =>
    obtain ⟨o, h1, h2⟩ := ih
    refine ⟨o, ?_, h2⟩
    cases path with
    | nil => cases hr
    | cons j path => rw [fieldByIndex, h]; · exact h1
                     · simp
  | ptr fs a i off gs path p ft h h0 hr ih =>
    obtain ⟨o, h1, h2⟩ := ih
    refine ⟨o, ?_, h2⟩
    cases path with
    | nil => cases hr
    | cons j path => rw [fieldByIndex, h]; · exact h1
                     · simp

/-- C82 fails: for a field of an embedded struct, `Get` is off by the offset of the embedded struct. -/
theorem promoted_off (m : Mem) (fs gs : Fields) (i j oi oj : Nat) (t : Ty) (hi : fs.field i = some (oi, .struct gs))
    (hj : gs.field j = some (oj, t)) (a : Nat) :
    Place m (.struct fs) a [i, j] (a + oi + oj) t ∧ fieldGet (.struct fs) [i, j] a = some (a + oj, t) := by
  refine ⟨.struct fs a i oi gs [j] _ t hi (.last gs (a + oi) j oj t hj), ?_⟩
  simp [fieldGet, fieldByIndex, hi, hj]

/-- C82 fails: a field of an embedded pointer is not looked for behind the pointer. -/
theorem promoted_ptr (m : Mem) (fs gs : Fields) (i j oi oj : Nat) (t : Ty) (hi : fs.field i = some (oi, .ptr (.struct gs)))
    (hj : gs.field j = some (oj, t)) (a : Nat) (h0 : m (a + oi) ≠ 0) :
    Place m (.struct fs) a [i, j] (m (a + oi) + oj) t ∧ fieldGet (.struct fs) [i, j] a = some (a + oj, t) := by
  refine ⟨.ptr fs a i oi gs [j] _ t hi h0 (.last gs _ j oj t hj), ?_⟩
  simp [fieldGet, fieldByIndex, hi, hj]

/-- C82 fails: `type T struct { ID int; Base }` with `type Base struct { Name int }`: setting Name sets ID. -/
theorem promoted_set_wrong : ∃ m', fieldSet (fun a => a) (.struct (.cons 0 (.scalar 0) (.cons 1 (.struct (.cons 2 (.scalar 0) .nil)) .nil)))
      [1, 0] ⟨some (.ptr (.struct (.cons 0 (.scalar 0) (.cons 1 (.struct (.cons 2 (.scalar 0) .nil)) .nil)))), 100⟩
      ⟨some (.ptr (.scalar 0)), 7⟩ = some m' ∧ m' 100 = 7 ∧ m' 101 = 101 := by
  exact ⟨_, rfl, rfl, rfl⟩

/-! ### C83: array elements -/

theorem arrayAt_eq (p : Nat) (i n size : Nat) (hi : i < n) (hp : p + n * size < 2 ^ 64) : arrayAt p i size = p + i * size := by
  unfold arrayAt
  have h1 : i * size ≤ n * size := Nat.mul_le_mul_right _ (by omega)
  have h2 : ((p : Int) + (i : Int) * (size : Int)) = ((p + i * size : Nat) : Int) := by push_cast; rfl
  rw [h2, Int.emod_eq_of_lt (by omega) (by omega), Int.toNat_natCast]

/-- C83, partial: within the array, `SetIndex` changes exactly the element and `GetIndex` is a pointer to it. -/
theorem array_set_partial (m : Mem) (n : Nat) (e : Ty) (a v i : Nat) (hi : i < n) (ha : a + n * e.size < 2 ^ 64) :
    arrayGet n e ⟨some (.ptr (.array n e)), a⟩ i = some ⟨some (.ptr e), a + i * e.size⟩ ∧
    ∃ m', arraySet m n e ⟨some (.ptr (.array n e)), a⟩ i ⟨some (.ptr e), v⟩ = some m' ∧
      read m' (a + i * e.size) e.size = read m v e.size ∧
      (∀ j, j ≠ i → read m' (a + j * e.size) e.size = read m (a + j * e.size) e.size) ∧
      (∀ b, b < a ∨ a + (Ty.array n e).size ≤ b → m' b = m b) := by
  have e1 := arrayAt_eq a i n e.size hi ha
  refine ⟨by simp [arrayGet, pointerTo, e1], move m e.size (a + i * e.size) v, by simp [arraySet, pointerTo, e1], read_move .., ?_, ?_⟩
  · intro j hj
    apply read_congr
    intro k hk
    simp only [move]
    rw [if_neg]
    rintro ⟨h1, h2⟩
    rcases Nat.lt_or_gt_of_ne hj with hlt | hgt
    · have : (j + 1) * e.size ≤ i * e.size := Nat.mul_le_mul_right _ hlt
      rw [Nat.succ_mul] at this; omega
    · have : (i + 1) * e.size ≤ j * e.size := Nat.mul_le_mul_right _ hgt
      rw [Nat.succ_mul] at this; omega
  · intro b hb
    have h1 : (i + 1) * e.size ≤ n * e.size := Nat.mul_le_mul_right _ hi
    rw [Nat.succ_mul] at h1
    rw [Ty.size] at hb
    simp only [move]
    rw [if_neg (by omega)]

/-- C83 fails: an index outside the array is not refused; the write goes to memory behind the array. -/
theorem array_out_of_range (m : Mem) (n : Nat) (e : Ty) (a v i : Nat) (hi : n ≤ i) (ha : a + (i + 1) * e.size < 2 ^ 64) :
    ∃ m', arraySet m n e ⟨some (.ptr (.array n e)), a⟩ i ⟨some (.ptr e), v⟩ = some m' ∧
      a + (Ty.array n e).size ≤ a + i * e.size ∧ read m' (a + i * e.size) e.size = read m v e.size := by
  have e1 := arrayAt_eq a i (i + 1) e.size (by omega) ha
  refine ⟨move m e.size (a + i * e.size) v, by simp [arraySet, pointerTo, e1], ?_, read_move ..⟩
  rw [Ty.size]
  have : n * e.size ≤ i * e.size := Nat.mul_le_mul_right _ hi
  omega

/-- C83 fails likewise before the array. -/
theorem array_negative_index : arraySet (fun a => a) 2 (.scalar 0) ⟨some (.ptr (.array 2 (.scalar 0))), 100⟩ (-1) ⟨some (.ptr (.scalar 0)), 7⟩ =
    some (move (fun a => a) 1 99 7) := rfl

/-- C83 fails likewise before the array with a large positive index: addresses wrap. -/
theorem array_index_wraps : arraySet (fun a => a) 2 .str ⟨some (.ptr (.array 2 .str)), 100⟩ 9223372036854775807 ⟨some (.ptr .str), 7⟩ =
    some (move (fun a => a) 2 98 7) := rfl

/-! ### Concrete cases -/

/-- A map variable at 100 holding nil, and an `interface{}` at 200 holding a value. -/
example : isNil (fun a => if a = 100 then 0 else 9) (.map .str (.scalar 0)) ⟨some (.ptr (.map .str (.scalar 0))), 100⟩ = some true := by decide
example : isNil (fun _ => 9) .eface ⟨some (.ptr .eface), 200⟩ = some false := by decide

/-- `struct { A int; B []int; C string }`: the field C is four words on. -/
example : (Fields.cons 0 (.scalar 0) (.cons 1 (.slice (.scalar 0)) (.cons 2 .str .nil))).field 2 = some (4, .str) := by decide

/-- An array of three strings, the middle one set. -/
example : (arraySet (fun a => a) 3 .str ⟨some (.ptr (.array 3 .str)), 100⟩ 1 ⟨some (.ptr .str), 500⟩).map (fun m => read m 100 6) =
    some [100, 101, 500, 501, 104, 105] := by decide

end Verif.Reflect2.Types
