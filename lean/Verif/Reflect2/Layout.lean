import Verif.Basic

/-!
# C147: paths of fields and indexes

Model of the fields and elements of reflect2's unsafe configuration by bytes: structs with alignment and padding, arrays, any nesting.  Types.lean has the other
operations, with addresses that count words.
-/

namespace Verif.Reflect2.Layout

/-! ### Model -/

/-- The kinds without parts, by size and alignment (`Type.Size` and `Type.Align`, for reflect2/unsafe_field.go:15-22): numbers of 1, 2, 4 and 8 bytes (and pointers, maps, channels and functions), complex64, complex128, strings,
interfaces and slices, on a 64-bit machine. -/
inductive Kind where
  | one | two | four | eight | complex64 | complex128 | string | interface | slice
  deriving DecidableEq

mutual
/-- Types, with numbers for their names, so that types of one layout may differ (compared in reflect2/unsafe_type.go:77-85). -/
inductive Ty where
  | basic (name : Nat) (k : Kind)
  | array (n : Nat) (e : Ty)
  | struct (name : Nat) (fs : Fields)
  deriving DecidableEq
/-- The fields of a struct, reflect2/unsafe_field.go:8-13. -/
inductive Fields where
  | nil
  | cons (t : Ty) (rest : Fields)
  deriving DecidableEq
end

/-- Bytes of a kind (for reflect2/unsafe_field.go:53). -/
def Kind.size : Kind → Nat
  | .one => 1 | .two => 2 | .four => 4 | .eight => 8 | .complex64 => 8 | .complex128 => 16 | .string => 16 | .interface => 16 | .slice => 24

/-- Alignment of a kind (for reflect2/unsafe_field.go:25). -/
def Kind.align : Kind → Nat
  | .one => 1 | .two => 2 | .four => 4 | .complex64 => 4 | _ => 8

/-- The next multiple (for reflect2/unsafe_field.go:25). -/
def roundUp (n a : Nat) : Nat := (n + a - 1) / a * a

mutual
/-- `Type.Align` (for reflect2/unsafe_field.go:25). -/
def Ty.align : Ty → Nat
  | .basic _ k => k.align
  | .array _ e => e.align
  | .struct _ fs => fs.align
/-- That of a struct is the largest of its fields (for reflect2/unsafe_field.go:25). -/
def Fields.align : Fields → Nat
  | .nil => 1
  | .cons t rest => max t.align rest.align
end

mutual
/-- `Type.Size` (reflect2/unsafe_array.go:21; for reflect2/unsafe_field.go:53): a struct that ends with a field of size zero has a byte behind it. -/
def Ty.size : Ty → Nat
  | .basic _ k => k.size
  | .array n e => n * e.size
  | .struct _ fs => roundUp (if fs.lastEmpty ∧ 0 < fs.endFrom 0 then fs.endFrom 0 + 1 else fs.endFrom 0) fs.align
/-- Where the last field ends if the first one may start at `off` (for reflect2/unsafe_field.go:25). -/
def Fields.endFrom (off : Nat) : Fields → Nat
  | .nil => off
  | .cons t rest => rest.endFrom (roundUp off t.align + t.size)
/-- Whether the last field has size zero (for reflect2/unsafe_field.go:25). -/
def Fields.lastEmpty : Fields → Bool
  | .nil => false
  | .cons t .nil => t.size == 0
  | .cons _ rest => rest.lastEmpty
end

/-- `StructField.Offset` and `Type` of field `i` (reflect2/unsafe_struct.go:45-47, unsafe_field.go:24-26), if the first one may start at `off`. -/
def Fields.field (off : Nat) : Fields → Nat → Option (Nat × Ty)
  | .nil, _ => none
  | .cons t _, 0 => some (roundUp off t.align, t)
  | .cons t rest, i + 1 => rest.field (roundUp off t.align + t.size) i

/-- Bytes by address. -/
abbrev Mem := Nat → Nat

/-- An interface holding a pointer to a variable of this type, reflect2/unsafe_eface.go:8-23. Anything else panics at the checks of types, so it is left out. -/
structure Ptr where
  elem : Ty
  data : Nat
  deriving DecidableEq

/-- `typedmemmove`, reflect2/unsafe_link.go:8-9: as if copied by way of another place. -/
def move (m : Mem) (size dst src : Nat) : Mem := fun a => if dst ≤ a ∧ a < dst + size then m (src + (a - dst)) else m a

/-- `add`, reflect2/unsafe_link.go:57-59: addresses have 64 bits. -/
def add (p x : Nat) : Nat := (p + x) % 2 ^ 64

/-- `arrayAt`, reflect2/unsafe_link.go:68-70. -/
def arrayAt (p : Nat) (i : Int) (eltSize : Nat) : Nat := add p ((i % 2 ^ 64).toNat * eltSize % 2 ^ 64)

/-- What can be selected: a field (`Field(i)`, reflect2/unsafe_struct.go:45-47) or an element (reflect2/unsafe_array.go:43-65). -/
inductive Sel where
  | field (i : Nat)
  | index (i : Int)
  deriving DecidableEq

/-- Address and type of what is selected, reflect2/unsafe_field.go:72-74 and unsafe_array.go:63-65; `none` for a type without fields or elements, or a number that is no field's. -/
def part (p : Ptr) : Sel → Option Ptr
  | .field i =>
    match p.elem with
    | .struct _ fs => (fs.field 0 i).map fun f => ⟨f.2, add p.data f.1⟩
    | _ => none
  | .index i =>
    match p.elem with
    | .array _ e => some ⟨e, arrayAt p.data i e.size⟩
    | _ => none

/-- `Get` of a field and `GetIndex`, reflect2/unsafe_field.go:65-70 and unsafe_array.go:56-61, one after the other. -/
def walk (p : Ptr) : List Sel → Option Ptr
  | [] => some p
  | s :: path => (part p s).bind fun q => walk q path

/-- `Set` of a field and `SetIndex`, reflect2/unsafe_field.go:52-63 and unsafe_array.go:43-54: the value has to be a pointer to a variable of the same type. -/
def setPart (m : Mem) (p : Ptr) (s : Sel) (val : Ptr) : Option Mem :=
  match part p s with
  | some q => if val.elem = q.elem then some (move m q.elem.size q.data val.data) else none
  | none => none

/-- An assignment to what a path selects: `Get` and `GetIndex` up to the last one, which is set; `Type.Set` (reflect2/unsafe_type.go:25-35) without any. -/
def assign (m : Mem) (p : Ptr) : List Sel → Ptr → Option Mem
  | [], val => if val.elem = p.elem then some (move m p.elem.size p.data val.data) else none
  | [s], val => setPart m p s val
  | s :: t :: path, val => (part p s).bind fun q => assign m q (t :: path) val

/-- A program of assignments from one part of a variable to another, each by reflect2/unsafe_field.go:52-74, unsafe_array.go:43-65 and unsafe_type.go:25-35; a pointer to the source is walked to. -/
structure Op where
  dst : Nat
  path : List Sel
  src : Nat
  from_ : List Sel

/-- One of them, reflect2/unsafe_field.go:52-74. -/
def step (vars : Nat → Ptr) (m : Mem) (op : Op) : Option Mem :=
  (walk (vars op.src) op.from_).bind fun val => assign m (vars op.dst) op.path val

/-- All of them, reflect2/unsafe_field.go:52-74. -/
def run (vars : Nat → Ptr) : Mem → List Op → Option Mem
  | m, [] => some m
  | m, op :: ops => (step vars m op).bind fun m => run vars m ops

/-! ### Specification -/

/-- The type of a field by its number. -/
def HasField : Fields → Nat → Ty → Prop
  | .nil, _, _ => False
  | .cons t _, 0, u => t = u
  | .cons _ rest, i + 1, u => HasField rest i u

/-- The type of what a path selects, with indexes within the arrays. -/
inductive Selects : Ty → List Sel → Ty → Prop
  | here (t) : Selects t [] t
  | field (name fs i t path u) (h : HasField fs i t) (r : Selects t path u) : Selects (.struct name fs) (.field i :: path) u
  | index (n : Nat) (e) (i : Int) (path u) (h0 : 0 ≤ i) (h : i < n) (r : Selects e path u) : Selects (.array n e) (.index i :: path) u

/-- The bytes of a variable at an address. -/
def read (m : Mem) (a n : Nat) : List Nat := (List.range n).map fun i => m (a + i)

/-- What a user sees of a variable: for each path to a number, string and so on, its bytes. -/
abbrev Contents := Nat → List Sel → List Nat

/-- The assignment of the language: every part of what the path selects becomes the part of the source with the same path, and all else stays. -/
def Contents.assign (c : Contents) (op : Op) : Contents := fun x q =>
  if x = op.dst ∧ op.path <+: q then c op.src (op.from_ ++ q.drop op.path.length) else c x q

/-- One after the other. -/
def Contents.run (c : Contents) : List Op → Contents
  | [] => c
  | op :: ops => (c.assign op).run ops

/-- Variables in memory: each fits below 2^64, and no two overlap. -/
def Separate (vars : Nat → Ptr) (xs : List Nat) : Prop :=
  (∀ x ∈ xs, (vars x).data + (vars x).elem.size < 2 ^ 64) ∧
    ∀ x ∈ xs, ∀ y ∈ xs, x ≠ y → (vars x).data + (vars x).elem.size ≤ (vars y).data ∨ (vars y).data + (vars y).elem.size ≤ (vars x).data

/-- A program of variables whose paths select parts of the same type. -/
def Typed (vars : Nat → Ptr) (xs : List Nat) (op : Op) : Prop :=
  op.dst ∈ xs ∧ op.src ∈ xs ∧ ∃ u, Selects (vars op.dst).elem op.path u ∧ Selects (vars op.src).elem op.from_ u

/-- Reading what a path selects, through a pointer walked to. -/
def seen (m : Mem) (p : Ptr) (q : List Sel) : Option (List Nat) := (walk p q).map fun r => read m r.data r.elem.size

/-! ### Layout -/

theorem le_roundUp (n : Nat) {a : Nat} (h : 0 < a) : n ≤ roundUp n a := by
  unfold roundUp
  have := Nat.div_add_mod (n + a - 1) a
  have := Nat.mod_lt (n + a - 1) h
  rw [Nat.mul_comm ((n + a - 1) / a) a]
  omega

theorem roundUp_mod (n a : Nat) : roundUp n a % a = 0 := by
  unfold roundUp; exact Nat.mul_mod_left _ _

mutual
theorem align_cases : ∀ t : Ty, t.align = 1 ∨ t.align = 2 ∨ t.align = 4 ∨ t.align = 8
  | .basic _ k => by cases k <;> simp [Ty.align, Kind.align]
  | .array _ e => by rw [Ty.align]; exact align_cases e
  | .struct _ fs => by rw [Ty.align]; exact aligns_cases fs
theorem aligns_cases : ∀ fs : Fields, fs.align = 1 ∨ fs.align = 2 ∨ fs.align = 4 ∨ fs.align = 8
  | .nil => .inl rfl
  | .cons t rest => by
    rw [Fields.align]
    have := align_cases t
    have := aligns_cases rest
    omega
end

theorem align_pos (t : Ty) : 0 < t.align := by have := align_cases t; omega

theorem end_ge : ∀ (fs : Fields) (off : Nat), off ≤ fs.endFrom off
  | .nil, off => by rw [Fields.endFrom]; exact Nat.le_refl _
  | .cons t rest, off => by
    rw [Fields.endFrom]
    have := le_roundUp off (align_pos t)
    have := end_ge rest (roundUp off t.align + t.size)
    omega

theorem field_iff : ∀ (fs : Fields) (off i : Nat) (t : Ty), HasField fs i t ↔ ∃ o, fs.field off i = some (o, t)
  | .nil, _, _, _ => by simp [HasField, Fields.field]
  | .cons u rest, off, 0, t => by
    simp only [HasField, Fields.field, Option.some.injEq, Prod.mk.injEq]
    exact ⟨fun h => ⟨_, rfl, h⟩, fun ⟨_, _, h⟩ => h⟩
  | .cons u rest, off, i + 1, t => by
    simp only [HasField, Fields.field]
    exact field_iff rest _ i t

theorem field_bounds : ∀ (fs : Fields) (off i : Nat) {o : Nat} {t : Ty}, fs.field off i = some (o, t) → off ≤ o ∧ o + t.size ≤ fs.endFrom off
  | .nil, _, _, _, _, h => by simp [Fields.field] at h
  | .cons u rest, off, 0, o, t, h => by
    simp only [Fields.field, Option.some.injEq, Prod.mk.injEq] at h
    obtain ⟨rfl, rfl⟩ := h
    rw [Fields.endFrom]
    exact ⟨le_roundUp off (align_pos u), end_ge rest _⟩
  | .cons u rest, off, i + 1, o, t, h => by
    simp only [Fields.field] at h
    have := field_bounds rest _ i h
    have := le_roundUp off (align_pos u)
    rw [Fields.endFrom]
    omega

theorem field_apart : ∀ (fs : Fields) (off i j : Nat) {oi oj : Nat} {ti tj : Ty}, i < j → fs.field off i = some (oi, ti) →
    fs.field off j = some (oj, tj) → oi + ti.size ≤ oj
  | .nil, _, _, _, _, _, _, _, _, h, _ => by simp [Fields.field] at h
  | .cons u rest, off, i, 0, _, _, _, _, h, _, _ => by omega
  | .cons u rest, off, 0, j + 1, oi, oj, ti, tj, _, hi, hj => by
    simp only [Fields.field, Option.some.injEq, Prod.mk.injEq] at hi hj
    obtain ⟨rfl, rfl⟩ := hi
    exact (field_bounds rest _ j hj).1
  | .cons u rest, off, i + 1, j + 1, oi, oj, ti, tj, h, hi, hj => by
    simp only [Fields.field] at hi hj
    exact field_apart rest _ i j (by omega) hi hj

theorem end_le_size (name : Nat) (fs : Fields) : fs.endFrom 0 ≤ (Ty.struct name fs).size := by
  rw [Ty.size]
  have := aligns_cases fs
  split
  · have := le_roundUp (fs.endFrom 0 + 1) (a := fs.align) (by omega); omega
  · exact le_roundUp _ (by omega)

/-- Where a path leads in a variable: the offsets and elements added up. -/
inductive At : Ty → List Sel → Nat → Ty → Prop
  | here (t) : At t [] 0 t
  | field (name fs i off t path o u) (h : fs.field 0 i = some (off, t)) (r : At t path o u) : At (.struct name fs) (.field i :: path) (off + o) u
  | index (n e) (i : Nat) (path o u) (h : i < n) (r : At e path o u) : At (.array n e) (.index i :: path) (i * e.size + o) u

theorem selects_at {t : Ty} {path : List Sel} {u : Ty} : Selects t path u ↔ ∃ o, At t path o u := by
  constructor
  · intro h
    induction h with
    | here t => exact ⟨0, .here t⟩
    | field name fs i t path u h r ih =>
      obtain ⟨o, ho⟩ := ih
      obtain ⟨off, hf⟩ := (field_iff fs 0 i t).mp h
      exact ⟨_, .field name fs i off t path o u hf ho⟩
    | index n e i path u h0 h r ih =>
      obtain ⟨o, ho⟩ := ih
      obtain ⟨k, rfl⟩ := Int.eq_ofNat_of_zero_le h0
      exact ⟨_, .index n e k path o u (by omega) ho⟩
  · rintro ⟨o, h⟩
    induction h with
    | here t => exact .here t
    | field name fs i off t path o u h r ih => exact .field _ _ _ t _ _ ((field_iff fs 0 i t).mpr ⟨_, h⟩) ih
    | index n e i path o u h r ih => exact .index _ _ _ _ _ (by omega) (by omega) ih

theorem at_bound {t : Ty} {path : List Sel} {o : Nat} {u : Ty} (h : At t path o u) : o + u.size ≤ t.size := by
  induction h with
  | here t => omega
  | field name fs i off t path o u h r ih =>
    have := (field_bounds fs 0 i h).2
    have := end_le_size name fs
    omega
  | index n e i path o u h r ih =>
    have h1 : (i + 1) * e.size ≤ n * e.size := Nat.mul_le_mul_right _ h
    rw [Nat.succ_mul] at h1
    rw [Ty.size]; omega

theorem at_append {t : Ty} {path : List Sel} {o : Nat} {u : Ty} (h : At t path o u) {q : List Sel} {o' : Nat} {w : Ty} (h' : At u q o' w) :
    At t (path ++ q) (o + o') w := by
  induction h with
  | here t => rw [Nat.zero_add]; exact h'
  | field name fs i off t path o u h r ih => rw [Nat.add_assoc]; exact .field _ _ _ _ _ _ _ _ h (ih h')
  | index n e i path o u h r ih => rw [Nat.add_assoc]; exact .index _ _ _ _ _ _ h (ih h')

theorem at_split {t : Ty} {path q : List Sel} {o : Nat} {w : Ty} (h : At t (path ++ q) o w) :
    ∃ o1 o2 u, At t path o1 u ∧ At u q o2 w ∧ o = o1 + o2 := by
  induction path generalizing t o with
  | nil => exact ⟨0, o, t, .here t, h, by omega⟩
  | cons s path ih =>
    cases h with
    | field name fs i off t _ o _ h r =>
      obtain ⟨o1, o2, u, h1, h2, h3⟩ := ih r
      exact ⟨_, o2, u, .field _ _ _ _ _ _ _ _ h h1, h2, by omega⟩
    | index n e i _ o _ h r =>
      obtain ⟨o1, o2, u, h1, h2, h3⟩ := ih r
      exact ⟨_, o2, u, .index _ _ _ _ _ _ h h1, h2, by omega⟩

theorem at_det {t : Ty} {path : List Sel} {o o' : Nat} {u u' : Ty} (h : At t path o u) (h' : At t path o' u') : o = o' ∧ u = u' := by
  induction h generalizing o' u' with
  | here t => cases h'; exact ⟨rfl, rfl⟩
  | field name fs i off t path o u h r ih =>
    cases h' with
    | field _ _ _ off' t' _ o2 _ h2 r2 =>
      rw [h] at h2
      simp only [Option.some.injEq, Prod.mk.injEq] at h2
      obtain ⟨rfl, rfl⟩ := h2
      obtain ⟨rfl, rfl⟩ := ih r2
      exact ⟨rfl, rfl⟩
  | index n e i path o u h r ih =>
    cases h' with
    | index _ _ _ _ o2 _ h2 r2 =>
      obtain ⟨rfl, rfl⟩ := ih r2
      exact ⟨rfl, rfl⟩

/-- Paths that part lead to places that do not overlap. -/
theorem at_apart {t : Ty} {path : List Sel} {o : Nat} {u : Ty} (h : At t path o u) {path' : List Sel} {o' : Nat} {u' : Ty} (h' : At t path' o' u')
    (n1 : ¬ path <+: path') (n2 : ¬ path' <+: path) : o + u.size ≤ o' ∨ o' + u'.size ≤ o := by
  induction h generalizing path' o' u' with
  | here t => exact absurd (List.nil_prefix) n1
  | field name fs i off t path o u h r ih =>
    cases h' with
    | here => exact absurd (List.nil_prefix) n2
    | field _ _ j off' t' path' o2 _ h2 r2 =>
      have b1 := at_bound r
      have b2 := at_bound r2
      rcases Nat.lt_trichotomy i j with hij | hij | hij
      · have := field_apart fs 0 i j hij h h2; omega
      · subst hij
        rw [h] at h2
        simp only [Option.some.injEq, Prod.mk.injEq] at h2
        obtain ⟨rfl, rfl⟩ := h2
        have := ih r2 (fun hp => n1 (List.cons_prefix_cons.mpr ⟨rfl, hp⟩)) (fun hp => n2 (List.cons_prefix_cons.mpr ⟨rfl, hp⟩))
        omega
      · have := field_apart fs 0 j i hij h2 h; omega
  | index n e i path o u h r ih =>
    cases h' with
    | here => exact absurd (List.nil_prefix) n2
    | index _ _ j path' o2 _ h2 r2 =>
      have b1 := at_bound r
      have b2 := at_bound r2
      rcases Nat.lt_trichotomy i j with hij | hij | hij
      · have : (i + 1) * e.size ≤ j * e.size := Nat.mul_le_mul_right _ hij
        rw [Nat.succ_mul] at this; omega
      · subst hij
        have := ih r2 (fun hp => n1 (List.cons_prefix_cons.mpr ⟨rfl, hp⟩)) (fun hp => n2 (List.cons_prefix_cons.mpr ⟨rfl, hp⟩))
        omega
      · have : (j + 1) * e.size ≤ i * e.size := Nat.mul_le_mul_right _ hij
        rw [Nat.succ_mul] at this; omega

/-! ### Walking and setting -/

theorem add_small {p x : Nat} (h : p + x < 2 ^ 64) : add p x = p + x := Nat.mod_eq_of_lt h

theorem arrayAt_small {p i size n : Nat} (hi : i < n) (h : p + n * size < 2 ^ 64) (hs : 0 < size) : arrayAt p i size = p + i * size := by
  unfold arrayAt
  have h1 : i * size ≤ n * size := Nat.mul_le_mul_right _ (by omega)
  have h2 : i * 1 ≤ i * size := Nat.mul_le_mul_left _ hs
  have h3 : ((i : Int) % 2 ^ 64).toNat = i := by
    rw [Int.emod_eq_of_lt (by omega) (by omega), Int.toNat_natCast]
  rw [h3, Nat.mod_eq_of_lt (by omega), add_small (by omega)]

theorem arrayAt_empty {p : Nat} {i : Int} (h : p < 2 ^ 64) : arrayAt p i 0 = p := by
  unfold arrayAt add
  rw [Nat.mul_zero, Nat.zero_mod, Nat.add_zero, Nat.mod_eq_of_lt h]

theorem part_at {t : Ty} {s : Sel} {path : List Sel} {o : Nat} {u : Ty} (h : At t (s :: path) o u) {a : Nat} (ha : a + t.size < 2 ^ 64) :
    ∃ o1 o2 v, part ⟨t, a⟩ s = some ⟨v, a + o1⟩ ∧ At v path o2 u ∧ o = o1 + o2 ∧ o1 + v.size ≤ t.size := by
  cases h with
  | field name fs i off t _ o _ h r =>
    have b := at_bound (At.field name fs i off t [] 0 t h (.here t))
    refine ⟨off, o, t, ?_, r, rfl, by omega⟩
    simp only [part, h, Option.map_some]
    rw [add_small (by omega)]
  | index n e i _ o _ h r =>
    have b := at_bound (At.index n e i [] 0 e h (.here e))
    refine ⟨i * e.size, o, e, ?_, r, rfl, by omega⟩
    simp only [part]
    rw [Ty.size] at ha
    rcases Nat.eq_zero_or_pos e.size with hz | hz
    · rw [hz, arrayAt_empty (by omega), Nat.mul_zero, Nat.add_zero]
    · rw [arrayAt_small h ha hz]

theorem walk_at {t : Ty} {path : List Sel} {o : Nat} {u : Ty} (h : At t path o u) {a : Nat} (ha : a + t.size < 2 ^ 64) :
    walk ⟨t, a⟩ path = some ⟨u, a + o⟩ := by
  induction path generalizing t o a with
  | nil => cases h; rfl
  | cons s path ih =>
    obtain ⟨o1, o2, v, h1, h2, h3, h4⟩ := part_at h ha
    rw [walk, h1, Option.bind_some, ih h2 (by omega), h3, Nat.add_assoc]

theorem assign_at {t : Ty} {path : List Sel} {o : Nat} {u : Ty} (h : At t path o u) {a : Nat} (ha : a + t.size < 2 ^ 64) (m : Mem) (val : Ptr) :
    assign m ⟨t, a⟩ path val = if val.elem = u then some (move m u.size (a + o) val.data) else none := by
  induction path generalizing t o a with
  | nil => cases h; rfl
  | cons s path ih =>
    obtain ⟨o1, o2, v, h1, h2, h3, h4⟩ := part_at h ha
    cases path with
    | nil =>
      cases h2
      rw [assign, setPart, h1, h3]
      rfl
    | cons s' path =>
      rw [assign, h1, Option.bind_some, ih h2 (by omega), h3, Nat.add_assoc]

theorem read_congr {m m' : Mem} {a n : Nat} (h : ∀ i < n, m (a + i) = m' (a + i)) : read m a n = read m' a n := by
  unfold read
  apply List.map_congr_left
  intro i hi
  exact h i (List.mem_range.mp hi)

theorem read_part {m : Mem} {size dst src o n : Nat} (h : o + n ≤ size) : read (move m size dst src) (dst + o) n = read m (src + o) n := by
  unfold read
  apply List.map_congr_left
  intro i hi
  have := List.mem_range.mp hi
  simp only [move]
  rw [if_pos ⟨by omega, by omega⟩]
  congr 1
  omega

theorem read_other {m : Mem} {size dst src a n : Nat} (h : a + n ≤ dst ∨ dst + size ≤ a) : read (move m size dst src) a n = read m a n := by
  apply read_congr
  intro i hi
  simp only [move]
  rw [if_neg (by omega)]

/-! ### C147 -/

/-- C147: a path leads to the address of the part it selects: within the variable, aligned, and apart from the parts with other paths. -/
theorem path_place (t : Ty) (path : List Sel) (u : Ty) (h : Selects t path u) (a : Nat) (ha : a + t.size < 2 ^ 64) :
    ∃ p, walk ⟨t, a⟩ path = some ⟨u, p⟩ ∧ a ≤ p ∧ p + u.size ≤ a + t.size ∧
      ∀ path' u', Selects t path' u' → ¬ path <+: path' → ¬ path' <+: path →
        ∃ p', walk ⟨t, a⟩ path' = some ⟨u', p'⟩ ∧ (p + u.size ≤ p' ∨ p' + u'.size ≤ p) := by
  obtain ⟨o, ho⟩ := selects_at.mp h
  refine ⟨a + o, walk_at ho ha, by omega, by have := at_bound ho; omega, ?_⟩
  intro path' u' h' n1 n2
  obtain ⟨o', ho'⟩ := selects_at.mp h'
  refine ⟨a + o', walk_at ho' ha, ?_⟩
  have := at_apart ho ho' n1 n2
  omega

theorem size_aligned_fields (t u : Nat) (h1 : t = 1 ∨ t = 2 ∨ t = 4 ∨ t = 8) (h2 : u = 1 ∨ u = 2 ∨ u = 4 ∨ u = 8) (h : t ≤ u) (n : Nat) (hn : n % u = 0) :
    n % t = 0 := by
  rcases h1 with rfl | rfl | rfl | rfl <;> rcases h2 with rfl | rfl | rfl | rfl <;> omega

theorem field_align : ∀ (fs : Fields) (off i : Nat) {o : Nat} {t : Ty}, fs.field off i = some (o, t) → o % t.align = 0 ∧ t.align ≤ fs.align
  | .nil, _, _, _, _, h => by simp [Fields.field] at h
  | .cons u rest, off, 0, o, t, h => by
    simp only [Fields.field, Option.some.injEq, Prod.mk.injEq] at h
    obtain ⟨rfl, rfl⟩ := h
    rw [Fields.align]
    exact ⟨roundUp_mod _ _, by omega⟩
  | .cons u rest, off, i + 1, o, t, h => by
    simp only [Fields.field] at h
    have := field_align rest _ i h
    rw [Fields.align]
    exact ⟨this.1, by omega⟩

theorem size_mod : ∀ t : Ty, t.size % t.align = 0
  | .basic _ k => by cases k <;> simp [Ty.size, Ty.align, Kind.size, Kind.align]
  | .array n e => by
    rw [Ty.size, Ty.align, Nat.mul_mod, size_mod e, Nat.mul_zero, Nat.zero_mod]
  | .struct _ fs => by
    rw [Ty.size, Ty.align]
    exact roundUp_mod _ _

theorem at_align {t : Ty} {path : List Sel} {o : Nat} {u : Ty} (h : At t path o u) : o % u.align = 0 ∧ u.align ≤ t.align := by
  induction h with
  | here t => exact ⟨Nat.zero_mod _, Nat.le_refl _⟩
  | field name fs i off t path o u h r ih =>
    have hf := field_align fs 0 i h
    have h1 := size_aligned_fields _ _ (align_cases u) (align_cases t) ih.2 off hf.1
    rw [Ty.align]
    exact ⟨by rw [Nat.add_mod, h1, ih.1]; simp, by omega⟩
  | index n e i path o u h r ih =>
    have h0 : i * e.size % e.align = 0 := by rw [Nat.mul_mod, size_mod e, Nat.mul_zero, Nat.zero_mod]
    have h1 := size_aligned_fields _ _ (align_cases u) (align_cases e) ih.2 _ h0
    rw [Ty.align]
    exact ⟨by rw [Nat.add_mod, h1, ih.1]; simp, ih.2⟩

/-- C147: the address is a multiple of what the machine asks for: 2, 4 and 8 for numbers of such sizes, 4 for complex64, 8 for the rest. -/
theorem path_aligned (t : Ty) (path : List Sel) (name : Nat) (k : Kind) (h : Selects t path (.basic name k)) (a : Nat) (ha : a + t.size < 2 ^ 64) (h8 : a % 8 = 0) :
    ∃ p, walk ⟨t, a⟩ path = some ⟨.basic name k, p⟩ ∧
      p % (match k with | .one => 1 | .two => 2 | .four => 4 | .complex64 => 4 | _ => 8) = 0 := by
  obtain ⟨o, ho⟩ := selects_at.mp h
  refine ⟨a + o, walk_at ho ha, ?_⟩
  have := (at_align ho).1
  rw [Ty.align] at this
  cases k <;> simp only [Kind.align] at this ⊢ <;> omega

theorem field_before_end : ∀ (fs : Fields) (off i : Nat) {o : Nat} {t : Ty}, fs.lastEmpty = false → fs.field off i = some (o, t) → o < fs.endFrom off
  | .nil, _, _, _, _, _, h => by simp [Fields.field] at h
  | .cons u .nil, off, 0, o, t, hl, h => by
    simp only [Fields.field, Option.some.injEq, Prod.mk.injEq] at h
    obtain ⟨rfl, rfl⟩ := h
    rw [Fields.lastEmpty, beq_eq_false_iff_ne] at hl
    rw [Fields.endFrom, Fields.endFrom]
    omega
  | .cons u .nil, off, i + 1, o, t, hl, h => by simp [Fields.field] at h
  | .cons u (.cons v rest), off, 0, o, t, hl, h => by
    simp only [Fields.field, Option.some.injEq, Prod.mk.injEq] at h
    obtain ⟨rfl, rfl⟩ := h
    rw [Fields.lastEmpty] at hl
    · have h1 := field_before_end (.cons v rest) (roundUp off u.align + u.size) 0 hl rfl
      have h2 := le_roundUp (roundUp off u.align + u.size) (align_pos v)
      rw [Fields.endFrom]
      omega
    · intro h; cases h
  | .cons u (.cons v rest), off, i + 1, o, t, hl, h => by
    rw [Fields.lastEmpty] at hl
    · rw [Fields.field] at h
      rw [Fields.endFrom]
      exact field_before_end _ _ i hl h
    · intro h; cases h

theorem at_inside {t : Ty} {path : List Sel} {o : Nat} {u : Ty} (h : At t path o u) (h0 : 0 < t.size) : o < t.size := by
  induction h with
  | here t => exact h0
  | field name fs i off t path o u h r ih =>
    have b := (field_bounds fs 0 i h).2
    have e := end_le_size name fs
    have br := at_bound r
    by_cases hz : 0 < t.size
    · have := ih hz; omega
    · cases hl : fs.lastEmpty with
      | false => have := field_before_end fs 0 i hl h; omega
      | true =>
        by_cases he : 0 < fs.endFrom 0
        · have hs : fs.endFrom 0 + 1 ≤ (Ty.struct name fs).size := by
            rw [Ty.size, if_pos ⟨hl, he⟩]
            exact le_roundUp _ (by have := aligns_cases fs; omega)
          omega
        · omega
  | index n e i path o u h r ih =>
    rw [Ty.size] at h0 ⊢
    have he : 0 < e.size := Nat.pos_of_ne_zero (fun hz => by rw [hz, Nat.mul_zero] at h0; omega)
    have h1 : (i + 1) * e.size ≤ n * e.size := Nat.mul_le_mul_right _ h
    rw [Nat.succ_mul] at h1
    have := ih he
    omega

/-- C147: reading what a path selects gives as many bytes as its kind has. -/
theorem path_bytes (t : Ty) (path : List Sel) (name : Nat) (k : Kind) (h : Selects t path (.basic name k)) (a : Nat) (ha : a + t.size < 2 ^ 64) (m : Mem) :
    (seen m ⟨t, a⟩ path).map List.length =
      some (match k with | .one => 1 | .two => 2 | .four => 4 | .eight | .complex64 => 8 | .complex128 | .string | .interface => 16 | .slice => 24) := by
  obtain ⟨o, ho⟩ := selects_at.mp h
  rw [seen, walk_at ho ha]
  cases k <;> simp [read, Ty.size, Kind.size]

/-- C147: no pointer to a part points behind the variable, not even one to a part without bytes (unless the variable has none). -/
theorem path_inside (t : Ty) (path : List Sel) (u : Ty) (h : Selects t path u) (a : Nat) (ha : a + t.size < 2 ^ 64) (h0 : 0 < t.size) :
    ∃ p, walk ⟨t, a⟩ path = some ⟨u, p⟩ ∧ p < a + t.size := by
  obtain ⟨o, ho⟩ := selects_at.mp h
  exact ⟨a + o, walk_at ho ha, by have := at_inside ho h0; omega⟩

/-- C147: a value of another type is refused. -/
theorem path_checked (t : Ty) (path : List Sel) (u : Ty) (h : Selects t path u) (a : Nat) (ha : a + t.size < 2 ^ 64) (m : Mem) (val : Ptr) :
    (assign m ⟨t, a⟩ path val).isSome ↔ val.elem = u := by
  obtain ⟨o, ho⟩ := selects_at.mp h
  rw [assign_at ho ha]
  by_cases hv : val.elem = u <;> simp [hv]

theorem leaf_path {name : Nat} {k : Kind} {q : List Sel} {o : Nat} {u : Ty} (h : At (.basic name k) q o u) : q = [] := by
  cases h; rfl

theorem step_ok {vars : Nat → Ptr} {xs : List Nat} (hs : Separate vars xs) {op : Op} (ht : Typed vars xs op) {m : Mem} {c : Contents}
    (hc : ∀ x ∈ xs, ∀ q name k, Selects (vars x).elem q (.basic name k) → seen m (vars x) q = some (c x q)) :
    ∃ m', step vars m op = some m' ∧
      (∀ x ∈ xs, ∀ q name k, Selects (vars x).elem q (.basic name k) → seen m' (vars x) q = some (c.assign op x q)) ∧
      ∀ b, (∀ x ∈ xs, b < (vars x).data ∨ (vars x).data + (vars x).elem.size ≤ b) → m' b = m b := by
  obtain ⟨hd, hsrc, u, h1, h2⟩ := ht
  obtain ⟨o1, h1⟩ := selects_at.mp h1
  obtain ⟨o2, h2⟩ := selects_at.mp h2
  have a1 := hs.1 _ hd
  have a2 := hs.1 _ hsrc
  have b1 := at_bound h1
  refine ⟨move m u.size ((vars op.dst).data + o1) ((vars op.src).data + o2), ?_, ?_, ?_⟩
  · rw [step, walk_at h2 a2, Option.bind_some, assign_at h1 a1, if_pos rfl]
  · intro x hx q name k hq
    obtain ⟨o, ho⟩ := selects_at.mp hq
    have ax := hs.1 _ hx
    have bx := at_bound ho
    have hold := hc x hx q name k hq
    rw [seen, walk_at ho ax] at hold ⊢
    simp only [Option.map_some, Option.some.injEq] at hold ⊢
    rw [Contents.assign]
    by_cases hxd : x = op.dst
    · subst hxd
      by_cases hp : op.path <+: q
      · rw [if_pos ⟨rfl, hp⟩]
        obtain ⟨r, rfl⟩ := hp
        rw [List.drop_left]
        obtain ⟨p1, p2, u', e1, e2, rfl⟩ := at_split ho
        obtain ⟨rfl, rfl⟩ := at_det h1 e1
        have hsel : At (vars op.src).elem (op.from_ ++ r) (o2 + p2) (.basic name k) := at_append h2 e2
        have hval := hc op.src hsrc _ name k (selects_at.mpr ⟨_, hsel⟩)
        rw [seen, walk_at hsel a2] at hval
        simp only [Option.map_some, Option.some.injEq] at hval
        rw [← hval, ← Nat.add_assoc, ← Nat.add_assoc]
        exact read_part (at_bound e2)
      · rw [if_neg (fun h => hp h.2), ← hold]
        have hq' : ¬ q <+: op.path := by
          rintro ⟨r, hr⟩
          rw [← hr] at h1
          obtain ⟨p1, p2, u', e1, e2, _⟩ := at_split h1
          obtain ⟨rfl, rfl⟩ := at_det ho e1
          have := leaf_path e2
          subst this
          rw [List.append_nil] at hr
          exact hp (hr ▸ List.prefix_rfl)
        have := at_apart h1 ho hp hq'
        exact read_other (by omega)
    · rw [if_neg (fun h => hxd h.1), ← hold]
      have := hs.2 x hx op.dst hd hxd
      exact read_other (by omega)
  · intro b hb
    have := hb _ hd
    simp only [move]
    rw [if_neg (by omega)]

/-- C147: a program of assignments does to every part of every variable what the language does, and to nothing outside of them, whatever the padding, also if source and destination overlap. -/
theorem program (vars : Nat → Ptr) (xs : List Nat) (hs : Separate vars xs) : ∀ (ops : List Op) (m : Mem) (c : Contents),
    (∀ op ∈ ops, Typed vars xs op) →
    (∀ x ∈ xs, ∀ q name k, Selects (vars x).elem q (.basic name k) → seen m (vars x) q = some (c x q)) →
    ∃ m', run vars m ops = some m' ∧
      (∀ x ∈ xs, ∀ q name k, Selects (vars x).elem q (.basic name k) → seen m' (vars x) q = some (c.run ops x q)) ∧
      ∀ b, (∀ x ∈ xs, b < (vars x).data ∨ (vars x).data + (vars x).elem.size ≤ b) → m' b = m b
  | [], m, c, _, hc => ⟨m, rfl, hc, fun _ _ => rfl⟩
  | op :: ops, m, c, ht, hc => by
    obtain ⟨m1, s1, s2, s3⟩ := step_ok hs (ht op (.head _)) hc
    obtain ⟨m2, r1, r2, r3⟩ := program vars xs hs ops m1 (c.assign op) (fun o ho => ht o (.tail _ ho)) s2
    exact ⟨m2, by rw [run, s1, Option.bind_some, r1], r2, fun b hb => by rw [r3 b hb, s3 b hb]⟩

/-! ### A concrete case -/

/-- `struct { A bool; B struct { C int16; D [2]string; E struct{} } }`. -/
def sample : Ty := .struct 0 (.cons (.basic 0 .one) (.cons (.struct 1 (.cons (.basic 1 .two) (.cons (.array 2 (.basic 2 .string)) (.cons (.struct 2 .nil) .nil)))) .nil))

/-- Its size is 56, D is 16 bytes on, and the empty struct at the end does not point behind it. -/
example : sample.size = 56 ∧ walk ⟨sample, 1000⟩ [.field 1, .field 1, .index 1] = some ⟨.basic 2 .string, 1032⟩ ∧
    walk ⟨sample, 1000⟩ [.field 1, .field 2] = some ⟨.struct 2 .nil, 1048⟩ := by decide +kernel

/-- Two such variables, of which D[0] of the second becomes D[1] of the first, and then B of the first all of the second's. -/
def sampleVars : Nat → Ptr := fun x => ⟨sample, 1000 + 100 * x⟩

/-- The program. -/
def sampleOps : List Op := [⟨1, [.field 1, .field 1, .index 0], 0, [.field 1, .field 1, .index 1]⟩, ⟨0, [.field 1], 1, [.field 1]⟩]

example : Separate sampleVars [0, 1] := by
  have hz : sample.size = 56 := by decide +kernel
  constructor
  · intro x hx
    have : x = 0 ∨ x = 1 := by simpa using hx
    simp only [sampleVars, hz]
    omega
  · intro x hx y hy hne
    have h1 : x = 0 ∨ x = 1 := by simpa using hx
    have h2 : y = 0 ∨ y = 1 := by simpa using hy
    simp only [sampleVars, hz]
    omega

example : ∀ op ∈ sampleOps, Typed sampleVars [0, 1] op := by
  intro op hop
  have : op = ⟨1, [.field 1, .field 1, .index 0], 0, [.field 1, .field 1, .index 1]⟩ ∨ op = ⟨0, [.field 1], 1, [.field 1]⟩ := by simpa [sampleOps] using hop
  rcases this with rfl | rfl
  · exact ⟨by simp, by simp, _, .field _ _ _ _ _ _ rfl (.field _ _ _ _ _ _ rfl (.index _ _ _ _ _ (by omega) (by omega) (.here _))),
      .field _ _ _ _ _ _ rfl (.field _ _ _ _ _ _ rfl (.index _ _ _ _ _ (by omega) (by omega) (.here _)))⟩
  · exact ⟨by simp, by simp, _, .field _ _ _ _ _ _ rfl (.here _), .field _ _ _ _ _ _ rfl (.here _)⟩

example : ((run sampleVars (fun a => a) sampleOps).bind fun m => seen m (sampleVars 0) [.field 1, .field 1, .index 0]) =
    some [1032, 1033, 1034, 1035, 1036, 1037, 1038, 1039, 1040, 1041, 1042, 1043, 1044, 1045, 1046, 1047] := by decide +kernel

end Verif.Reflect2.Layout
