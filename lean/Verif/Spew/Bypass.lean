import Verif.Basic

/-!
# C139: reading values that reflection protects

Model of `init` and `unsafeReflectValue` of test/go-spew/spew/bypass.go, and of as much of package reflect as they look into, in
the layouts that its versions have had.
-/

namespace Verif.Spew.Bypass

/-! ### Package reflect, in its versions -/

/-- A type, as far as test/go-spew/spew/bypass.go 122-152 looks at it: its kind, and the pointer to it (`reflect.PtrTo`). -/
inductive RType
  | base (id kind : Nat) (pointers : Bool)
  | ptr (t : RType)
  deriving DecidableEq

/-- Whether values of the type have pointers in them (`rtype.pointers`), by which package reflect chooses between its fields, test/go-spew/spew/bypass.go
67-72. -/
def RType.pointers : RType → Bool
  | .base _ _ p => p
  | .ptr _ => true

/-- `reflect.Type.Kind`, with the numbers of package reflect. Called at test/go-spew/spew/bypass.go 133. -/
def RType.kind : RType → Nat
  | .base _ k _ => k
  | .ptr _ => 22

/-- How a version of package reflect lays out a `reflect.Value`: whether there is a field for scalars, at which bit the kind is, and
the bits for read-only, indirect and addressable.  The versions are told at test/go-spew/spew/bypass.go 38-59, 67-72, 83-87 and
96-105. -/
structure Layout where
  scalar : Bool
  kindShift : Nat
  ro : Nat
  indir : Nat
  addr : Nat
  deriving DecidableEq

/-- Flags before the kind took the low bits. Models the values at test/go-spew/spew/bypass.go 60-63. -/
def oldFlags (scalar : Bool) : Layout := ⟨scalar, 4, 1 <<< 0, 1 <<< 1, 1 <<< 2⟩

/-- Flags with the kind in the low bits. Models the values at test/go-spew/spew/bypass.go 92-94. -/
def midFlags (scalar : Bool) : Layout := ⟨scalar, 0, 1 <<< 5, 1 <<< 6, 1 <<< 7⟩

/-- Flags with two bits for read-only. Models the values at test/go-spew/spew/bypass.go 107-108. -/
def newFlags (scalar : Bool) : Layout := ⟨scalar, 0, 3 <<< 5, 1 <<< 7, 1 <<< 8⟩

/-- The versions of package reflect that test/go-spew/spew/bypass.go 38-43, 67-72, 83-87 and 96-105 tell of: the field for scalars came
and went before the kind took the low bits. -/
inductive Version : Layout → Prop
  | old (scalar : Bool) : Version (oldFlags scalar)
  | mid : Version (midFlags false)
  | new : Version (newFlags false)

/-- A `reflect.Value`: its type, the pointer field, the field for scalars if there is one, and the flags.  Numbers are words. Passed
at test/go-spew/spew/bypass.go 122. -/
structure Value where
  typ : RType
  ptr : Nat
  scalar : Nat
  flag : Nat
  deriving DecidableEq

/-- Memory in words. -/
abbrev Mem := Nat → Nat

/-- The words of a `reflect.Value` at an address, the type first, which is not looked at: `&v` at test/go-spew/spew/bypass.go 125-126. -/
def place (L : Layout) (mem : Mem) (base : Nat) (v : Value) : Mem := fun a =>
  if a = base + 1 then v.ptr
  else if L.scalar then (if a = base + 2 then v.scalar else if a = base + 3 then v.flag else mem a)
  else if a = base + 2 then v.flag else mem a

/-- The number of words of a `reflect.Value`: `unsafe.Sizeof(vv)`, test/go-spew/spew/bypass.go 78. -/
def Layout.words (L : Layout) : Nat := if L.scalar then 4 else 3

/-- The flags of a kind with further bits, in a layout. Models what test/go-spew/spew/bypass.go 89-91 takes apart. -/
def Layout.flags (L : Layout) (kind bits : Nat) : Nat := (kind <<< L.kindShift) ||| bits

/-- `reflect.ValueOf(0xf00)`, test/go-spew/spew/bypass.go 77: the kind of int is 2.  Old versions, and those with the field for scalars,
keep the integer in the value itself; others point to it, at `loc`. -/
def valueOf0xf00 (L : Layout) (direct : Bool) (loc : Nat) : Value :=
  if L.scalar then ⟨.base 0 2 false, 0, 0xf00, L.flags 2 0⟩
  else if direct then ⟨.base 0 2 false, 0xf00, 0, L.flags 2 0⟩
  else ⟨.base 0 2 false, loc, 0, L.flags 2 L.indir⟩

/-- `reflect.NewAt`, called at test/go-spew/spew/bypass.go 146. -/
def newAt (L : Layout) (t : RType) (p : Nat) : Value := ⟨.ptr t, p, 0, L.flags 22 0⟩

/-- `Value.Elem` of a pointer, called at test/go-spew/spew/bypass.go 149: `none` for the zero `Value`, which a nil pointer gives. -/
def elem (L : Layout) (mem : Mem) (v : Value) : Option Value :=
  match v.typ with
  | .ptr t =>
    let p := if v.flag &&& L.indir ≠ 0 then mem v.ptr else v.ptr
    if p = 0 then none
    else some ⟨t, p, 0, L.flags t.kind ((v.flag &&& L.ro) ||| L.indir ||| L.addr)⟩
  | _ => none

/-! ### Model -/

/-- The package variables, test/go-spew/spew/bypass.go 37-64. -/
structure Vars where
  offsetPtr : Nat
  offsetScalar : Nat
  offsetFlag : Nat
  flagKindShift : Nat
  flagRO : Nat
  flagIndir : Nat
  deriving DecidableEq

/-- `init`, test/go-spew/spew/bypass.go 66-111, with `vv` of `size` words at `base`; offsets in words. -/
def init (size : Nat) (mem : Mem) (base : Nat) : Vars :=
  let o : Nat × Nat := if size = 4 then (2, 3) else (0, 2)
  let upfv := mem (base + o.2)
  let flagKindMask := (1 <<< 5 - 1) <<< 4
  if (upfv &&& flagKindMask) >>> 4 ≠ 2 then
    if upfv &&& (1 <<< 6) = 0 then ⟨1, o.1, o.2, 0, 3 <<< 5, 1 <<< 7⟩
    else ⟨1, o.1, o.2, 0, 1 <<< 5, 1 <<< 6⟩
  else ⟨1, o.1, o.2, 4, 1 <<< 0, 1 <<< 1⟩

/-- The kinds with a case of their own at test/go-spew/spew/bypass.go 134-139: uintptr, chan, func, map, ptr and unsafe pointer. -/
def reference (kind : Nat) : Bool := kind = 12 || kind = 18 || kind = 19 || kind = 21 || kind = 22 || kind = 26

/-- `unsafeReflectValue`, test/go-spew/spew/bypass.go 122-152, with `v` at `base`. -/
def unsafeReflectValue (vars : Vars) (L : Layout) (mem : Mem) (base : Nat) (v : Value) : Option Value :=
  let mem := place L mem base v
  let rvf := mem (base + vars.offsetFlag)
  if rvf &&& vars.flagIndir ≠ 0 then
    (elem L mem (newAt L (.ptr v.typ) (base + vars.offsetPtr))).bind (elem L mem)
  else if vars.offsetScalar ≠ 0 ∧ reference v.typ.kind = false then
    elem L mem (newAt L v.typ (base + vars.offsetScalar))
  else elem L mem (newAt L v.typ (base + vars.offsetPtr))

/-! ### Specification -/

/-- A value that may be read and handed out: no bit for read-only. -/
def Readable (L : Layout) (v : Value) : Prop := ∀ i, L.ro.testBit i = true → v.flag.testBit i = false

/-- A value whose address can be taken. -/
def Addressable (L : Layout) (v : Value) : Prop := ∀ i, L.addr.testBit i = true → v.flag.testBit i = true

/-- The value is kept somewhere else, and the pointer field says where. -/
def Elsewhere (L : Layout) (v : Value) : Prop := ∃ i, L.indir.testBit i = true ∧ v.flag.testBit i = true

/-- What a value is made of: the word number `i` of it.  Values kept in the `reflect.Value` itself are of one word; that word is in
the field for scalars, if there is one and the type has no pointers. -/
def Word (L : Layout) (mem : Mem) (v : Value) (i w : Nat) : Prop :=
  (Elsewhere L v ∧ w = mem (v.ptr + i)) ∨
  (¬ Elsewhere L v ∧ i = 0 ∧ w = if L.scalar = true ∧ v.typ.pointers = false then v.scalar else v.ptr)

/-- Types whose kind tells whether they have pointers in them: pointers, channels, functions, maps and unsafe pointers do; others of
one word do not; and no `uintptr`. -/
def Telling (t : RType) : Prop := t.kind ≠ 12 ∧ (t.pointers = true ↔ t.kind ∈ [18, 19, 21, 22, 26])

/-! ### Proofs -/

/-- C139: whatever the version, `init` finds where the fields of a `reflect.Value` are and what its flags mean. -/
theorem init_right (L : Layout) (hL : Version L) (mem : Mem) (base loc : Nat) (direct : Bool) (hd : direct = true → L.kindShift = 4) :
    init L.words (place L mem base (valueOf0xf00 L direct loc)) base =
      ⟨1, if L.scalar then 2 else 0, if L.scalar then 3 else 2, L.kindShift, L.ro, L.indir⟩ := by
  have ne1 : base + 2 ≠ base + 1 := by omega
  have ne2 : base + 3 ≠ base + 1 := by omega
  have ne3 : base + 3 ≠ base + 2 := by omega
  cases hL with
  | old scalar =>
    cases scalar <;> cases direct <;>
      simp [oldFlags, Layout.words, init, place, valueOf0xf00, Layout.flags]
  | mid =>
    cases direct
    · simp [midFlags, Layout.words, init, place, valueOf0xf00, Layout.flags]
    · cases hd rfl
  | new =>
    cases direct
    · simp [newFlags, Layout.words, init, place, valueOf0xf00, Layout.flags]
    · cases hd rfl

/-- What `init` leaves in the package variables. -/
def found (L : Layout) : Vars := ⟨1, if L.scalar then 2 else 0, if L.scalar then 3 else 2, L.kindShift, L.ro, L.indir⟩

theorem and_ne_zero (x y : Nat) : x &&& y ≠ 0 ↔ ∃ i, y.testBit i = true ∧ x.testBit i = true := by
  constructor
  · intro h
    obtain ⟨i, hi⟩ := Nat.exists_testBit_ne_of_ne h
    rw [Nat.testBit_and, Nat.zero_testBit] at hi
    cases hx : x.testBit i <;> cases hy : y.testBit i <;> simp [hx, hy] at hi
    exact ⟨i, hy, hx⟩
  · rintro ⟨i, hy, hx⟩ h
    have : (x &&& y).testBit i = false := by rw [h, Nat.zero_testBit]
    rw [Nat.testBit_and, hx, hy] at this
    cases this

theorem and_eq_zero {x y : Nat} (h : x &&& y = 0) : ∀ i, y.testBit i = true → x.testBit i = false := by
  intro i hy
  cases hx : x.testBit i with
  | false => rfl
  | true => exact absurd h ((and_ne_zero x y).mpr ⟨i, hy, hx⟩)

/-- The flags of a value that `Elem` has made from a pointer without flags: all kinds, in all layouts. -/
theorem elem_flags : ∀ k, k < 32 → ∀ L ∈ [oldFlags false, oldFlags true, midFlags false, newFlags false],
    L.flags k (0 ||| L.indir ||| L.addr) &&& L.ro = 0 ∧ L.flags k (0 ||| L.indir ||| L.addr) &&& L.indir ≠ 0 ∧
    L.flags k (0 ||| L.indir ||| L.addr) &&& L.addr = L.addr := by decide

theorem version_mem {L : Layout} (h : Version L) : L ∈ [oldFlags false, oldFlags true, midFlags false, newFlags false] := by
  cases h with
  | old scalar => cases scalar <;> simp
  | mid => simp
  | new => simp

theorem pointer_flags {L : Layout} (h : Version L) : L.flags 22 0 &&& L.indir = 0 ∧ L.flags 22 0 &&& L.ro = 0 := by
  cases h with
  | old scalar => cases scalar <;> decide
  | mid => decide
  | new => decide

/-- The value of a type at an address, as `Elem` gives it. -/
theorem elem_newAt {L : Layout} (h : Version L) (mem : Mem) (t : RType) (p : Nat) (hp : p ≠ 0) :
    elem L mem (newAt L t p) = some ⟨t, p, 0, L.flags t.kind (0 ||| L.indir ||| L.addr)⟩ := by
  obtain ⟨h1, h2⟩ := pointer_flags h
  simp only [elem, newAt, h1, h2, ne_eq, not_true, if_false, hp]

theorem addressable_of {x y : Nat} (h : x &&& y = y) : ∀ i, y.testBit i = true → x.testBit i = true := by
  intro i hi
  rw [← h, Nat.testBit_and] at hi
  cases hx : x.testBit i with
  | true => rfl
  | false => rw [hx] at hi; cases hi

theorem reference_telling {t : RType} (h : Telling t) : reference t.kind = t.pointers := by
  obtain ⟨h1, h2⟩ := h
  cases hp : t.pointers with
  | true =>
    have := h2.mp hp
    simp only [List.mem_cons, List.not_mem_nil, or_false] at this
    simp only [reference, Bool.or_eq_true, decide_eq_true_eq]
    omega
  | false =>
    have h3 : t.kind ∉ [18, 19, 21, 22, 26] := fun hm => by rw [h2.mpr hm] at hp; cases hp
    simp only [List.mem_cons, List.not_mem_nil, or_false, not_or] at h3
    simp only [reference, Bool.or_eq_false_iff, decide_eq_false_iff_not]
    omega

/-- C139 (partly): in every version, whatever the flags of a value are, the value made from it is of the same type, may be read and handed out,
has an address, and is made of the same words; where the value is kept elsewhere, the new one is kept at the same place.  Missing: in the versions with a field
for scalars, values kept in the `reflect.Value` itself whose kind does not tell where, see `uintptr_lost` and `struct_lost`. -/
theorem bypass_partial (L : Layout) (hL : Version L) (mem0 : Mem) (base0 loc : Nat) (direct : Bool) (hd : direct = true → L.kindShift = 4)
    (mem : Mem) (base : Nat) (v : Value) (hk : v.typ.kind < 32) (hp : Elsewhere L v → v.ptr ≠ 0)
    (ht : L.scalar = true → ¬ Elsewhere L v → Telling v.typ) :
    ∃ r, unsafeReflectValue (init L.words (place L mem0 base0 (valueOf0xf00 L direct loc)) base0) L mem base v = some r ∧
      r.typ = v.typ ∧ Readable L r ∧ Addressable L r ∧ (Elsewhere L v → Elsewhere L r ∧ r.ptr = v.ptr) ∧
      ∀ i w, Word L (place L mem base v) v i w → Word L (place L mem base v) r i w := by
  rw [init_right L hL mem0 base0 loc direct hd]
  have flag : place L mem base v (base + if L.scalar then 3 else 2) = v.flag := by
    cases hs : L.scalar <;> simp [place, hs]
  have ptr : place L mem base v (base + 1) = v.ptr := by simp [place]
  obtain ⟨f1, f2, f3⟩ := elem_flags v.typ.kind hk L (version_mem hL)
  have good : ∀ p, Readable L ⟨v.typ, p, 0, L.flags v.typ.kind (0 ||| L.indir ||| L.addr)⟩ ∧
      Addressable L ⟨v.typ, p, 0, L.flags v.typ.kind (0 ||| L.indir ||| L.addr)⟩ ∧
      Elsewhere L ⟨v.typ, p, 0, L.flags v.typ.kind (0 ||| L.indir ||| L.addr)⟩ :=
    fun p => ⟨and_eq_zero f1, addressable_of f3, (and_ne_zero _ _).mp f2⟩
  simp only [unsafeReflectValue, flag]
  by_cases he : v.flag &&& L.indir ≠ 0
  · have he' : Elsewhere L v := (and_ne_zero _ _).mp he
    rw [if_pos he, elem_newAt hL _ _ _ (by omega)]
    obtain ⟨_, g2, _⟩ := elem_flags 22 (by decide) L (version_mem hL)
    obtain ⟨g1, _, _⟩ := elem_flags 22 (by decide) L (version_mem hL)
    refine ⟨⟨v.typ, v.ptr, 0, L.flags v.typ.kind (0 ||| L.indir ||| L.addr)⟩, ?_, rfl, (good _).1, (good _).2.1,
      fun _ => ⟨(good _).2.2, rfl⟩, ?_⟩
    · simp only [Option.bind_some, elem, RType.kind, g1, g2, ne_eq, not_false_eq_true, if_true, ptr, hp he', if_false]
    · rintro i w (⟨_, hw⟩ | ⟨hn, _⟩)
      · exact .inl ⟨(good _).2.2, hw⟩
      · exact absurd he' hn
  · have he' : ¬ Elsewhere L v := fun h => he ((and_ne_zero _ _).mpr h)
    rw [if_neg he]
    have whole : ∀ p, place L mem base v p = (if L.scalar = true ∧ v.typ.pointers = false then v.scalar else v.ptr) →
        ∀ i w, Word L (place L mem base v) v i w →
          Word L (place L mem base v) ⟨v.typ, p, 0, L.flags v.typ.kind (0 ||| L.indir ||| L.addr)⟩ i w := by
      rintro p hpl i w (⟨h, _⟩ | ⟨_, rfl, rfl⟩)
      · exact absurd h he'
      · exact .inl ⟨(good _).2.2, hpl.symm⟩
    by_cases hs : (if L.scalar then 2 else 0) ≠ 0 ∧ reference v.typ.kind = false
    · have hsc : L.scalar = true := by
        cases h : L.scalar with
        | true => rfl
        | false => rw [h] at hs; exact absurd rfl hs.1
      rw [if_pos hs, elem_newAt hL _ _ _ (by rw [hsc]; simp)]
      refine ⟨_, rfl, rfl, (good _).1, (good _).2.1, fun h => absurd h he', whole (base + if L.scalar then 2 else 0) ?_⟩
      rw [if_pos (show L.scalar = true ∧ v.typ.pointers = false from ⟨hsc, by rw [← reference_telling (ht hsc he')]; exact hs.2⟩)]
      simp [place, hsc]
    · rw [if_neg hs, elem_newAt hL _ _ _ (by omega)]
      refine ⟨_, rfl, rfl, (good _).1, (good _).2.1, fun h => absurd h he', whole (base + 1) ?_⟩
      rw [if_neg (fun h => hs ⟨by rw [if_pos h.1]; decide, by rw [reference_telling (ht h.1 he')]; exact h.2⟩)]
      exact ptr

/-! ### What is not so -/

/-- The full statement of C139 is false: in the versions with a field for scalars, a `uintptr` kept in the value itself is read from the pointer field,
whatever it is. -/
theorem uintptr_lost (mem : Mem) (base id scalar flag : Nat) (hf : flag &&& (oldFlags true).indir = 0) (hs : scalar ≠ 0) :
    Version (oldFlags true) ∧ Word (oldFlags true) (place (oldFlags true) mem base ⟨.base id 12 false, 0, scalar, flag⟩) ⟨.base id 12 false, 0, scalar, flag⟩ 0 scalar ∧
    ∃ r, unsafeReflectValue (found (oldFlags true)) (oldFlags true) mem base ⟨.base id 12 false, 0, scalar, flag⟩ = some r ∧
      ¬ Word (oldFlags true) (place (oldFlags true) mem base ⟨.base id 12 false, 0, scalar, flag⟩) r 0 scalar := by
  have hn : ¬ Elsewhere (oldFlags true) ⟨.base id 12 false, 0, scalar, flag⟩ := fun h => (and_ne_zero flag _).mpr h hf
  refine ⟨.old true, .inr ⟨hn, rfl, rfl⟩, ⟨.base id 12 false, base + 1, 0, (oldFlags true).flags 12 (0 ||| (oldFlags true).indir ||| (oldFlags true).addr)⟩, ?_, ?_⟩
  · have flag' : place (oldFlags true) mem base ⟨.base id 12 false, 0, scalar, flag⟩ (base + 3) = flag := by
      simp [place, oldFlags]
    have : (found (oldFlags true)).offsetFlag = 3 := rfl
    have h2 : (found (oldFlags true)).flagIndir = (oldFlags true).indir := rfl
    simp only [unsafeReflectValue, this, flag', h2, hf, ne_eq, not_true, if_false]
    rw [if_neg (fun h => by cases h.2)]
    exact elem_newAt (.old true) _ _ _ (by show base + 1 ≠ 0; omega)
  · rintro (⟨_, hw⟩ | ⟨h, _⟩)
    · apply hs
      rw [hw]
      simp [place]
    · exact h ((and_ne_zero _ _).mp (elem_flags 12 (by decide) (oldFlags true) (by simp)).2.1)

/-- The full statement of C139 is false: in those versions a struct of one pointer, kept in the value itself, is read from the field for scalars. -/
theorem struct_lost (mem : Mem) (base id ptr flag : Nat) (hf : flag &&& (oldFlags true).indir = 0) (hp : ptr ≠ 0) :
    Word (oldFlags true) (place (oldFlags true) mem base ⟨.base id 25 true, ptr, 0, flag⟩) ⟨.base id 25 true, ptr, 0, flag⟩ 0 ptr ∧
    ∃ r, unsafeReflectValue (found (oldFlags true)) (oldFlags true) mem base ⟨.base id 25 true, ptr, 0, flag⟩ = some r ∧
      ¬ Word (oldFlags true) (place (oldFlags true) mem base ⟨.base id 25 true, ptr, 0, flag⟩) r 0 ptr := by
  have hn : ¬ Elsewhere (oldFlags true) ⟨.base id 25 true, ptr, 0, flag⟩ := fun h => (and_ne_zero flag _).mpr h hf
  refine ⟨.inr ⟨hn, rfl, rfl⟩, ⟨.base id 25 true, base + 2, 0, (oldFlags true).flags 25 (0 ||| (oldFlags true).indir ||| (oldFlags true).addr)⟩, ?_, ?_⟩
  · have flag' : place (oldFlags true) mem base ⟨.base id 25 true, ptr, 0, flag⟩ (base + 3) = flag := by
      simp [place, oldFlags]
    have : (found (oldFlags true)).offsetFlag = 3 := rfl
    have h2 : (found (oldFlags true)).flagIndir = (oldFlags true).indir := rfl
    simp only [unsafeReflectValue, this, flag', h2, hf, ne_eq, not_true, if_false]
    rw [if_pos ⟨by decide, rfl⟩]
    exact elem_newAt (.old true) _ _ _ (by show base + 2 ≠ 0; omega)
  · rintro (⟨_, hw⟩ | ⟨h, _⟩)
    · apply hp
      rw [hw]
      simp [place, oldFlags]
    · exact h ((and_ne_zero _ _).mp (elem_flags 25 (by decide) (oldFlags true) (by simp)).2.1)

/-! ### Cases -/

/-- A string of two words at 50 in an unexported field, in the newest version: it is read-only before and not after. -/
example : Version (newFlags false) ∧
    ¬ Readable (newFlags false) ⟨.base 7 24 true, 50, 0, 24 ||| 1 <<< 5 ||| 1 <<< 7⟩ ∧
    unsafeReflectValue (found (newFlags false)) (newFlags false) (fun a => a) 100 ⟨.base 7 24 true, 50, 0, 24 ||| 1 <<< 5 ||| 1 <<< 7⟩ =
      some ⟨.base 7 24 true, 50, 0, 24 ||| 1 <<< 7 ||| 1 <<< 8⟩ := by
  refine ⟨.new, ?_, by decide⟩
  intro h
  have := h 5 (by decide)
  revert this
  decide

/-- An integer in the field for scalars, and a map in the pointer field next to it. -/
example : unsafeReflectValue (found (oldFlags true)) (oldFlags true) (fun a => a) 100 ⟨.base 0 2 false, 0, 7, 2 <<< 4 ||| 1⟩ =
      some ⟨.base 0 2 false, 102, 0, 2 <<< 4 ||| 6⟩ ∧
    unsafeReflectValue (found (oldFlags true)) (oldFlags true) (fun a => a) 100 ⟨.base 0 21 true, 9, 0, 21 <<< 4 ||| 1⟩ =
      some ⟨.base 0 21 true, 101, 0, 21 <<< 4 ||| 6⟩ := by decide

end Verif.Spew.Bypass
