import Verif.Reflect2.Types

/-!
# C171: single variables with the safe configuration

Model of `Set`, `IsNil` and `Indirect` of `safeType` (reflect2/safe_type.go:41-43, 57-62, 68-70), which call package reflect, beside those of
the unsafe types (Types.lean), in the same memory.  What package reflect does is taken from its documentation and sources: `Elem` of a pointer is the
variable, of a nil pointer the zero Value, of nil or of what is no pointer a panic; the zero Value panics in `IsNil`, `Set` and
`Interface`.
-/

namespace Verif.Reflect2.Types

/-! ### Model -/

mutual
/-- Whether package reflect and the compiler keep a value of the type in the data word of an interface (`ifaceIndir` is false), used by
`Interface` in reflect2/safe_type.go:42. -/
def Ty.inWord : Ty → Bool
  | .ptr _ => true
  | .map _ _ => true
  | .chan _ => true
  | .func _ => true
  | .unsafePointer => true
  | .struct fs => fs.inWord
  | .array n e => if n = 1 then e.inWord else false
  | _ => false
/-- The struct case of `Ty.inWord` (reflect2/safe_type.go:42). -/
def Fields.inWord : Fields → Bool
  | .cons _ t .nil => t.inWord
  | _ => false
end

/-- `reflect.ValueOf(obj).Elem()`, reflect2/safe_type.go:61, 69: type and address of the variable, `some none` for a nil pointer (the zero Value), `none`
where it panics. -/
def elemOf (obj : EFace) : Option (Option (Ty × Nat)) :=
  match obj.rtype with
  | some (.ptr e) => if obj.data = 0 then some none else some (some (e, obj.data))
  | _ => none

/-- `Value.IsNil`, called in reflect2/safe_type.go:61; versions of package reflect differ in whether it takes an `unsafe.Pointer` (`up`). -/
def valueIsNil (up : Bool) (m : Mem) (t : Ty) (p : Nat) : Option Bool :=
  match t with
  | .chan _ | .func _ | .map _ _ | .ptr _ | .eface | .iface _ | .slice _ => some (m p = 0)
  | .unsafePointer => if up then some (m p = 0) else none
  | _ => none

/-- `IsNil`, reflect2/safe_type.go:57-62.  The type itself is not used. -/
def safeIsNil (up : Bool) (m : Mem) (obj : EFace) : Option Bool :=
  if obj.rtype = none then some true else
  match elemOf obj with
  | some (some (e, p)) => valueIsNil up m e p
  | _ => none

/-- Words written at an address (by `Value.Set`, reflect2/safe_type.go:69). -/
def put (m : Mem) (p : Nat) (ws : List Nat) : Mem := fun a => if p ≤ a ∧ a < p + ws.length then ws.getD (a - p) 0 else m a

/-- `Set`, reflect2/safe_type.go:68-70.  `conv` gives the words of the variable at an address as a value of another type it may be
assigned to, `none` if it may not, and `Set` panics; for the same type the variable is copied. -/
def safeSet (conv : Ty → Ty → Mem → Nat → Option (List Nat)) (m : Mem) (obj val : EFace) : Option Mem :=
  match elemOf obj, elemOf val with
  | some (some (e, p)), some (some (f, v)) => if f = e then some (move m e.size p v) else (conv f e m v).map (put m p)
  | _, _ => none

/-- `Indirect`, reflect2/safe_type.go:41-43: `reflect.Indirect` leaves alone what is no pointer; `Interface` copies a variable that does not fit the
data word to new memory (at `fresh`). -/
def safeIndirect (rt : Runtime) (fresh : Nat) (m : Mem) (obj : EFace) : Option (Mem × EFace) :=
  match obj.rtype with
  | none => none
  | some (.ptr e) =>
    if obj.data = 0 then none else
    match e with
    | .eface => some (m, ⟨rt.typeAt (m obj.data), m (obj.data + 1)⟩)
    | .iface _ => some (m, if m obj.data = 0 then ⟨none, 0⟩ else ⟨rt.itabType (m obj.data), m (obj.data + 1)⟩)
    | e => if e.inWord then some (m, ⟨some e, m obj.data⟩) else some (move m e.size fresh obj.data, ⟨some e, fresh⟩)
  | some _ => some (m, obj)

/-! ### Set -/

/-- C171, partial: on pointers to two variables of the type, `Set` does the same with both configurations, and that is to copy the second
variable over the first. -/
theorem set_same_partial (conv) (m : Mem) (t : Ty) (p v : Nat) (hp : p ≠ 0) (hv : v ≠ 0) :
    ∃ m', set m t ⟨some (.ptr t), p⟩ ⟨some (.ptr t), v⟩ = some m' ∧ safeSet conv m ⟨some (.ptr t), p⟩ ⟨some (.ptr t), v⟩ = some m' ∧
      read m' p t.size = read m v t.size ∧ ∀ a, a < p ∨ p + t.size ≤ a → m' a = m a := by
  refine ⟨move m t.size p v, by simp [set, pointerTo, unsafeSet], by simp [safeSet, elemOf, hp, hv], read_move .., fun a ha => ?_⟩
  simp only [move]
  rw [if_neg (by omega)]

/-- C171 fails: with the safe configuration the type is not compared, so that a type sets variables of any other type, where the unsafe one
panics. -/
theorem set_unchecked (conv) (m : Mem) (t u : Ty) (h : u ≠ t) (p v : Nat) (hp : p ≠ 0) (hv : v ≠ 0) :
    set m t ⟨some (.ptr u), p⟩ ⟨some (.ptr u), v⟩ = none ∧
    ∃ m', safeSet conv m ⟨some (.ptr u), p⟩ ⟨some (.ptr u), v⟩ = some m' ∧ read m' p u.size = read m v u.size := by
  refine ⟨by simp [set, pointerTo, h], move m u.size p v, by simp [safeSet, elemOf, hp, hv], read_move ..⟩

/-- C171 fails: where the second variable is of a type that may be assigned to the first one's, the safe configuration converts it and the unsafe one
panics. -/
theorem set_converts (conv) (m : Mem) (t u : Ty) (h : u ≠ t) (p v : Nat) (hp : p ≠ 0) (hv : v ≠ 0) (ws : List Nat)
    (hc : conv u t m v = some ws) :
    set m t ⟨some (.ptr t), p⟩ ⟨some (.ptr u), v⟩ = none ∧
    ∃ m', safeSet conv m ⟨some (.ptr t), p⟩ ⟨some (.ptr u), v⟩ = some m' ∧ read m' p ws.length = ws := by
  refine ⟨by simp [set, pointerTo, h], put m p ws, by simp [safeSet, elemOf, hp, hv, h, hc], ?_⟩
  unfold read
  apply List.ext_getElem
  · simp
  · intro i h1 h2
    simp [put, h2]

/-- Both panic if an argument is nil or no pointer. -/
theorem set_no_pointer (conv) (m : Mem) (t : Ty) (obj val : EFace)
    (h : (∀ e, obj.rtype ≠ some (.ptr e)) ∨ (∀ e, val.rtype ≠ some (.ptr e))) :
    set m t obj val = none ∧ safeSet conv m obj val = none := by
  have key : ∀ x : EFace, (∀ e, x.rtype ≠ some (.ptr e)) → pointerTo t x = none ∧ elemOf x = none := by
    intro x hx
    refine ⟨by simp [pointerTo, hx t], ?_⟩
    unfold elemOf
    split
    · rename_i e he; exact absurd he (hx e)
    · rfl
  rcases h with h | h
  · have := key obj h
    simp [set, safeSet, this.1, this.2]
  · have := key val h
    refine ⟨?_, ?_⟩
    · unfold set; rw [this.1]; split <;> simp_all
    · unfold safeSet; rw [this.2]; split <;> simp_all

/-! ### IsNil -/

/-- C171, partial: on a pointer to a variable of a kind that can be nil, `IsNil` says the same with both configurations, namely whether the
variable is nil; of variables of type `interface{}` only those that hold no nil pointer (and a nil interface has a zero data word). -/
theorem isNil_same_partial (up : Bool) (m : Mem) (t : Ty) (ht : Nilable t) (p : Nat) (hp : p ≠ 0)
    (h2 : t = .eface → (m p = 0 ↔ m (p + 1) = 0)) :
    ∃ b, isNil m t ⟨some (.ptr t), p⟩ = some b ∧ safeIsNil up m ⟨some (.ptr t), p⟩ = some b ∧ (b = true ↔ NilVar m t p) := by
  obtain ⟨b, hb, hn⟩ := isNil_partial m t p hp (by rintro rfl; exact ht) h2
  refine ⟨b, hb, ?_, hn⟩
  have hs : ∃ c, safeIsNil up m ⟨some (.ptr t), p⟩ = some c ∧ (c = true ↔ NilVar m t p) := by
    cases t <;> first
      | exact absurd ht (fun h => h)
      | (refine ⟨decide (m p = 0), by simp [safeIsNil, elemOf, hp, valueIsNil], ?_⟩
         rw [decide_eq_true_eq]
         exact ⟨fun h => (by constructor; exact h), fun h => (by cases h; assumption)⟩)
  obtain ⟨c, hc, hcn⟩ := hs
  have : c = b := by
    cases c <;> cases b <;> simp_all
  rw [hc, this]

/-- With the safe configuration `IsNil` is right about every variable it takes, of type `interface{}` and `unsafe.Pointer` too (C81). -/
theorem safeIsNil_right (up : Bool) (m : Mem) (t : Ty) (p : Nat) (hp : p ≠ 0) (b : Bool)
    (h : safeIsNil up m ⟨some (.ptr t), p⟩ = some b) : b = true ↔ NilVar m t p := by
  cases t <;> simp [safeIsNil, elemOf, hp, valueIsNil] at h <;>
    first
    | (subst h
       rw [decide_eq_true_eq]
       exact ⟨fun h => (by constructor; exact h), fun h => (by cases h; assumption)⟩)
    | (obtain ⟨_, rfl⟩ := h
       rw [decide_eq_true_eq]
       exact ⟨fun h => (by constructor; exact h), fun h => (by cases h; assumption)⟩)

/-- C171 fails: of a variable of type `interface{}` that holds a nil pointer the unsafe configuration says that it is nil, the safe one that it is
not. -/
theorem isNil_differ_typed (up : Bool) (m : Mem) (p : Nat) (hp : p ≠ 0) (h0 : m p ≠ 0) (h1 : m (p + 1) = 0) :
    isNil m .eface ⟨some (.ptr .eface), p⟩ = some true ∧ safeIsNil up m ⟨some (.ptr .eface), p⟩ = some false :=
  ⟨(isNil_typed_nil m p hp h0 h1 0).1, by simp [safeIsNil, elemOf, hp, valueIsNil, h0]⟩

/-- The types no value of which is nil. -/
def NeverNil (t : Ty) : Prop := ∀ (m : Mem) (p : Nat), ¬ NilVar m t p

/-- C171 fails: on a pointer to a variable of a type without nil the unsafe configuration says that it is not nil, the safe one panics; on nil it is
the other way round, the unsafe configuration panics and the safe one says that it is nil. -/
theorem isNil_differ_kind (up : Bool) (m : Mem) (t : Ty) (ht : NeverNil t) (p : Nat) (hp : p ≠ 0) (w : Nat) :
    isNil m t ⟨some (.ptr t), p⟩ = some false ∧ safeIsNil up m ⟨some (.ptr t), p⟩ = none ∧
    isNil m t ⟨none, w⟩ = none ∧ safeIsNil up m ⟨none, w⟩ = some true := by
  cases t with
  | scalar n => simp [isNil, pointerTo, unsafeIsNil, hp, safeIsNil, elemOf, valueIsNil]
  | str => simp [isNil, pointerTo, unsafeIsNil, hp, safeIsNil, elemOf, valueIsNil]
  | array n e => simp [isNil, pointerTo, unsafeIsNil, hp, safeIsNil, elemOf, valueIsNil]
  | struct fs => simp [isNil, pointerTo, unsafeIsNil, hp, safeIsNil, elemOf, valueIsNil]
  | _ => exact absurd (by constructor; rfl) (ht (fun _ => 0) 1)

/-- C171 fails: a nil pointer to a variable is nil to the unsafe configuration, and the safe one panics, whatever the type. -/
theorem isNil_differ_pointer (up : Bool) (m : Mem) (t : Ty) :
    isNil m t ⟨some (.ptr t), 0⟩ = some true ∧ safeIsNil up m ⟨some (.ptr t), 0⟩ = none :=
  ⟨(isNil_argument m t ⟨some (.ptr t), 0⟩).2.2.1 rfl rfl, by simp [safeIsNil, elemOf]⟩

/-- C171 fails: the safe configuration answers about variables of other types, where the unsafe one panics. -/
theorem isNil_unchecked (up : Bool) (m : Mem) (t u : Ty) (h : u ≠ t) (hu : Nilable u) (p : Nat) (hp : p ≠ 0) :
    isNil m t ⟨some (.ptr u), p⟩ = none ∧ ∃ b, safeIsNil up m ⟨some (.ptr u), p⟩ = some b := by
  refine ⟨(isNil_argument m t ⟨some (.ptr u), p⟩).2.2.2 (.ptr u) (by simpa using h) rfl, ?_⟩
  cases u <;> first
    | exact absurd hu (fun h => h)
    | exact ⟨_, by simp [safeIsNil, elemOf, hp, valueIsNil]; rfl⟩

/-! ### Indirect -/

mutual
theorem inWord_iff : ∀ t : Ty, t.inWord = true ↔ Direct t
  | .scalar _ => ⟨fun h => (by cases h), fun h => (by cases h)⟩
  | .str => ⟨fun h => (by cases h), fun h => (by cases h)⟩
  | .unsafePointer => ⟨fun _ => .unsafePointer, fun _ => rfl⟩
  | .ptr e => ⟨fun _ => .ptr e, fun _ => rfl⟩
  | .chan e => ⟨fun _ => .chan e, fun _ => rfl⟩
  | .func n => ⟨fun _ => .func n, fun _ => rfl⟩
  | .map k e => ⟨fun _ => .map k e, fun _ => rfl⟩
  | .slice _ => ⟨fun h => (by cases h), fun h => (by cases h)⟩
  | .eface => ⟨fun h => (by cases h), fun h => (by cases h)⟩
  | .iface _ => ⟨fun h => (by cases h), fun h => (by cases h)⟩
  | .array n e => by
    rw [Ty.inWord]
    by_cases hn : n = 1
    · subst hn
      rw [if_pos rfl, inWord_iff e]
      exact ⟨.array e, fun h => by cases h; assumption⟩
    · rw [if_neg hn]
      exact ⟨fun h => (by cases h), fun h => (by cases h; exact absurd rfl hn)⟩
  | .struct fs => by
    rw [Ty.inWord, inWordField_iff fs]
    exact ⟨.struct fs, fun h => by cases h; assumption⟩
theorem inWordField_iff : ∀ fs : Fields, fs.inWord = true ↔ DirectField fs
  | .nil => ⟨fun h => (by cases h), fun h => (by cases h)⟩
  | .cons name t .nil => by
    rw [Fields.inWord, inWord_iff t]
    exact ⟨.one name t, fun h => by cases h; assumption⟩
  | .cons _ _ (.cons _ _ _) => ⟨fun h => (by simp [Fields.inWord] at h), fun h => (by cases h)⟩
end

/-- The two ways a type that is no interface type goes. -/
theorem safeIndirect_value (rt : Runtime) (fresh : Nat) (m : Mem) (t : Ty) (h1 : t ≠ .eface) (h2 : ∀ n, t ≠ .iface n) (p : Nat) (hp : p ≠ 0) :
    safeIndirect rt fresh m ⟨some (.ptr t), p⟩ =
      if t.inWord then some (m, ⟨some t, m p⟩) else some (move m t.size fresh p, ⟨some t, fresh⟩) := by
  cases t with
  | eface => exact absurd rfl h1
  | iface n => exact absurd rfl (h2 n)
  | _ => simp [safeIndirect, hp]

/-- C80 for the safe configuration: `Indirect` gives an interface holding what the pointer points to, for all types, those that come down to an
`unsafe.Pointer` included; no variable changes by that, new memory apart; and whatever is written later outside the new memory, a value that is not
itself taken out of an interface stays what it was. -/
theorem safeIndirect_copied (rt : Runtime) (fresh : Nat) (m : Mem) (t : Ty) (p : Nat) (hp : p ≠ 0) (v : Option (Ty × List Nat))
    (hv : Deref rt m t p v) :
    ∃ m' e, safeIndirect rt fresh m ⟨some (.ptr t), p⟩ = some (m', e) ∧ Holds m' e v ∧
      (∀ a, a < fresh ∨ fresh + t.size ≤ a → m' a = m a) ∧
      (t ≠ .eface → (∀ n, t ≠ .iface n) → ∀ m'' : Mem, (∀ i < t.size, m'' (fresh + i) = m' (fresh + i)) → Holds m'' e v) := by
  cases hv with
  | value _ _ h1 h2 =>
    rw [safeIndirect_value rt fresh m t h1 h2 p hp]
    by_cases hw : t.inWord = true
    · have hd := (inWord_iff t).mp hw
      rw [if_pos hw]
      have hr : read m p t.size = [m p] := by rw [direct_size t hd]; simp [read]
      refine ⟨m, _, rfl, holds_of_word hd p, fun _ _ => rfl, fun _ _ m'' _ => ?_⟩
      rw [hr]
      exact .direct t hd _
    · have hd : ¬ Direct t := fun h => hw ((inWord_iff t).mpr h)
      rw [if_neg hw]
      refine ⟨_, _, rfl, ?_, fun a ha => ?_, fun _ _ m'' h => ?_⟩
      · rw [← read_move m t.size fresh p]
        exact .boxed t hd fresh
      · simp only [move]
        rw [if_neg (by omega)]
      · rw [← read_move m t.size fresh p, ← read_congr h]
        exact .boxed t hd fresh
  | eface _ _ h => exact ⟨m, _, by simp only [safeIndirect, hp]; rfl, h, fun _ _ => rfl, fun h1 => absurd rfl h1⟩
  | iface n _ _ h0 h =>
    exact ⟨m, ⟨rt.itabType (m p), m (p + 1)⟩, by simp [safeIndirect, hp, h0], h, fun _ _ => rfl, fun _ h2 => absurd rfl (h2 n)⟩
  | ifaceNil n _ h0 => exact ⟨m, ⟨none, 0⟩, by simp [safeIndirect, hp, h0], .nil 0, fun _ _ => rfl, fun _ h2 => absurd rfl (h2 n)⟩

/-- C171, partial: what `Indirect` gives holds the same value with both configurations at that moment, for all types that do not come down to a single
`unsafe.Pointer`. -/
theorem indirect_same_partial (rt : Runtime) (fresh : Nat) (m : Mem) (t : Ty) (h : ¬ OnlyUnsafe t) (p : Nat) (hp : p ≠ 0)
    (v : Option (Ty × List Nat)) (hv : Deref rt m t p v) :
    ∃ e m' e', indirect rt m t ⟨some (.ptr t), p⟩ = some e ∧ safeIndirect rt fresh m ⟨some (.ptr t), p⟩ = some (m', e') ∧
      Holds m e v ∧ Holds m' e' v := by
  obtain ⟨e, he, hh⟩ := indirect_partial rt m t h p v hv
  obtain ⟨m', e', he', hh', _⟩ := safeIndirect_copied rt fresh m t p hp v hv
  exact ⟨e, m', e', he, he', hh, hh'⟩

/-- C171 fails: after the variable has been set to another the two differ: with the safe configuration the old value is kept, with the unsafe one the
new one is seen (types not kept in the data word, interfaces apart; the new memory is apart from the variable). -/
theorem indirect_differ_later (rt : Runtime) (fresh : Nat) (m : Mem) (t : Ty) (h : ¬ Direct t) (h1 : t ≠ .eface) (h2 : ∀ n, t ≠ .iface n)
    (p q : Nat) (hp : p ≠ 0) (hf : fresh + t.size ≤ p ∨ p + t.size ≤ fresh) :
    (∃ e m', indirect rt m t ⟨some (.ptr t), p⟩ = some e ∧ set m t ⟨some (.ptr t), p⟩ ⟨some (.ptr t), q⟩ = some m' ∧
      Holds m' e (some (t, read m q t.size))) ∧
    (∃ m0 e m', safeIndirect rt fresh m ⟨some (.ptr t), p⟩ = some (m0, e) ∧ set m0 t ⟨some (.ptr t), p⟩ ⟨some (.ptr t), q⟩ = some m' ∧
      Holds m' e (some (t, read m p t.size))) := by
  constructor
  · obtain ⟨e, m', he, hs, _, hh⟩ := indirect_follows rt m t h h1 h2 p q
    exact ⟨e, m', he, hs, hh⟩
  · obtain ⟨m0, e, he, _, _, hk⟩ := safeIndirect_copied rt fresh m t p hp _ (.value t p h1 h2)
    refine ⟨m0, e, move m0 t.size p q, he, by simp [set, pointerTo, unsafeSet], hk h1 h2 _ fun i hi => ?_⟩
    simp only [move]
    rw [if_neg (by omega)]

/-- C171 fails: with the safe configuration `Indirect` gives back what is no pointer as it is and follows pointers of all types; with the unsafe one both
panic. -/
theorem indirect_unchecked (rt : Runtime) (fresh : Nat) (m : Mem) (t u : Ty) (w : Nat) :
    ((∀ e, u ≠ .ptr e) → indirect rt m t ⟨some u, w⟩ = none ∧ safeIndirect rt fresh m ⟨some u, w⟩ = some (m, ⟨some u, w⟩)) ∧
    (u ≠ t → w ≠ 0 → indirect rt m t ⟨some (.ptr u), w⟩ = none ∧ (safeIndirect rt fresh m ⟨some (.ptr u), w⟩).isSome) := by
  refine ⟨fun h => ⟨by simp [indirect, pointerTo, h t], ?_⟩, fun h hw => ⟨by simp [indirect, pointerTo, h], ?_⟩⟩
  · cases u <;> first | exact absurd rfl (h _) | simp [safeIndirect]
  · by_cases h1 : u = .eface
    · subst h1; simp [safeIndirect, hw]
    · by_cases h2 : ∃ n, u = .iface n
      · obtain ⟨n, rfl⟩ := h2; simp [safeIndirect, hw]
      · rw [safeIndirect_value rt fresh m u h1 (fun n hn => h2 ⟨n, hn⟩) w hw]
        split <;> rfl

/-! ### Cases -/

/-- A memory with a string `(7, 3)` at 10, another `(8, 5)` at 20, and a nil pointer at 30. -/
def sampleVars : Mem := fun a => if a = 10 then 7 else if a = 11 then 3 else if a = 20 then 8 else if a = 21 then 5 else 0

example : ((safeSet (fun _ _ _ _ => none) sampleVars ⟨some (.ptr .str), 10⟩ ⟨some (.ptr .str), 20⟩).map fun m => read m 9 4) = some [0, 8, 5, 0] := by
  decide
example : Nilable (.ptr .str) ∧ NilVar sampleVars (.ptr .str) 30 ∧ safeIsNil true sampleVars ⟨some (.ptr (.ptr .str)), 30⟩ = some true :=
  ⟨trivial, .ptr _ _ rfl, by decide⟩
example : NeverNil .str := fun _ _ h => by cases h
example : Deref ⟨fun _ => none, fun _ => none⟩ sampleVars .str 10 (some (.str, [7, 3])) := .value .str 10 (by decide) (by intro n; simp)
example : ¬ Direct .str ∧ ¬ OnlyUnsafe .str := ⟨fun h => (by cases h), fun h => (by cases h)⟩
example : ((safeIndirect ⟨fun _ => none, fun _ => none⟩ 100 sampleVars ⟨some (.ptr .str), 10⟩).map fun r => (r.2, read r.1 100 2)) =
    some (⟨some .str, 100⟩, [7, 3]) := by decide
/-- Converting an `int` (type 0) to `interface{}` with a type word 5, for `set_converts`. -/
example : ((safeSet (fun _ _ _ v => some [5, v]) sampleVars ⟨some (.ptr .eface), 40⟩ ⟨some (.ptr (.scalar 0)), 10⟩).map fun m => read m 40 2) =
    some [5, 10] := by decide
/-- A variable of type `interface{}` at 10 with type word 7 and a nil data word, for `isNil_differ_typed`. -/
example : (fun a => if a = 10 then 7 else 0 : Mem) 10 ≠ 0 ∧ (fun a => if a = 10 then 7 else 0 : Mem) 11 = 0 := by decide

end Verif.Reflect2.Types
