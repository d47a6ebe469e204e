import Verif.Reflect2.Types

/-!
# C84: maps through reflect2

Model of reflect2/unsafe_map.go and reflect2/safe_map.go for one map type.  The runtime's maps are lists of entries, each with the
address its element is kept at (Go moves elements when a map grows; that is not modelled).  Keys are compared as the
language does, through `Keys.keyOf`, a parameter.
-/

namespace Verif.Reflect2.Maps
open Types

/-! ### Model -/

/-- An entry of a map of the runtime (reflect2/unsafe_link.go:20-36). -/
structure Entry (K : Type) where
  key : K
  elem : Nat

/-- What reflect2/unsafe_map.go works on: memory, the maps by their handles (0 is nil), and the first address not in use. -/
structure St (K : Type) where
  mem : Mem
  maps : Nat → List (Entry K)
  next : Nat

/-- `UnsafeMapType`, unsafe_map.go:8-20: key and element type, and how a key in memory compares. -/
structure MapType (K : Type) where
  k : Ty
  e : Ty
  keyOf : Mem → Nat → K

variable {K : Type} [DecidableEq K]

/-- The type itself, `rtype` in unsafe_map.go:15. -/
def MapType.ty (t : MapType K) : Ty := .map t.k t.e

/-- The runtime's lookup of a key, behind unsafe_link.go:20-26. -/
def entryOf (s : St K) (h : Nat) (k : K) : Option (Entry K) := (s.maps h).find? fun e => e.key = k

/-- `reflect.mapassign`, unsafe_link.go:20-22 (the assignment itself is the runtime's): assignment to a nil map panics. -/
def mapassign (t : MapType K) (s : St K) (h key elem : Nat) : Option (St K) :=
  if h = 0 then none
  else
    match entryOf s h (t.keyOf s.mem key) with
    | some e => some { s with mem := move s.mem t.e.size e.elem elem }
    | none => some
      { mem := move s.mem t.e.size s.next elem
        maps := fun h' => if h' = h then s.maps h ++ [⟨t.keyOf s.mem key, s.next⟩] else s.maps h'
        next := s.next + t.e.size }

/-- `reflect.mapaccess`, unsafe_link.go:24-26: the address of the element, nil (0) if there is none. -/
def mapaccess (t : MapType K) (s : St K) (h key : Nat) : Nat :=
  if h = 0 then 0
  else
    match entryOf s h (t.keyOf s.mem key) with
    | some e => e.elem
    | none => 0

/-- `UnsafeMapType.SetIndex`, unsafe_map.go:65-77. -/
def setIndex (t : MapType K) (s : St K) (obj key elem : EFace) : Option (St K) :=
  match pointerTo t.ty obj, pointerTo t.k key, pointerTo t.e elem with
  | some o, some k, some e => mapassign t s (s.mem o) k e
  | _, _, _ => none

/-- `UnsafeMapType.GetIndex`, unsafe_map.go:91-102. -/
def getIndex (t : MapType K) (s : St K) (obj key : EFace) : Option EFace :=
  match pointerTo t.ty obj, pointerTo t.k key with
  | some o, some k => some ⟨some (.ptr t.e), mapaccess t s (s.mem o) k⟩
  | _, _ => none

/-- `UnsafeMapType.TryGetIndex`, unsafe_map.go:79-89. -/
def tryGetIndex (t : MapType K) (s : St K) (obj key : EFace) : Option (EFace × Bool) :=
  match pointerTo t.ty obj, pointerTo t.k key with
  | some o, some k =>
    if mapaccess t s (s.mem o) k = 0 then some (⟨none, 0⟩, false)
    else some (⟨some (.ptr t.e), mapaccess t s (s.mem o) k⟩, true)
  | _, _ => none

/-- `HasNext` and `Next` in a loop, unsafe_map.go:104-138, over the entries in the order the runtime chooses: keys
and pointers to the elements.  (Keys as such, not pointers to them.) -/
def iterate (t : MapType K) : List (Entry K) → List (K × EFace)
  | [] => []
  | e :: rest => (e.key, ⟨some (.ptr t.e), e.elem⟩) :: iterate t rest

/-- A `reflect.Value`, as far as safe_map.go uses it: a pointer to a variable of a type, or the variable. -/
inductive RVal where
  | ptr (t : Ty) (p : Nat)
  | var (t : Ty) (p : Nat)
  | other

/-- `reflect.ValueOf` as used in safe_map.go:26-60: for pointers only, the rest being of no use here. -/
def valueOf (obj : EFace) : RVal :=
  match obj.rtype with
  | some (.ptr t) => .ptr t obj.data
  | _ => .other

/-- `Value.Elem` as used in safe_map.go:30,50: panics for what is no pointer. -/
def RVal.elem : RVal → Option RVal
  | .ptr t p => some (.var t p)
  | _ => none

/-- `Value.MapIndex` as used in safe_map.go:42,52: panics unless called on a map with a key of its type; the address of the element, 0 if there is none. -/
def RVal.mapIndex (t : MapType K) (s : St K) (m key : RVal) : Option Nat :=
  match m, key with
  | .var mt p, .var kt k => if mt = t.ty ∧ kt = t.k then some (mapaccess t s (s.mem p) k) else none
  | _, _ => none

/-- `safeMapType.GetIndex`, safe_map.go:49-60: a pointer to a copy of the element, kept in memory not
in use, or a nil pointer. -/
def safeGetIndex (t : MapType K) (s : St K) (obj key : EFace) : Option (EFace × St K) := do
  let m ← (valueOf obj).elem
  let k ← (valueOf key).elem
  let a ← RVal.mapIndex t s m k
  if a = 0 then some (⟨some (.ptr t.e), 0⟩, s)
  else some (⟨some (.ptr t.e), s.next⟩, { s with mem := move s.mem t.e.size s.next a, next := s.next + t.e.size })

/-- `safeMapType.TryGetIndex`, safe_map.go:37-47: whether there is an element and where (keys other than nil). -/
def safeTryGetIndex (t : MapType K) (s : St K) (obj key : EFace) : Option Nat :=
  RVal.mapIndex t s (valueOf obj) (valueOf key)

/-! ### Specification -/

/-- What the language sees: the elements by key. -/
def content (t : MapType K) (s : St K) (h : Nat) (k : K) : Option (List Nat) :=
  (entryOf s h k).map fun e => read s.mem e.elem t.e.size

/-- The runtime keeps one entry per key, and elements apart from each other below `next`; nothing is at address 0, and there
is nothing in a nil map. -/
structure Ok (t : MapType K) (s : St K) : Prop where
  nodup : ∀ h, ((s.maps h).map Entry.key).Nodup
  below : ∀ h, ∀ e ∈ s.maps h, 0 < e.elem ∧ e.elem + t.e.size ≤ s.next
  apart : ∀ h h', ∀ e ∈ s.maps h, ∀ e' ∈ s.maps h', (h, e.key) ≠ (h', e'.key) →
    e.elem + t.e.size ≤ e'.elem ∨ e'.elem + t.e.size ≤ e.elem
  pos : 0 < s.next
  none : s.maps 0 = []

/-! ### Proofs -/

theorem entryOf_some {s : St K} {h : Nat} {k : K} {e : Entry K} (he : entryOf s h k = some e) : e ∈ s.maps h ∧ e.key = k :=
  ⟨List.mem_of_find?_eq_some he, by simpa using List.find?_some he⟩

theorem entryOf_none {s : St K} {h : Nat} {k : K} (he : entryOf s h k = none) : ∀ e ∈ s.maps h, e.key ≠ k := by
  intro e hm
  have := List.find?_eq_none.mp he e hm
  simpa using this

theorem read_move_apart (m : Mem) (n dst src a k : Nat) (h : a + k ≤ dst ∨ dst + n ≤ a) : read (move m n dst src) a k = read m a k := by
  apply read_congr
  intro i hi
  simp only [move]
  rw [if_neg (by omega)]

/-- Assigning keeps the runtime's invariant, makes the element at that key the given value and changes no other element of any
map, and no variable. -/
theorem mapassign_content (t : MapType K) (s s' : St K) (hs : Ok t s) (h key elem : Nat) (hr : mapassign t s h key elem = some s') :
    Ok t s' ∧ content t s' h (t.keyOf s.mem key) = some (read s.mem elem t.e.size) ∧
    (∀ h' k', (h', k') ≠ (h, t.keyOf s.mem key) → content t s' h' k' = content t s h' k') ∧
    (∀ a, a < s.next → (∀ h, ∀ e ∈ s.maps h, a < e.elem ∨ e.elem + t.e.size ≤ a) → s'.mem a = s.mem a) := by
  unfold mapassign at hr
  by_cases h0 : h = 0
  · rw [if_pos h0] at hr; cases hr
  rw [if_neg h0] at hr
  cases he : entryOf s h (t.keyOf s.mem key) with
  | some e =>
    rw [he] at hr
    cases hr
    obtain ⟨hm, hk⟩ := entryOf_some he
    have same : ∀ h' k', entryOf (K := K) { s with mem := move s.mem t.e.size e.elem elem } h' k' = entryOf s h' k' := fun _ _ => rfl
    refine ⟨⟨hs.nodup, hs.below, hs.apart, hs.pos, hs.none⟩, ?_, ?_, ?_⟩
    · unfold content
      rw [same, he]
      simp only [Option.map_some, read_move]
    · intro h' k' hne
      unfold content
      rw [same]
      cases he' : entryOf s h' k' with
      | none => rfl
      | some e' =>
        obtain ⟨hm', hk'⟩ := entryOf_some he'
        simp only [Option.map_some]
        rw [read_move_apart]
        have := hs.apart h' h e' hm' e hm (by rw [hk, hk']; exact hne)
        omega
    · intro a _ ha
      have := ha h e hm
      simp only [move]
      rw [if_neg (by omega)]
  | none =>
    rw [he] at hr
    cases hr
    have hnew := entryOf_none he
    have mem_iff : ∀ h' e', e' ∈ (if h' = h then s.maps h ++ [⟨t.keyOf s.mem key, s.next⟩] else s.maps h') ↔
        (e' ∈ s.maps h' ∨ (h' = h ∧ e' = ⟨t.keyOf s.mem key, s.next⟩)) := by
      intro h' e'
      by_cases hh : h' = h
      · subst hh; simp
      · simp [hh]
    refine ⟨⟨?_, ?_, ?_, ?_, ?_⟩, ?_, ?_, ?_⟩
    · intro h'
      simp only
      by_cases hh : h' = h
      · rw [if_pos hh, List.map_append, List.nodup_append]
        refine ⟨hs.nodup h, by simp, ?_⟩
        intro a ha b hb
        obtain ⟨e, hm, rfl⟩ := List.mem_map.mp ha
        simp only [List.map_cons, List.map_nil, List.mem_singleton] at hb
        subst hb
        exact hnew e hm
      · rw [if_neg hh]; exact hs.nodup h'
    · intro h' e' hm'
      rcases (mem_iff h' e').mp hm' with hm' | ⟨_, rfl⟩
      · have := hs.below h' e' hm'; simp only; omega
      · exact ⟨hs.pos, Nat.le_refl _⟩
    · intro h1 h2 e1 hm1 e2 hm2 hne
      rcases (mem_iff h1 e1).mp hm1 with n1 | ⟨r1, q1⟩ <;> rcases (mem_iff h2 e2).mp hm2 with n2 | ⟨r2, q2⟩
      · exact hs.apart h1 h2 e1 n1 e2 n2 hne
      · rw [q2]; exact .inl (hs.below h1 e1 n1).2
      · rw [q1]; exact .inr (hs.below h2 e2 n2).2
      · exact absurd (by rw [r1, r2, q1, q2]) hne
    · have := hs.pos; simp only; omega
    · simp only [if_neg (Ne.symm h0), hs.none]
    · unfold content entryOf
      simp only [if_true]
      rw [List.find?_append]
      rw [show (s.maps h).find? (fun e => e.key = t.keyOf s.mem key) = none from he]
      simp only [Option.none_or, List.find?_cons, decide_true, Option.map_some, read_move]
    · intro h' k' hne
      unfold content
      have same : entryOf (K := K) { mem := move s.mem t.e.size s.next elem, maps := fun h' => if h' = h then s.maps h ++ [⟨t.keyOf s.mem key, s.next⟩] else s.maps h', next := s.next + t.e.size } h' k' = entryOf s h' k' := by
        unfold entryOf
        simp only
        by_cases hh : h' = h
        · rw [if_pos hh, List.find?_append, hh]
          have : t.keyOf s.mem key ≠ k' := fun e => hne (by rw [hh, e])
          simp [this]
        · rw [if_neg hh]
      rw [same]
      cases he' : entryOf s h' k' with
      | none => rfl
      | some e' =>
        obtain ⟨hm', -⟩ := entryOf_some he'
        simp only [Option.map_some]
        rw [read_move_apart]
        have := hs.below h' e' hm'
        omega
    · intro a ha _
      simp only [move]
      rw [if_neg (by omega)]

/-- C84: `SetIndex` on a pointer to a map that is not nil is `m[k] = v`: see `mapassign_content`; on
a nil map it panics. -/
theorem setIndex_content (t : MapType K) (s : St K) (hs : Ok t s) (o k e : Nat) :
    (s.mem o = 0 → setIndex t s ⟨some (.ptr t.ty), o⟩ ⟨some (.ptr t.k), k⟩ ⟨some (.ptr t.e), e⟩ = none) ∧
    (s.mem o ≠ 0 → ∃ s', setIndex t s ⟨some (.ptr t.ty), o⟩ ⟨some (.ptr t.k), k⟩ ⟨some (.ptr t.e), e⟩ = some s' ∧ Ok t s' ∧
      content t s' (s.mem o) (t.keyOf s.mem k) = some (read s.mem e t.e.size) ∧
      (∀ h' k', (h', k') ≠ (s.mem o, t.keyOf s.mem k) → content t s' h' k' = content t s h' k') ∧
      (∀ a, a < s.next → (∀ h, ∀ e ∈ s.maps h, a < e.elem ∨ e.elem + t.e.size ≤ a) → s'.mem a = s.mem a)) := by
  have e1 : setIndex t s ⟨some (.ptr t.ty), o⟩ ⟨some (.ptr t.k), k⟩ ⟨some (.ptr t.e), e⟩ = mapassign t s (s.mem o) k e := by
    simp [setIndex, pointerTo]
  rw [e1]
  refine ⟨fun h => by simp [mapassign, h], fun h => ?_⟩
  have : ∃ s', mapassign t s (s.mem o) k e = some s' := by
    unfold mapassign
    rw [if_neg h]
    cases entryOf s (s.mem o) (t.keyOf s.mem k) with
    | some e => exact ⟨_, rfl⟩
    | none => exact ⟨_, rfl⟩
  obtain ⟨s', hs'⟩ := this
  exact ⟨s', hs', mapassign_content t s s' hs _ _ _ hs'⟩

/-- C84: `GetIndex` is a pointer to the element, or nil; `TryGetIndex` also says which; nothing changes. -/
theorem getIndex_content (t : MapType K) (s : St K) (hs : Ok t s) (o k : Nat) :
    ∃ a, getIndex t s ⟨some (.ptr t.ty), o⟩ ⟨some (.ptr t.k), k⟩ = some ⟨some (.ptr t.e), a⟩ ∧
      (∀ v, content t s (s.mem o) (t.keyOf s.mem k) = some v → a ≠ 0 ∧ read s.mem a t.e.size = v ∧
        tryGetIndex t s ⟨some (.ptr t.ty), o⟩ ⟨some (.ptr t.k), k⟩ = some (⟨some (.ptr t.e), a⟩, true)) ∧
      (content t s (s.mem o) (t.keyOf s.mem k) = none → a = 0 ∧
        tryGetIndex t s ⟨some (.ptr t.ty), o⟩ ⟨some (.ptr t.k), k⟩ = some (⟨none, 0⟩, false)) := by
  refine ⟨mapaccess t s (s.mem o) k, by simp [getIndex, pointerTo], ?_, ?_⟩
  · intro v hv
    unfold content at hv
    cases he : entryOf s (s.mem o) (t.keyOf s.mem k) with
    | none => rw [he] at hv; cases hv
    | some e =>
      rw [he] at hv
      obtain ⟨hm, -⟩ := entryOf_some he
      have h0 : s.mem o ≠ 0 := by
        intro h0
        rw [h0, hs.none] at hm
        cases hm
      have ha : mapaccess t s (s.mem o) k = e.elem := by simp [mapaccess, h0, he]
      have hne := (hs.below _ _ hm).1
      rw [ha]
      refine ⟨by omega, by simpa using hv, ?_⟩
      simp only [tryGetIndex, pointerTo, if_true, ha]
      rw [if_neg (by omega)]
  · intro hv
    have ha : mapaccess t s (s.mem o) k = 0 := by
      unfold content at hv
      unfold mapaccess
      by_cases h0 : s.mem o = 0
      · rw [if_pos h0]
      · rw [if_neg h0]
        cases he : entryOf s (s.mem o) (t.keyOf s.mem k) with
        | none => rfl
        | some e => rw [he] at hv; cases hv
    exact ⟨ha, by simp [tryGetIndex, pointerTo, ha]⟩

omit [DecidableEq K] in
theorem eq_of_nodup_key : ∀ (l : List (Entry K)), (l.map Entry.key).Nodup → ∀ a b, a ∈ l → b ∈ l → a.key = b.key → a = b := by
  intro l
  induction l with
  | nil => intro _ a b ha; cases ha
  | cons x l ih =>
    intro hn a b ha hb hk
    rw [List.map_cons, List.nodup_cons] at hn
    rcases List.mem_cons.mp ha with e1 | ha <;> rcases List.mem_cons.mp hb with e2 | hb
    · rw [e1, e2]
    · exact absurd (List.mem_map.mpr ⟨b, hb, by rw [← hk, e1]⟩) hn.1
    · exact absurd (List.mem_map.mpr ⟨a, ha, by rw [hk, e2]⟩) hn.1
    · exact ih hn.2 a b ha hb hk

/-- C84: an iterator visits each key of the map exactly once, with a pointer to its element, in whatever order the runtime takes. -/
theorem iterate_content (t : MapType K) (s : St K) (hs : Ok t s) (h : Nat) (order : List (Entry K)) (ho : order.Perm (s.maps h)) :
    ((iterate t order).map Prod.fst).Nodup ∧
    (∀ k v, content t s h k = some v ↔ ∃ a, (k, ⟨some (.ptr t.e), a⟩) ∈ iterate t order ∧ read s.mem a t.e.size = v) := by
  have e1 : iterate t order = order.map fun e => (e.key, ⟨some (.ptr t.e), e.elem⟩) := by
    clear ho
    induction order with
    | nil => rfl
    | cons e rest ih => rw [iterate, ih]; rfl
  rw [e1]
  constructor
  · rw [List.map_map]
    exact (ho.map Entry.key).nodup_iff.mpr (hs.nodup h)
  · intro k v
    constructor
    · intro hc
      unfold content at hc
      cases he : entryOf s h k with
      | none => rw [he] at hc; cases hc
      | some e =>
        rw [he] at hc
        obtain ⟨hm, hk⟩ := entryOf_some he
        exact ⟨e.elem, List.mem_map.mpr ⟨e, ho.mem_iff.mpr hm, by rw [hk]⟩, by simpa using hc⟩
    · rintro ⟨a, hm, hv⟩
      obtain ⟨e, hm, he⟩ := List.mem_map.mp hm
      simp only [Prod.mk.injEq, EFace.mk.injEq, true_and] at he
      obtain ⟨hk, ha⟩ := he
      have hm := ho.mem_iff.mp hm
      unfold content
      cases he' : entryOf s h k with
      | none => exact absurd hk (entryOf_none he' e hm)
      | some e' =>
        obtain ⟨hm', hk'⟩ := entryOf_some he'
        have : e' = e := by
          exact eq_of_nodup_key (s.maps h) (hs.nodup h) e' e hm' hm (by rw [hk, hk'])
        rw [this, Option.map_some, ha, hv]

/-- Calls of `SetIndex` on one map one after another, with the key and the value each was given. -/
def assignAll (t : MapType K) (h : Nat) : St K → List (Nat × Nat) → Option (St K × List (K × List Nat))
  | s, [] => some (s, [])
  | s, op :: ops =>
    match mapassign t s h op.1 op.2 with
    | none => none
    | some s1 =>
      match assignAll t h s1 ops with
      | none => none
      | some (s', given) => some (s', (t.keyOf s.mem op.1, read s.mem op.2 t.e.size) :: given)

/-- The last value given for a key. -/
def lastGiven (k : K) : List (K × List Nat) → Option (List Nat)
  | [] => none
  | (k', v) :: rest => (lastGiven k rest).or (if k' = k then some v else none)

/-- C84: after any number of `SetIndex` calls on a map, the element at each key is the one given last for it, or as it was
before if none was given; other maps are as before. -/
theorem run_content (t : MapType K) (h : Nat) : ∀ (ops : List (Nat × Nat)) (s s' : St K) (given : List (K × List Nat)), Ok t s →
    assignAll t h s ops = some (s', given) →
    Ok t s' ∧ (∀ k, content t s' h k = (lastGiven k given).or (content t s h k)) ∧
    ∀ h', h' ≠ h → ∀ k, content t s' h' k = content t s h' k := by
  intro ops
  induction ops with
  | nil =>
    intro s s' given hs hr
    cases hr
    exact ⟨hs, fun _ => rfl, fun _ _ _ => rfl⟩
  | cons op ops ih =>
    intro s s' given hs hr
    rw [assignAll] at hr
    cases h1 : mapassign t s h op.1 op.2 with
    | none => rw [h1] at hr; cases hr
    | some s1 =>
      rw [h1] at hr
      cases h2 : assignAll t h s1 ops with
      | none => simp only [h2] at hr; cases hr
      | some r =>
        obtain ⟨s2, g2⟩ := r
        simp only [h2, Option.some.injEq, Prod.mk.injEq] at hr
        obtain ⟨rfl, rfl⟩ := hr
        obtain ⟨a, a2, b, -⟩ := mapassign_content t s s1 hs _ _ _ h1
        obtain ⟨c, d, e⟩ := ih s1 s2 g2 a h2
        refine ⟨c, ?_, fun h' hn k => (e h' hn k).trans (b h' k (by intro e; cases e; exact hn rfl))⟩
        intro k
        rw [d k, lastGiven]
        by_cases hk : t.keyOf s.mem op.1 = k
        · rw [if_pos hk, ← hk, a2, Option.or_assoc, Option.or_some]; simp
        · rw [if_neg hk, Option.or_none, b h k (by intro e; cases e; exact hk rfl)]

/-- C84, the safe implementation: `GetIndex` gives a pointer to the same value, or nil. -/
theorem safeGetIndex_content (t : MapType K) (s : St K) (hs : Ok t s) (o k : Nat) :
    (∀ v, content t s (s.mem o) (t.keyOf s.mem k) = some v →
      ∃ a s', safeGetIndex t s ⟨some (.ptr t.ty), o⟩ ⟨some (.ptr t.k), k⟩ = some (⟨some (.ptr t.e), a⟩, s') ∧ a ≠ 0 ∧
        read s'.mem a t.e.size = v) ∧
    (content t s (s.mem o) (t.keyOf s.mem k) = none →
      safeGetIndex t s ⟨some (.ptr t.ty), o⟩ ⟨some (.ptr t.k), k⟩ = some (⟨some (.ptr t.e), 0⟩, s)) := by
  obtain ⟨a, h1, h2, h3⟩ := getIndex_content t s hs o k
  have ha : a = mapaccess t s (s.mem o) k := by simpa [getIndex, pointerTo] using h1.symm
  constructor
  · intro v hv
    obtain ⟨h4, h5, -⟩ := h2 v hv
    refine ⟨s.next, { s with mem := move s.mem t.e.size s.next a, next := s.next + t.e.size }, ?_, ?_, ?_⟩
    · simp [safeGetIndex, valueOf, RVal.elem, RVal.mapIndex, ← ha, h4]
    · have := hs.pos; omega
    · rw [read_move]; exact h5
  · intro hv
    have h4 := (h3 hv).1
    simp [safeGetIndex, valueOf, RVal.elem, RVal.mapIndex, ← ha, h4]

/-- C84 fails: with the safe implementation `TryGetIndex` panics on all arguments the other methods (and the unsafe
implementation) take. -/
theorem safeTryGetIndex_panics (t : MapType K) (s : St K) (obj key : EFace) (h : (tryGetIndex t s obj key).isSome) :
    safeTryGetIndex t s obj key = none := by
  unfold tryGetIndex pointerTo at h
  unfold safeTryGetIndex
  by_cases h1 : obj.rtype = some (.ptr t.ty)
  · simp [valueOf, h1, RVal.mapIndex]
  · simp [h1] at h

/-- C84 fails: what the unsafe `GetIndex` gave changes when the key is assigned again; the copy the safe one gave does not. -/
theorem getIndex_follows (t : MapType K) (s s' : St K) (h k e : Nat) (hs : Ok t s) (x : Entry K)
    (hx : entryOf s h (t.keyOf s.mem k) = some x) (hr : mapassign t s h k e = some s') :
    mapaccess t s h k = x.elem ∧ read s'.mem x.elem t.e.size = read s.mem e t.e.size := by
  obtain ⟨hm, -⟩ := entryOf_some hx
  have h0 : h ≠ 0 := by rintro rfl; rw [hs.none] at hm; cases hm
  refine ⟨by simp [mapaccess, h0, hx], ?_⟩
  simp only [mapassign, if_neg h0, hx] at hr
  cases hr
  exact read_move ..

/-- C84: the types of the arguments are checked: a pointer of another type panics, in place of reading it as a map. -/
theorem map_checked (t : MapType K) (s : St K) (obj key elem : EFace) :
    (obj.rtype ≠ some (.ptr t.ty) → setIndex t s obj key elem = none ∧ getIndex t s obj key = none ∧ tryGetIndex t s obj key = none) ∧
    (key.rtype ≠ some (.ptr t.k) → setIndex t s obj key elem = none ∧ getIndex t s obj key = none ∧ tryGetIndex t s obj key = none) ∧
    (elem.rtype ≠ some (.ptr t.e) → setIndex t s obj key elem = none) := by
  refine ⟨fun h => ?_, fun h => ?_, fun h => ?_⟩
  · simp [setIndex, getIndex, tryGetIndex, pointerTo, h]
  · simp [setIndex, getIndex, tryGetIndex, pointerTo, h]
  · unfold setIndex
    have : pointerTo t.e elem = none := by simp [pointerTo, h]
    rw [this]
    split
    · rename_i h3; cases h3
    · rfl

/-- A map of words with the handle 50 kept in the variable at 10, keys compared by their word. -/
def demo : MapType Nat := ⟨.scalar 0, .scalar 1, fun m a => m a⟩

/-- Two entries: 7 ↦ 70, 8 ↦ 80. -/
def demoState : St Nat := ⟨fun a => if a = 10 then 50 else if a = 100 then 70 else if a = 101 then 80 else a,
  fun h => if h = 50 then [⟨7, 100⟩, ⟨8, 101⟩] else [], 200⟩

example : Ok demo demoState := by
  have mem : ∀ h, ∀ e ∈ demoState.maps h, h = 50 ∧ (e = ⟨7, 100⟩ ∨ e = ⟨8, 101⟩) := by
    intro h e he
    simp only [demoState] at he
    split at he
    · exact ⟨by assumption, by simpa using he⟩
    · cases he
  refine ⟨?_, ?_, ?_, by decide, rfl⟩
  · intro h
    simp only [demoState]
    split <;> decide
  · intro h e he
    rcases (mem h e he).2 with rfl | rfl <;> decide
  · intro h h' e he e' he' hne
    obtain ⟨rfl, q⟩ := mem h e he
    obtain ⟨rfl, q'⟩ := mem h' e' he'
    clear he he'
    rcases q with q | q <;> rcases q' with q' | q' <;> subst q <;> subst q'
    · exact absurd rfl hne
    · exact .inl (by decide)
    · exact .inr (by decide)
    · exact absurd rfl hne

/-- Assigning the word at 7 for the key 7, a new key 9, and the key 7 again. -/
example : (assignAll demo 50 demoState [(7, 20), (9, 21), (7, 22)]).map (fun r => (content demo r.1 50 7, content demo r.1 50 8, content demo r.1 50 9, r.2)) =
    some (some [22], some [80], some [21], [(7, [20]), (9, [21]), (7, [22])]) := by rfl

example : content demo demoState 50 8 = some [80] ∧ content demo demoState 50 9 = none := by decide

end Verif.Reflect2.Maps
