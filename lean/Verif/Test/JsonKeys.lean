import Verif.Test.JsonEqual

/-!
# C124: placeholders as keys

Model of `substituteVars` with `variables.sub` and `variables.bind`, test/must/json.go 53-152, with the maps on a heap, since the
functions kept in `subs`, 104-110, change them later.
-/

namespace Verif.JsonEqual

/-! ### Model -/

/-- A decoded value, test/must/json.go 15-16 and 32-33; a map is its address on the heap. -/
inductive V where
  | null
  | bool (b : Bool)
  | num (n : Int)
  | str (s : Bytes)
  | arr (l : List V)
  | ref (a : Nat)

/-- The maps by address (test/must/json.go 96-97).  The order of the entries is the order in which `MapKeys`, 98, gives the keys. -/
abbrev Heap := List (List (Bytes × V))

/-- A function in `subs`, test/must/json.go 103-109: the key and the two maps. -/
structure Sub where
  key : Bytes
  e : Nat
  a : Nat

/-- `variable`, test/must/json.go 53-56. -/
structure Variable where
  value : V
  subs : List Sub

/-- The heap and `vars` (test/must/json.go 58). -/
structure Store where
  heap : Heap
  vars : List (Bytes × Variable)

/-- `SetMapIndex` with a value, test/must/json.go 108, 118 and 126. -/
def assocSet : List (Bytes × V) → Bytes → V → List (Bytes × V)
  | [], k, v => [(k, v)]
  | (x, u) :: r, k, v => if k = x then (k, v) :: r else (x, u) :: assocSet r k v

/-- `SetMapIndex` with the zero `Value`, test/must/json.go 107. -/
def assocDel (l : List (Bytes × V)) (k : Bytes) : List (Bytes × V) := l.filter fun p => p.1 ≠ k

/-- `MapIndex`, test/must/json.go 104, 105, 111, 121 and 131. -/
def Store.get (s : Store) (a : Nat) (k : Bytes) : Option V := (s.heap.getD a []).lookup k

/-- `SetMapIndex`, test/must/json.go 108, 118 and 126. -/
def Store.set (s : Store) (a : Nat) (k : Bytes) (v : V) : Store := { s with heap := s.heap.modify a fun m => assocSet m k v }

/-- `SetMapIndex` that deletes, test/must/json.go 107. -/
def Store.del (s : Store) (a : Nat) (k : Bytes) : Store := { s with heap := s.heap.modify a fun m => assocDel m k }

/-- Setting a variable, test/must/json.go 63, 70, 76 and 83-84. -/
def Store.setVar (s : Store) (x : Bytes) (v : Variable) : Store := { s with vars := (x, v) :: s.vars }

/-- How a call ends: it goes on, panics, fails the test (`t.Fatal`), or the fuel of the model is used up (test/must/json.go 90-152). -/
inductive Run (α : Type) where
  | ok (a : α)
  | panic
  | fatal
  | fuel

/-- Going on after a step of test/must/json.go 90-152. -/
def Run.bind {α β : Type} : Run α → (α → Run β) → Run β
  | .ok a, f => f a
  | .panic, _ => .panic
  | .fatal, _ => .fatal
  | .fuel, _ => .fuel

mutual
/-- The document a value stands for, as `reflect.DeepEqual` sees it (test/must/json.go 40 and 87); `none` without fuel. -/
def readV : Nat → Heap → V → Option Doc
  | 0, _, _ => none
  | _ + 1, _, .null => some .null
  | _ + 1, _, .bool b => some (.bool b)
  | _ + 1, _, .num n => some (.num n)
  | _ + 1, _, .str s => some (.str s)
  | n + 1, h, .arr l => (readL n h l).map .arr
  | n + 1, h, .ref a => (readM n h (h.getD a [])).map .obj
/-- The elements of a slice, see `readV` (test/must/json.go 40 and 87). -/
def readL : Nat → Heap → List V → Option Items
  | 0, _, _ => none
  | _ + 1, _, [] => some .nil
  | n + 1, h, v :: l =>
    match readV n h v, readL n h l with
    | some d, some r => some (.cons d r)
    | _, _ => none
/-- The entries of a map, see `readV` (test/must/json.go 40 and 87). -/
def readM : Nat → Heap → List (Bytes × V) → Option Members
  | 0, _, _ => none
  | _ + 1, _, [] => some .nil
  | n + 1, h, (k, v) :: l =>
    match readV n h v, readM n h l with
    | some d, some r => some (.cons k d r)
    | _, _ => none
end

mutual
/-- `substituteVars`, test/must/json.go 90-152. -/
def substK : Nat → Store → V → V → Run Store
  | 0, _, _, _ => .fuel
  | _ + 1, _, .null, _ => .panic
  | n + 1, s, .ref e, .ref a => keysK n s e a ((s.heap.getD e []).map Prod.fst)
  | n + 1, s, .arr l, .arr m => itemsK n s l m
  | _ + 1, s, _, _ => .ok s
/-- The loop over the elements, test/must/json.go 144-150; `Index` panics beyond the end. -/
def itemsK : Nat → Store → List V → List V → Run Store
  | 0, _, _, _ => .fuel
  | _ + 1, s, [], _ => .ok s
  | _ + 1, _, _ :: _, [] => .panic
  | n + 1, s, x :: l, y :: m => (substK n s x y).bind fun s => itemsK n s l m
/-- The loop over the keys, test/must/json.go 99-136. -/
def keysK : Nat → Store → Nat → Nat → List Bytes → Run Store
  | 0, _, _, _, _ => .fuel
  | _ + 1, s, _, _, [] => .ok s
  | n + 1, s, e, a, k :: ks => (keyK n s e a k).bind fun s => keysK n s e a ks
/-- One turn of it, test/must/json.go 100-135. -/
def keyK : Nat → Store → Nat → Nat → Bytes → Run Store
  | 0, _, _, _, _ => .fuel
  | n + 1, s, e, a, k =>
    (if isVar k then subVar n s k ⟨k, e, a⟩ else .ok s).bind fun s =>
      match s.get e k with
      | none => .ok s
      | some .null => .panic
      | some (.str w) =>
        if w = anything then .ok (s.set a k (.str anything))
        else match s.get a k with
          | none => .ok s
          | some v => if isVar w then bindVar n (s.set e k v) w v else substK n s (.str w) v
      | some x =>
        match s.get a k with
        | none => .ok s
        | some v => substK n s x v
/-- `variables.sub`, test/must/json.go 60-71. -/
def subVar : Nat → Store → Bytes → Sub → Run Store
  | 0, _, _, _ => .fuel
  | n + 1, s, x, c =>
    match s.vars.lookup x with
    | none => .ok (s.setVar x ⟨.null, [c]⟩)
    | some v => match v.subs with
      | [] => runSub n s c v.value
      | subs => .ok (s.setVar x ⟨v.value, subs ++ [c]⟩)
/-- `variables.bind`, test/must/json.go 73-88; `Equal` is test/must/equal.go 10-22. -/
def bindVar : Nat → Store → Bytes → V → Run Store
  | 0, _, _, _ => .fuel
  | n + 1, s, x, v =>
    match s.vars.lookup x with
    | none => .ok (s.setVar x ⟨v, []⟩)
    | some w => match w.subs with
      | [] =>
        match readV n s.heap w.value, readV n s.heap v with
        | some d, some d' => if deepEqual d d' then .ok s else .fatal
        | _, _ => .fuel
      | subs => (runSubs n s subs v).bind fun s => .ok (s.setVar x ⟨v, []⟩)
/-- The loop over `subs`, test/must/json.go 80-82; what is appended to them meanwhile is not seen. -/
def runSubs : Nat → Store → List Sub → V → Run Store
  | 0, _, _, _ => .fuel
  | _ + 1, s, [], _ => .ok s
  | n + 1, s, c :: cs, v => (runSub n s c v).bind fun s => runSubs n s cs v
/-- A function in `subs`, test/must/json.go 104-109.  `MapIndex` panics for what is not a string, `Interface` for an entry that is
not there. -/
def runSub : Nat → Store → Sub → V → Run Store
  | 0, _, _, _ => .fuel
  | n + 1, s, c, v =>
    match v with
    | .str w =>
      match s.get c.e c.key, s.get c.a w with
      | some x, some y => (substK n s x y).bind fun s => .ok ((s.del c.e c.key).set c.e w x)
      | _, _ => .panic
    | _ => .panic
end

mutual
/-- A document on the heap, as `json.Unmarshal` makes it, test/must/json.go 15-16 and 32-33. -/
def load : Doc → Heap → V × Heap
  | .null, h => (.null, h)
  | .bool b, h => (.bool b, h)
  | .num n, h => (.num n, h)
  | .str s, h => (.str s, h)
  | .arr l, h => let r := loadL l h; (.arr r.1, r.2)
  | .obj m, h => let r := loadM m h; (.ref r.2.length, r.2 ++ [r.1])
/-- The elements of an array, see `load` (test/must/json.go 15-16). -/
def loadL : Items → Heap → List V × Heap
  | .nil, h => ([], h)
  | .cons d r, h => let x := load d h; let y := loadL r x.2; (x.1 :: y.1, y.2)
/-- The members of an object, see `load` (test/must/json.go 15-16). -/
def loadM : Members → Heap → List (Bytes × V) × Heap
  | .nil, h => ([], h)
  | .cons k d r, h => let x := load d h; let y := loadM r x.2; ((k, x.1) :: y.1, y.2)
end

/-- `must.JsonEqual` on decoded documents, test/must/json.go 39-51; `none` when the fuel is used up. -/
def jsonEqualK (fuel : Nat) (e a : Doc) : Option Outcome :=
  let x := load a []
  let y := load e x.2
  match substK fuel ⟨y.2, []⟩ y.1 x.1 with
  | .fuel => none
  | .panic => some .panicked
  | .fatal => some .failed
  | .ok s =>
    match readV fuel s.heap y.1, readV fuel s.heap x.1 with
    | some d, some d' => some (if deepEqual d d' then .accepted else .failed)
    | _, _ => none

/-! ### Specification -/

/-- The document `a` is the template `m` with the placeholder key `x` read as the name `foo`, which is also the value of the
member `n`. -/
def Renamed (n x foo : Bytes) (m a : Members) : Prop :=
  (∀ k, (a.get k).isSome ↔ k = foo ∨ k ≠ x ∧ (m.get k).isSome) ∧
  (∀ d v, m.get x = some d → a.get foo = some v → Same d v) ∧
  (∀ k d v, k ≠ n → k ≠ x → k ≠ foo → m.get k = some d → a.get k = some v → Same d v)

/-- A template with one placeholder `x` as a key, bound by the member `n`, and otherwise without placeholders. -/
structure OneKey (n x : Bytes) (m : Members) : Prop where
  wf : m.WF
  var : isVar x = true
  notAny : x ≠ asc "{ANYTHING}"
  binder : m.get n = some (.str x)
  binderKey : isVar n = false
  member : (m.get x).isSome
  keys : ∀ k, (m.get k).isSome → k ≠ x → isVar k = false
  plain : ∀ k d, k ≠ n → m.get k = some d → d.Plain ∧ d.Literal ∧ ¬ IsAny d ∧ ¬ ∃ s, IsName d s

/-! ### Proofs -/

mutual
/-- A value on the heap stands for a document. -/
def Holds (h : Heap) (v : V) : Doc → Prop
  | .null => v = .null
  | .bool b => v = .bool b
  | .num n => v = .num n
  | .str s => v = .str s
  | .arr l => ∃ vs, v = .arr vs ∧ HoldsL h vs l
  | .obj m => ∃ a kvs, v = .ref a ∧ h[a]? = some kvs ∧ HoldsM h kvs m
def HoldsL (h : Heap) (vs : List V) : Items → Prop
  | .nil => vs = []
  | .cons d r => ∃ v vs', vs = v :: vs' ∧ Holds h v d ∧ HoldsL h vs' r
def HoldsM (h : Heap) (kvs : List (Bytes × V)) : Members → Prop
  | .nil => kvs = []
  | .cons k d r => ∃ v kvs', kvs = (k, v) :: kvs' ∧ Holds h v d ∧ HoldsM h kvs' r
end

mutual
theorem holds_mono (h x : Heap) : ∀ (d : Doc) (v : V), Holds h v d → Holds (h ++ x) v d
  | .null, v, hv => hv
  | .bool b, v, hv => hv
  | .num n, v, hv => hv
  | .str s, v, hv => hv
  | .arr l, v, ⟨vs, hv, hl⟩ => ⟨vs, hv, holdsL_mono h x l vs hl⟩
  | .obj m, v, ⟨a, kvs, hv, ha, hm⟩ => ⟨a, kvs, hv, by
      rw [List.getElem?_append_left (List.getElem?_eq_some_iff.mp ha).1]; exact ha, holdsM_mono h x m kvs hm⟩
theorem holdsL_mono (h x : Heap) : ∀ (l : Items) (vs : List V), HoldsL h vs l → HoldsL (h ++ x) vs l
  | .nil, _, hv => hv
  | .cons d r, _, ⟨v, vs', hv, hd, hr⟩ => ⟨v, vs', hv, holds_mono h x d v hd, holdsL_mono h x r vs' hr⟩
theorem holdsM_mono (h x : Heap) : ∀ (m : Members) (kvs : List (Bytes × V)), HoldsM h kvs m → HoldsM (h ++ x) kvs m
  | .nil, _, hv => hv
  | .cons _ d r, _, ⟨v, vs', hv, hd, hr⟩ => ⟨v, vs', hv, holds_mono h x d v hd, holdsM_mono h x r vs' hr⟩
end

mutual
theorem load_holds : ∀ (d : Doc) (h : Heap), (∃ x, (load d h).2 = h ++ x) ∧ Holds (load d h).2 (load d h).1 d
  | .null, h => ⟨⟨[], by simp [load]⟩, rfl⟩
  | .bool b, h => ⟨⟨[], by simp [load]⟩, rfl⟩
  | .num n, h => ⟨⟨[], by simp [load]⟩, rfl⟩
  | .str s, h => ⟨⟨[], by simp [load]⟩, rfl⟩
  | .arr l, h => by
    obtain ⟨⟨x, hx⟩, hl⟩ := loadL_holds l h
    exact ⟨⟨x, hx⟩, _, rfl, hl⟩
  | .obj m, h => by
    obtain ⟨⟨x, hx⟩, hm⟩ := loadM_holds m h
    refine ⟨⟨x ++ [(loadM m h).1], ?_⟩, (loadM m h).2.length, (loadM m h).1, rfl, ?_, ?_⟩
    · simp only [load]; rw [hx]; simp
    · simp [load]
    · exact holdsM_mono _ _ m _ hm
theorem loadL_holds : ∀ (l : Items) (h : Heap), (∃ x, (loadL l h).2 = h ++ x) ∧ HoldsL (loadL l h).2 (loadL l h).1 l
  | .nil, h => ⟨⟨[], by simp [loadL]⟩, rfl⟩
  | .cons d r, h => by
    obtain ⟨⟨x, hx⟩, hd⟩ := load_holds d h
    obtain ⟨⟨y, hy⟩, hr⟩ := loadL_holds r (load d h).2
    refine ⟨⟨x ++ y, by simp only [loadL]; rw [hy, hx, List.append_assoc]⟩, _, _, rfl, ?_, hr⟩
    simp only [loadL]
    rw [hy]
    exact holds_mono _ _ d _ hd
theorem loadM_holds : ∀ (m : Members) (h : Heap), (∃ x, (loadM m h).2 = h ++ x) ∧ HoldsM (loadM m h).2 (loadM m h).1 m
  | .nil, h => ⟨⟨[], by simp [loadM]⟩, rfl⟩
  | .cons k d r, h => by
    obtain ⟨⟨x, hx⟩, hd⟩ := load_holds d h
    obtain ⟨⟨y, hy⟩, hr⟩ := loadM_holds r (load d h).2
    refine ⟨⟨x ++ y, by simp only [loadM]; rw [hy, hx, List.append_assoc]⟩, _, _, rfl, ?_, hr⟩
    simp only [loadM]
    rw [hy]
    exact holds_mono _ _ d _ hd
end

mutual
theorem read_holds (h : Heap) : ∀ (d : Doc) (v : V), Holds h v d → ∃ N, ∀ n ≥ N, readV n h v = some d
  | .null, v, hv => ⟨1, fun n hn => by obtain ⟨n, rfl⟩ : ∃ k, n = k + 1 := ⟨n - 1, by omega⟩; rw [show v = .null from hv]; rfl⟩
  | .bool b, v, hv => ⟨1, fun n hn => by obtain ⟨n, rfl⟩ : ∃ k, n = k + 1 := ⟨n - 1, by omega⟩; rw [show v = .bool b from hv]; rfl⟩
  | .num b, v, hv => ⟨1, fun n hn => by obtain ⟨n, rfl⟩ : ∃ k, n = k + 1 := ⟨n - 1, by omega⟩; rw [show v = .num b from hv]; rfl⟩
  | .str b, v, hv => ⟨1, fun n hn => by obtain ⟨n, rfl⟩ : ∃ k, n = k + 1 := ⟨n - 1, by omega⟩; rw [show v = .str b from hv]; rfl⟩
  | .arr l, v, ⟨vs, hv, hl⟩ => by
    obtain ⟨N, hN⟩ := readL_holds h l vs hl
    refine ⟨N + 1, fun n hn => ?_⟩
    obtain ⟨n, rfl⟩ : ∃ k, n = k + 1 := ⟨n - 1, by omega⟩
    subst hv
    simp only [readV, hN n (by omega), Option.map_some]
  | .obj m, v, ⟨a, kvs, hv, ha, hm⟩ => by
    obtain ⟨N, hN⟩ := readM_holds h m kvs hm
    refine ⟨N + 1, fun n hn => ?_⟩
    obtain ⟨n, rfl⟩ : ∃ k, n = k + 1 := ⟨n - 1, by omega⟩
    subst hv
    have : h.getD a [] = kvs := by rw [List.getD_eq_getElem?_getD, ha]; rfl
    simp only [readV, this, hN n (by omega), Option.map_some]
theorem readL_holds (h : Heap) : ∀ (l : Items) (vs : List V), HoldsL h vs l → ∃ N, ∀ n ≥ N, readL n h vs = some l
  | .nil, vs, hv => ⟨1, fun n hn => by obtain ⟨n, rfl⟩ : ∃ k, n = k + 1 := ⟨n - 1, by omega⟩; rw [show vs = [] from hv]; rfl⟩
  | .cons d r, vs, ⟨v, vs', hv, hd, hr⟩ => by
    obtain ⟨N, hN⟩ := read_holds h d v hd
    obtain ⟨M, hM⟩ := readL_holds h r vs' hr
    refine ⟨N + M + 1, fun n hn => ?_⟩
    obtain ⟨n, rfl⟩ : ∃ k, n = k + 1 := ⟨n - 1, by omega⟩
    subst hv
    simp only [readL, hN n (by omega), hM n (by omega)]
theorem readM_holds (h : Heap) : ∀ (m : Members) (kvs : List (Bytes × V)), HoldsM h kvs m → ∃ N, ∀ n ≥ N, readM n h kvs = some m
  | .nil, vs, hv => ⟨1, fun n hn => by obtain ⟨n, rfl⟩ : ∃ k, n = k + 1 := ⟨n - 1, by omega⟩; rw [show vs = [] from hv]; rfl⟩
  | .cons k d r, vs, ⟨v, vs', hv, hd, hr⟩ => by
    obtain ⟨N, hN⟩ := read_holds h d v hd
    obtain ⟨M, hM⟩ := readM_holds h r vs' hr
    refine ⟨N + M + 1, fun n hn => ?_⟩
    obtain ⟨n, rfl⟩ : ∃ k, n = k + 1 := ⟨n - 1, by omega⟩
    subst hv
    simp only [readM, hN n (by omega), hM n (by omega)]
end

theorem holdsM_keys (h : Heap) : ∀ (m : Members) (kvs : List (Bytes × V)), HoldsM h kvs m → kvs.map Prod.fst = m.keys
  | .nil, _, hv => by rw [show _ = [] from hv]; rfl
  | .cons k d r, _, ⟨v, kvs', hv, hd, hr⟩ => by subst hv; simp [Members.keys, holdsM_keys h r kvs' hr]

theorem holdsM_get (h : Heap) (k : Bytes) : ∀ (m : Members) (kvs : List (Bytes × V)), HoldsM h kvs m →
    (kvs.lookup k = none ∧ m.get k = none) ∨ ∃ v d, kvs.lookup k = some v ∧ m.get k = some d ∧ Holds h v d
  | .nil, _, hv => by rw [show _ = [] from hv]; exact Or.inl ⟨rfl, rfl⟩
  | .cons k' d r, _, ⟨v, kvs', hv, hd, hr⟩ => by
    subst hv
    simp only [List.lookup_cons, Members.get]
    by_cases hk : k = k'
    · subst hk
      simp only [beq_self_eq_true, if_true]
      exact Or.inr ⟨v, d, rfl, rfl, hd⟩
    · rw [if_neg hk, show (k == k') = false from by simpa using hk]
      exact holdsM_get h k r kvs' hr

/-- Either nothing happens, or the call panics; it does not panic on the same document. -/
def Calm (s : Store) (r : Run Store) (same : Prop) : Prop := (r = .ok s ∨ r = .panic) ∧ (same → r = .ok s)

theorem calm_bind {s : Store} {r : Run Store} {p q : Prop} {f : Store → Run Store} (h1 : Calm s r p) (h2 : Calm s (f s) q) :
    Calm s (r.bind f) (p ∧ q) := by
  obtain ⟨h1, h1'⟩ := h1
  refine ⟨?_, fun ⟨hp, hq⟩ => by rw [h1' hp]; exact h2.2 hq⟩
  rcases h1 with h1 | h1
  · rw [h1]; exact h2.1
  · rw [h1]; exact Or.inr rfl

theorem calm_weaken {s : Store} {r : Run Store} {p q : Prop} (h : Calm s r p) (hq : q → p) : Calm s r q := ⟨h.1, fun x => h.2 (hq x)⟩

theorem calm_ok (s : Store) (p : Prop) : Calm s (.ok s) p := ⟨Or.inl rfl, fun _ => rfl⟩

theorem same_keys {x y : Members} (h : Same (.obj x) (.obj y)) (k : Bytes) (d v : Doc) (hd : x.get k = some d) (hv : y.get k = some v) :
    Same d v := by
  cases h with
  | obj _ _ _ h2 => exact h2 k d v hd hv

/-- A turn for a key that is not a placeholder with a value that is not one. -/
theorem key_calm (s : Store) (e a : Nat) (k : Bytes) (d : Doc) (v : V) (hk : isVar k = false) (hv : s.get e k = some v)
    (hd : Holds s.heap v d) (hp : d.Plain) (ha : ¬ IsAny d) (hn : ¬ ∃ x, IsName d x) (N : Nat)
    (hN : ∀ n ≥ N, ∀ w, Calm s (substK n s v w) (∃ d', Holds s.heap w d' ∧ Same d d')) :
    ∀ n ≥ N + 1, Calm s (keyK n s e a k) (∃ w d', s.get a k = some w ∧ Holds s.heap w d' ∧ Same d d') := by
  intro n hn1
  obtain ⟨n, rfl⟩ : ∃ j, n = j + 1 := ⟨n - 1, by omega⟩
  simp only [keyK, hk, Bool.false_eq_true, if_false, Run.bind, hv]
  have fin : Calm s (match s.get a k with | none => .ok s | some w => substK n s v w)
      (∃ w d', s.get a k = some w ∧ Holds s.heap w d' ∧ Same d d') := by
    cases hw : s.get a k with
    | none => exact calm_ok _ _
    | some w =>
      refine calm_weaken (hN n (by omega) w) ?_
      rintro ⟨w', d', h1, h2⟩
      cases h1
      exact ⟨d', h2⟩
  cases d with
  | null => exact absurd hp (by simp [Doc.Plain])
  | bool b => rw [show v = .bool b from hd] at fin ⊢; exact fin
  | num b => rw [show v = .num b from hd] at fin ⊢; exact fin
  | arr l => obtain ⟨vs, rfl, _⟩ := hd; exact fin
  | obj m => obtain ⟨a', kvs, rfl, _⟩ := hd; exact fin
  | str b =>
    rw [show v = .str b from hd] at fin ⊢
    have h1 : b ≠ anything := fun h => ha (by rw [h]; rfl)
    have h2 : isVar b = false := by
      by_contra h2
      exact hn ⟨b, (isName_iff _ _).mpr ⟨rfl, h1, by simpa using h2⟩⟩
    simp only [h1, if_false, h2, Bool.false_eq_true]
    exact fin

mutual
theorem subst_calm : ∀ (d : Doc), d.WF → d.Plain → d.Literal → ∃ N, ∀ n ≥ N, ∀ (s : Store) (v w : V), Holds s.heap v d →
    Calm s (substK n s v w) (∃ d', Holds s.heap w d' ∧ Same d d')
  | .null, _, hp, _ => absurd hp (by simp [Doc.Plain])
  | .bool b, _, _, _ => ⟨1, fun n hn s v w hv => by
      obtain ⟨n, rfl⟩ : ∃ k, n = k + 1 := ⟨n - 1, by omega⟩; rw [show v = .bool b from hv]; exact calm_ok _ _⟩
  | .num b, _, _, _ => ⟨1, fun n hn s v w hv => by
      obtain ⟨n, rfl⟩ : ∃ k, n = k + 1 := ⟨n - 1, by omega⟩; rw [show v = .num b from hv]; exact calm_ok _ _⟩
  | .str b, _, _, _ => ⟨1, fun n hn s v w hv => by
      obtain ⟨n, rfl⟩ : ∃ k, n = k + 1 := ⟨n - 1, by omega⟩; rw [show v = .str b from hv]; exact calm_ok _ _⟩
  | .arr l, hwf, hp, hl => by
    obtain ⟨N, hN⟩ := items_calm l hwf hp hl
    refine ⟨N + 1, fun n hn s v w hv => ?_⟩
    obtain ⟨n, rfl⟩ : ∃ k, n = k + 1 := ⟨n - 1, by omega⟩
    obtain ⟨vs, rfl, hvs⟩ := hv
    cases w with
    | arr ws =>
      refine calm_weaken (hN n (by omega) s vs ws hvs) ?_
      rintro ⟨d', h1, h2⟩
      cases h2 with
      | arr _ y g1 g2 =>
        obtain ⟨ws', h3, h4⟩ := h1
        cases h3
        exact ⟨y, h4, g1, g2⟩
    | _ => exact calm_ok _ _
  | .obj m, hwf, hp, hl => by
    obtain ⟨N, hN⟩ := members_calm m hwf hp hl
    refine ⟨N + m.keys.length + 2, fun n hn s v w hv => ?_⟩
    obtain ⟨n, rfl⟩ : ∃ k, n = k + 1 := ⟨n - 1, by omega⟩
    obtain ⟨e, kvs, rfl, he, hm⟩ := hv
    cases w with
    | ref a =>
      have hgd : s.heap.getD e [] = kvs := by rw [List.getD_eq_getElem?_getD, he]; rfl
      simp only [substK, hgd]
      rw [holdsM_keys _ m kvs hm]
      have hloop : ∀ (ks : List Bytes) (j : Nat), N + ks.length + 1 ≤ j → (∀ k ∈ ks, k ∈ m.keys) →
          Calm s (keysK j s e a ks) (∃ d', Holds s.heap (.ref a) d' ∧ Same (.obj m) d') := by
        intro ks
        induction ks with
        | nil =>
          intro j hj _
          obtain ⟨j, rfl⟩ : ∃ k, j = k + 1 := ⟨j - 1, by omega⟩
          exact calm_ok _ _
        | cons k ks ih =>
          intro j hj hks
          obtain ⟨j, rfl⟩ : ∃ k, j = k + 1 := ⟨j - 1, by omega⟩
          simp only [List.length_cons] at hj
          simp only [keysK]
          have hk := (mem_keys m k).mp (hks k (by simp))
          rcases holdsM_get s.heap k m kvs hm with ⟨_, h2⟩ | ⟨v, d, h1, h2, h3⟩
          · rw [h2] at hk; cases hk
          · have h4 := hN k d h2 j (by omega) s e a v (by simp only [Store.get, hgd, h1]) h3
            refine calm_weaken (calm_bind h4 (ih j (by omega) (fun k' hk' => hks k' (by simp [hk'])))) ?_
            intro hs
            refine ⟨?_, hs⟩
            obtain ⟨d', ⟨g1, g2⟩⟩ := hs
            cases g2 with
            | obj _ y q1 q2 =>
              obtain ⟨a', kvs', p1, p2, p3⟩ := g1
              cases p1
              rcases holdsM_get s.heap k y kvs' p3 with ⟨_, r2⟩ | ⟨w, d'', r1, r2, r3⟩
              · have := q1 k; rw [h2, r2] at this; cases this
              · refine ⟨w, d'', ?_, r3, q2 k d d'' h2 r2⟩
                simp only [Store.get, List.getD_eq_getElem?_getD, p2]
                exact r1
      exact hloop m.keys n (by omega) (fun k hk => hk)
    | _ => exact calm_ok _ _
theorem items_calm : ∀ (l : Items), l.WF → l.Plain → l.Literal → ∃ N, ∀ n ≥ N, ∀ (s : Store) (vs ws : List V), HoldsL s.heap vs l →
    Calm s (itemsK n s vs ws) (∃ y, HoldsL s.heap ws y ∧ (∀ i, (l.at i).isSome = (y.at i).isSome) ∧
      ∀ i u v, l.at i = some u → y.at i = some v → Same u v)
  | .nil, _, _, _ => ⟨1, fun n hn s v w hv => by
      obtain ⟨n, rfl⟩ : ∃ k, n = k + 1 := ⟨n - 1, by omega⟩; rw [show v = [] from hv]; exact calm_ok _ _⟩
  | .cons d r, hwf, hp, hl => by
    obtain ⟨N, hN⟩ := subst_calm d hwf.1 hp.1 hl.1
    obtain ⟨M, hM⟩ := items_calm r hwf.2 hp.2 hl.2
    refine ⟨N + M + 1, fun n hn s vs ws hv => ?_⟩
    obtain ⟨n, rfl⟩ : ∃ k, n = k + 1 := ⟨n - 1, by omega⟩
    obtain ⟨v, vs', rfl, h1, h2⟩ := hv
    cases ws with
    | nil =>
      refine ⟨Or.inr rfl, ?_⟩
      rintro ⟨y, g1, g2, g3⟩
      exfalso
      cases y with
      | nil => have := g2 0; simp [Items.at] at this
      | cons d' r' => obtain ⟨_, _, g, _⟩ := g1; cases g
    | cons w ws =>
      simp only [itemsK]
      refine calm_weaken (calm_bind (hN n (by omega) s v w h1) (hM n (by omega) s vs' ws h2)) ?_
      rintro ⟨y, g1, g2, g3⟩
      cases y with
      | nil => cases (show _ = [] from g1)
      | cons d' r' =>
        obtain ⟨w', ws', g, g4, g5⟩ := g1
        cases g
        exact ⟨⟨d', g4, g3 0 d d' rfl rfl⟩, r', g5, fun i => g2 (i + 1), fun i u v hu hv => g3 (i + 1) u v hu hv⟩
theorem members_calm : ∀ (m : Members), m.WF → m.Plain → m.Literal → ∃ N, ∀ (k : Bytes) (d : Doc), m.get k = some d → ∀ n ≥ N,
    ∀ (s : Store) (e a : Nat) (v : V), s.get e k = some v → Holds s.heap v d →
      Calm s (keyK n s e a k) (∃ w d', s.get a k = some w ∧ Holds s.heap w d' ∧ Same d d')
  | .nil, _, _, _ => ⟨0, fun k d hd => by simp [Members.get] at hd⟩
  | .cons k0 d0 r, hwf, hp, hl => by
    obtain ⟨N, hN⟩ := subst_calm d0 hwf.2.1 hp.2.1 hl.2.1
    obtain ⟨M, hM⟩ := members_calm r hwf.2.2 hp.2.2 hl.2.2
    refine ⟨N + M + 1, fun k d hd n hn s e a v hv hh => ?_⟩
    simp only [Members.get] at hd
    by_cases hk : k = k0
    · subst hk
      rw [if_pos rfl] at hd
      cases hd
      exact key_calm s e a k d0 v hp.1 hv hh hp.2.1 hl.1.1 hl.1.2 N (fun n hn w => hN n hn s v w hh) n (by omega)
    · rw [if_neg hk] at hd
      exact hM k d hd n (by omega) s e a v hv hh
end

/-! ### One placeholder as a key -/

theorem lookup_set (l : List (Bytes × V)) (k j : Bytes) (v : V) : (assocSet l k v).lookup j = if j = k then some v else l.lookup j := by
  induction l with
  | nil =>
    simp only [assocSet, List.lookup_cons, List.lookup_nil]
    by_cases h : j = k
    · simp [h]
    · rw [if_neg h, show (j == k) = false from by simpa using h]
  | cons p l ih =>
    obtain ⟨x, u⟩ := p
    simp only [assocSet]
    by_cases hk : k = x
    · rw [if_pos hk]
      subst hk
      simp only [List.lookup_cons]
      by_cases h : j = k
      · simp [h]
      · rw [if_neg h, show (j == k) = false from by simpa using h]
    · rw [if_neg hk]
      simp only [List.lookup_cons]
      by_cases h : j = x
      · subst h
        simp [Ne.symm hk]
      · simp only [show (j == x) = false from by simpa using h]
        exact ih

theorem lookup_del (l : List (Bytes × V)) (k j : Bytes) : (assocDel l k).lookup j = if j = k then none else l.lookup j := by
  unfold assocDel
  induction l with
  | nil => simp
  | cons p l ih =>
    obtain ⟨x, u⟩ := p
    by_cases hx : x = k
    · rw [List.filter_cons_of_neg (by simpa using hx), ih]
      by_cases h : j = k
      · simp [h]
      · rw [if_neg h, if_neg h, List.lookup_cons, show (j == x) = false from by simpa [hx] using h]
    · rw [List.filter_cons_of_pos (by simpa using hx)]
      simp only [List.lookup_cons]
      by_cases h : j = x
      · subst h; simp [hx]
      · simp only [show (j == x) = false from by simpa using h]
        exact ih

/-- Members without a key. -/
def Members.del : Members → Bytes → Members
  | .nil, _ => .nil
  | .cons k d r, x => if k = x then r.del x else .cons k d (r.del x)

theorem get_del (m : Members) (k x : Bytes) : (m.del k).get x = if x = k then none else m.get x := by
  match m with
  | .nil => simp [Members.del, Members.get]
  | .cons j d r =>
    simp only [Members.del]
    have ih := get_del r k x
    by_cases hj : j = k
    · rw [if_pos hj, ih]
      simp only [Members.get]
      by_cases hx : x = k
      · simp [hx]
      · rw [if_neg hx, if_neg hx, if_neg (by rw [hj]; exact hx)]
    · rw [if_neg hj]
      simp only [Members.get, ih]
      by_cases hx : x = j
      · rw [if_pos hx, if_pos hx, if_neg (by rw [hx]; exact hj)]
      · rw [if_neg hx, if_neg hx]

theorem del_wf (m : Members) (h : m.WF) (k : Bytes) : (m.del k).WF := by
  match m with
  | .nil => trivial
  | .cons j d r =>
    obtain ⟨h1, h2, h3⟩ := h
    simp only [Members.del]
    split
    · exact del_wf r h3 k
    · exact ⟨by rw [get_del, h1]; simp, h2, del_wf r h3 k⟩

theorem holdsM_set (h : Heap) (k : Bytes) (v : V) (d : Doc) (hv : Holds h v d) : ∀ (m : Members) (kvs : List (Bytes × V)), HoldsM h kvs m →
    HoldsM h (assocSet kvs k v) (m.set k d)
  | .nil, _, hm => by
    rw [show _ = [] from hm]
    exact ⟨v, [], rfl, hv, rfl⟩
  | .cons x u r, _, ⟨w, kvs', hw, hu, hr⟩ => by
    subst hw
    simp only [assocSet, Members.set]
    by_cases hk : k = x
    · rw [if_pos hk, if_pos hk, hk]
      exact ⟨v, kvs', rfl, hv, hr⟩
    · rw [if_neg hk, if_neg hk]
      exact ⟨w, _, rfl, hu, holdsM_set h k v d hv r kvs' hr⟩

theorem holdsM_del (h : Heap) (k : Bytes) : ∀ (m : Members) (kvs : List (Bytes × V)), HoldsM h kvs m →
    HoldsM h (assocDel kvs k) (m.del k)
  | .nil, _, hm => by
    rw [show _ = [] from hm]
    exact rfl
  | .cons x u r, _, ⟨w, kvs', hw, hu, hr⟩ => by
    subst hw
    have ih := holdsM_del h k r kvs' hr
    simp only [Members.del]
    by_cases hk : x = k
    · rw [if_pos hk]
      unfold assocDel
      rw [List.filter_cons_of_neg (by simpa using hk)]
      exact ih
    · rw [if_neg hk]
      unfold assocDel
      rw [List.filter_cons_of_pos (by simpa using hk)]
      exact ⟨w, _, rfl, hu, ih⟩

/-- A store with the map of the template last. -/
def top (base : Heap) (E : List (Bytes × V)) (vars : List (Bytes × Variable)) : Store := ⟨base ++ [E], vars⟩

theorem top_get (base : Heap) (E : List (Bytes × V)) (vars : List (Bytes × Variable)) (k : Bytes) :
    (top base E vars).get base.length k = E.lookup k := by
  simp [Store.get, top, List.getD_eq_getElem?_getD]

theorem top_get_other (base : Heap) (E A : List (Bytes × V)) (vars : List (Bytes × Variable)) (a : Nat) (ha : base[a]? = some A) (k : Bytes) :
    (top base E vars).get a k = A.lookup k := by
  have := (List.getElem?_eq_some_iff.mp ha).1
  simp only [Store.get, top, List.getD_eq_getElem?_getD]
  rw [List.getElem?_append_left this, ha]
  rfl

theorem top_set (base : Heap) (E : List (Bytes × V)) (vars : List (Bytes × Variable)) (k : Bytes) (v : V) :
    (top base E vars).set base.length k v = top base (assocSet E k v) vars := by
  simp only [Store.set, top]
  congr 1
  apply List.ext_getElem?
  intro i
  rw [List.getElem?_modify]
  rcases Nat.lt_trichotomy i base.length with h | h | h
  · rw [List.getElem?_append_left h, List.getElem?_append_left h]
    simp [Nat.ne_of_gt h]
  · subst h
    simp
  · rw [List.getElem?_eq_none (by simp; omega), List.getElem?_eq_none (by simp; omega)]
    rfl

theorem top_del (base : Heap) (E : List (Bytes × V)) (vars : List (Bytes × Variable)) (k : Bytes) :
    (top base E vars).del base.length k = top base (assocDel E k) vars := by
  simp only [Store.del, top]
  congr 1
  apply List.ext_getElem?
  intro i
  rw [List.getElem?_modify]
  rcases Nat.lt_trichotomy i base.length with h | h | h
  · rw [List.getElem?_append_left h, List.getElem?_append_left h]
    simp [Nat.ne_of_gt h]
  · subst h
    simp
  · rw [List.getElem?_eq_none (by simp; omega), List.getElem?_eq_none (by simp; omega)]
    rfl

theorem bounds {Q : Doc → Nat → Prop} (m : Members) (n : Bytes)
    (h : ∀ k d, k ≠ n → m.get k = some d → ∃ N, ∀ j ≥ N, Q d j) :
    ∃ N, ∀ k d, k ≠ n → m.get k = some d → ∀ j ≥ N, Q d j := by
  have key : ∀ ks : List Bytes, ∃ N, ∀ k ∈ ks, ∀ d, k ≠ n → m.get k = some d → ∀ j ≥ N, Q d j := by
    intro ks
    induction ks with
    | nil => exact ⟨0, by simp⟩
    | cons k ks ih =>
      obtain ⟨N, hN⟩ := ih
      by_cases hk : k = n
      · refine ⟨N, fun k' hk' d hne hd j hj => ?_⟩
        simp only [List.mem_cons] at hk'
        rcases hk' with rfl | hk'
        · exact absurd hk hne
        · exact hN k' hk' d hne hd j hj
      · cases hg : m.get k with
        | none =>
          refine ⟨N, fun k' hk' d hne hd j hj => ?_⟩
          simp only [List.mem_cons] at hk'
          rcases hk' with rfl | hk'
          · rw [hg] at hd; cases hd
          · exact hN k' hk' d hne hd j hj
        | some d0 =>
          obtain ⟨M, hM⟩ := h k d0 hk hg
          refine ⟨N + M, fun k' hk' d hne hd j hj => ?_⟩
          simp only [List.mem_cons] at hk'
          rcases hk' with rfl | hk'
          · rw [hg] at hd; cases hd; exact hM j (by omega)
          · exact hN k' hk' d hne hd j (by omega)
  obtain ⟨N, hN⟩ := key m.keys
  exact ⟨N, fun k d hne hd j hj => hN k ((mem_keys m k).mpr (by rw [hd]; rfl)) d hne hd j hj⟩

/-- The parts of a comparison with one placeholder as a key. -/
structure Scene (n x foo : Bytes) (m a : Members) (base : Heap) (E A : List (Bytes × V)) (aA : Nat) (D : Doc) (vD : V) (N : Nat) : Prop where
  one : OneKey n x m
  holdsE : HoldsM base E m
  atA : base[aA]? = some A
  holdsA : HoldsM base A a
  fooAt : a.get n = some (.str foo)
  noX : a.get x = none
  fresh : m.get foo = none
  getD : m.get x = some D
  lookD : E.lookup x = some vD
  holdD : Holds base vD D
  bound : ∀ k d, k ≠ n → m.get k = some d → ∀ j ≥ N, ∀ (s : Store) (v w : V), Holds s.heap v d →
    Calm s (substK j s v w) (∃ d', Holds s.heap w d' ∧ Same d d')

/-- What does not make it panic. -/
def Fits (n x foo : Bytes) (m a : Members) (D : Doc) : Prop :=
  (∃ v, a.get foo = some v ∧ Same D v) ∧ ∀ k d, k ≠ n → k ≠ x → m.get k = some d → ∃ v, a.get k = some v ∧ Same d v

theorem lookupA {n x foo : Bytes} {m a : Members} {base : Heap} {E A : List (Bytes × V)} {aA : Nat} {D : Doc} {vD : V} {N : Nat}
    (h : Scene n x foo m a base E A aA D vD N) (k : Bytes) :
    (A.lookup k = none ∧ a.get k = none) ∨ ∃ v d, A.lookup k = some v ∧ a.get k = some d ∧ Holds base v d := holdsM_get base k a A h.holdsA

/-- The template with the binding member replaced, and with the key renamed too. -/
def bound1 (n foo : Bytes) (E : List (Bytes × V)) : List (Bytes × V) := assocSet E n (.str foo)

def bound2 (n x foo : Bytes) (vD : V) (E : List (Bytes × V)) : List (Bytes × V) := assocSet (assocDel (bound1 n foo E) x) foo vD

theorem run_sub {n x foo : Bytes} {m a : Members} {base : Heap} {E A : List (Bytes × V)} {aA : Nat} {D : Doc} {vD : V} {N : Nat}
    (h : Scene n x foo m a base E A aA D vD N) (vars : List (Bytes × Variable)) (j : Nat) (hj : N + 1 ≤ j) :
    (runSub j (top base (bound1 n foo E) vars) ⟨x, base.length, aA⟩ (.str foo) = .panic ∨
      runSub j (top base (bound1 n foo E) vars) ⟨x, base.length, aA⟩ (.str foo) = .ok (top base (bound2 n x foo vD E) vars)) ∧
    (Fits n x foo m a D →
      runSub j (top base (bound1 n foo E) vars) ⟨x, base.length, aA⟩ (.str foo) = .ok (top base (bound2 n x foo vD E) vars)) := by
  obtain ⟨j, rfl⟩ : ∃ k, j = k + 1 := ⟨j - 1, by omega⟩
  have hnx : x ≠ n := by
    intro hx
    have h1 := h.one.binderKey
    rw [← hx, h.one.var] at h1
    cases h1
  have hgx : (top base (bound1 n foo E) vars).get base.length x = some vD := by
    rw [top_get, bound1, lookup_set, if_neg hnx, h.lookD]
  simp only [runSub, hgx, top_get_other base _ A vars aA h.atA]
  rcases lookupA h foo with ⟨h1, h2⟩ | ⟨v, d, h1, h2, h3⟩
  · rw [h1]
    refine ⟨Or.inl rfl, ?_⟩
    rintro ⟨⟨v, hv, _⟩, _⟩
    rw [h2] at hv
    cases hv
  · rw [h1]
    simp only
    have hc := h.bound x D hnx h.getD j (by omega) (top base (bound1 n foo E) vars) vD v (holds_mono base _ D vD h.holdD)
    have hfin : ∀ r : Run Store, r = .ok (top base (bound1 n foo E) vars) →
        (r.bind fun s => .ok ((s.del base.length x).set base.length foo vD)) = .ok (top base (bound2 n x foo vD E) vars) := by
      intro r hr
      rw [hr]
      simp only [Run.bind, top_del, top_set, bound2]
    refine ⟨?_, ?_⟩
    · rcases hc.1 with hc | hc
      · exact Or.inr (hfin _ hc)
      · rw [hc]; exact Or.inl rfl
    · rintro ⟨⟨v', hv', hs⟩, _⟩
      rw [h2] at hv'
      cases hv'
      exact hfin _ (hc.2 ⟨d, holds_mono base _ d v h3, hs⟩)

/-- How far the loop has come: the keys left and the state. -/
def Stage (n x foo : Bytes) (base : Heap) (E : List (Bytes × V)) (aA : Nat) (vD : V) (ks : List Bytes) (s : Store) : Prop :=
  ∃ vars,
    (n ∈ ks ∧ x ∈ ks ∧ s = top base E vars ∧ vars.lookup x = none) ∨
    (n ∉ ks ∧ x ∈ ks ∧ s = top base (bound1 n foo E) vars ∧ vars.lookup x = some ⟨.str foo, []⟩) ∨
    (n ∈ ks ∧ x ∉ ks ∧ s = top base E vars ∧ vars.lookup x = some ⟨.null, [⟨x, base.length, aA⟩]⟩) ∨
    (n ∉ ks ∧ x ∉ ks ∧ s = top base (bound2 n x foo vD E) vars)

theorem ok_bind {α β : Type} (a : α) (f : α → Run β) : (Run.ok a).bind f = f a := rfl

theorem stage_turn {n x foo : Bytes} {m a : Members} {base : Heap} {E A : List (Bytes × V)} {aA : Nat} {D : Doc} {vD : V} {N : Nat}
    (h : Scene n x foo m a base E A aA D vD N) (k : Bytes) (ks : List Bytes) (hk : (m.get k).isSome) (hnd : k ∉ ks) (s : Store)
    (hs : Stage n x foo base E aA vD (k :: ks) s) (j : Nat) (hj : N + 6 ≤ j) :
    (keyK j s base.length aA k = .panic ∨ ∃ t, keyK j s base.length aA k = .ok t ∧ Stage n x foo base E aA vD ks t) ∧
    (Fits n x foo m a D → ∃ t, keyK j s base.length aA k = .ok t) := by
  have hnx : x ≠ n := by
    intro hx
    have h1 := h.one.binderKey
    rw [← hx, h.one.var] at h1
    cases h1
  have hxf : x ≠ foo := by
    intro hx
    have := h.fresh
    rw [← hx, h.getD] at this
    cases this
  have hkf : k ≠ foo := by
    intro hx
    rw [hx, h.fresh] at hk
    cases hk
  have hAn : A.lookup n = some (.str foo) := by
    rcases lookupA h n with ⟨_, h2⟩ | ⟨v, d, h1, h2, h3⟩
    · rw [h.fooAt] at h2; cases h2
    · rw [h.fooAt] at h2; cases h2
      rw [h1, show v = .str foo from h3]
  have hAx : A.lookup x = none := by
    rcases lookupA h x with ⟨h1, _⟩ | ⟨v, d, h1, h2, h3⟩
    · exact h1
    · rw [h.noX] at h2; cases h2
  have hEn : E.lookup n = some (.str x) := by
    rcases holdsM_get base n m E h.holdsE with ⟨_, h2⟩ | ⟨v, d, h1, h2, h3⟩
    · rw [h.one.binder] at h2; cases h2
    · rw [h.one.binder] at h2; cases h2
      rw [h1, show v = .str x from h3]
  obtain ⟨i, rfl⟩ : ∃ i, j = i + 6 := ⟨j - 6, by omega⟩
  obtain ⟨vars, hs⟩ := hs
  by_cases hkn : k = n
  · subst hkn
    have hvar := h.one.binderKey
    rcases hs with ⟨_, hx, rfl, hl⟩ | ⟨hn, _⟩ | ⟨_, hx, rfl, hl⟩ | ⟨hn, _⟩
    · have hx' : x ∈ ks := by simpa [hnx] using hx
      have : keyK (i + 6) (top base E vars) base.length aA k = .ok (top base (bound1 k foo E) ((x, ⟨.str foo, []⟩) :: vars)) := by
        simp only [keyK, hvar, Bool.false_eq_true, if_false, ok_bind, top_get, hEn, top_get_other base _ A vars aA h.atA, hAn, h.one.var,
          if_true, top_set, bindVar]
        rw [if_neg (show x ≠ anything from h.one.notAny)]
        simp only [top, hl, Store.setVar, bound1]
      exact ⟨Or.inr ⟨_, this, _, Or.inr (Or.inl ⟨hnd, hx', rfl, by simp⟩)⟩, fun _ => ⟨_, this⟩⟩
    · exact absurd (by simp) hn
    · have hx' : x ∉ ks := by simp only [List.mem_cons, not_or] at hx; exact hx.2
      have hrw : keyK (i + 6) (top base E vars) base.length aA k =
          ((runSub (i + 3) (top base (bound1 k foo E) vars) ⟨x, base.length, aA⟩ (.str foo)).bind fun s => .ok s).bind fun s =>
            .ok (s.setVar x ⟨.str foo, []⟩) := by
        simp only [keyK, hvar, Bool.false_eq_true, if_false, ok_bind, top_get, hEn, top_get_other base _ A vars aA h.atA, hAn, h.one.var,
          if_true, top_set, bindVar]
        rw [if_neg (show x ≠ anything from h.one.notAny)]
        simp only [top, hl, runSubs, bound1]
      obtain ⟨hr1, hr2⟩ := run_sub h vars (i + 3) (by omega)
      rw [hrw]
      have hok : ∀ r, r = Run.ok (top base (bound2 k x foo vD E) vars) →
          ((r.bind fun s => .ok s).bind fun s => .ok (s.setVar x ⟨.str foo, []⟩)) =
            .ok (top base (bound2 k x foo vD E) ((x, ⟨.str foo, []⟩) :: vars)) := by
        intro r hr; rw [hr]; rfl
      refine ⟨?_, fun hf => ⟨_, hok _ (hr2 hf)⟩⟩
      rcases hr1 with hr1 | hr1
      · rw [hr1]; exact Or.inl rfl
      · exact Or.inr ⟨_, hok _ hr1, _, Or.inr (Or.inr (Or.inr ⟨hnd, hx', rfl⟩))⟩
    · exact absurd (by simp) hn
  · by_cases hkx : k = x
    · subst hkx
      have hplain := h.one.plain k D hnx h.getD
      rcases hs with ⟨hn, _, rfl, hl⟩ | ⟨hn, _, rfl, hl⟩ | ⟨_, hx, _⟩ | ⟨_, hx, _⟩
      · have hn' : n ∈ ks := by simpa [Ne.symm hkn] using hn
        have : keyK (i + 6) (top base E vars) base.length aA k =
            .ok (top base E ((k, ⟨.null, [⟨k, base.length, aA⟩]⟩) :: vars)) := by
          have h1 : subVar (i + 5) (top base E vars) k ⟨k, base.length, aA⟩ = .ok (top base E ((k, ⟨.null, [⟨k, base.length, aA⟩]⟩) :: vars)) := by
            simp only [subVar, top, hl, Store.setVar]
          simp only [keyK, h.one.var, if_true, h1, ok_bind, top_get, h.lookD, top_get_other base _ A _ aA h.atA, hAx]
          have hD := h.holdD
          cases D with
          | null => exact absurd hplain.1 (by simp [Doc.Plain])
          | bool b => rw [show vD = .bool b from hD]
          | num b => rw [show vD = .num b from hD]
          | arr l => obtain ⟨vs, rfl, _⟩ := hD; rfl
          | obj l => obtain ⟨a', kvs, rfl, _⟩ := hD; rfl
          | str b =>
            rw [show vD = .str b from hD]
            have : b ≠ anything := fun hb => hplain.2.2.1 (by rw [hb]; rfl)
            simp only [this, if_false]
        exact ⟨Or.inr ⟨_, this, _, Or.inr (Or.inr (Or.inl ⟨hn', hnd, rfl, by simp⟩))⟩, fun _ => ⟨_, this⟩⟩
      · have hn' : n ∉ ks := by simp only [List.mem_cons, not_or] at hn; exact hn.2
        have hrw : keyK (i + 6) (top base (bound1 n foo E) vars) base.length aA k =
            (runSub (i + 4) (top base (bound1 n foo E) vars) ⟨k, base.length, aA⟩ (.str foo)).bind fun s =>
              match s.get base.length k with
              | none => .ok s
              | some .null => .panic
              | some (.str w) =>
                if w = anything then .ok (s.set aA k (.str anything))
                else match s.get aA k with
                  | none => .ok s
                  | some v => if isVar w then bindVar (i + 5) (s.set base.length k v) w v else substK (i + 5) s (.str w) v
              | some x =>
                match s.get aA k with
                | none => .ok s
                | some v => substK (i + 5) s x v := by
          have h1 : subVar (i + 5) (top base (bound1 n foo E) vars) k ⟨k, base.length, aA⟩ =
              runSub (i + 4) (top base (bound1 n foo E) vars) ⟨k, base.length, aA⟩ (.str foo) := by
            simp only [subVar, top, hl]
          simp only [keyK, h.one.var, if_true, h1]
        obtain ⟨hr1, hr2⟩ := run_sub h vars (i + 4) (by omega)
        rw [hrw]
        have hnone : (top base (bound2 n k foo vD E) vars).get base.length k = none := by
          rw [top_get, bound2, lookup_set, if_neg hxf, lookup_del, if_pos rfl]
        refine ⟨?_, fun hf => ⟨top base (bound2 n k foo vD E) vars, ?_⟩⟩
        · rcases hr1 with hr1 | hr1
          · rw [hr1]; exact Or.inl rfl
          · refine Or.inr ⟨top base (bound2 n k foo vD E) vars, ?_, vars, Or.inr (Or.inr (Or.inr ⟨hn', hnd, rfl⟩))⟩
            rw [hr1]
            simp only [Run.bind, hnone]
        · rw [hr2 hf]
          simp only [Run.bind, hnone]
      · exact absurd (by simp) hx
      · exact absurd (by simp) hx
    · have hvar := h.one.keys k hk hkx
      obtain ⟨d, hd⟩ := Option.isSome_iff_exists.mp hk
      have hplain := h.one.plain k d hkn hd
      obtain ⟨v, hv, hh⟩ : ∃ v, E.lookup k = some v ∧ Holds base v d := by
        rcases holdsM_get base k m E h.holdsE with ⟨_, h2⟩ | ⟨v, d', h1, h2, h3⟩
        · rw [hd] at h2; cases h2
        · rw [hd] at h2; cases h2; exact ⟨v, h1, h3⟩
      have key : ∀ (E' : List (Bytes × V)) (vars : List (Bytes × Variable)), E'.lookup k = some v →
          Calm (top base E' vars) (keyK (i + 6) (top base E' vars) base.length aA k) (Fits n x foo m a D) := by
        intro E' vars hE'
        have hc := key_calm (top base E' vars) base.length aA k d v hvar (by rw [top_get, hE']) (holds_mono base _ d v hh) hplain.1
          hplain.2.2.1 hplain.2.2.2 N (fun j hj w => h.bound k d hkn hd j hj _ v w (holds_mono base _ d v hh)) (i + 6) (by omega)
        refine calm_weaken hc ?_
        rintro ⟨_, hf⟩
        obtain ⟨u, hu, hsame⟩ := hf k d hkn hkx hd
        rcases lookupA h k with ⟨_, h2⟩ | ⟨w, d', h1, h2, h3⟩
        · rw [hu] at h2; cases h2
        · rw [hu] at h2; cases h2
          exact ⟨w, u, by rw [top_get_other base _ A vars aA h.atA, h1], holds_mono base _ u w h3, hsame⟩
      have hl1 : (bound1 n foo E).lookup k = some v := by rw [bound1, lookup_set, if_neg hkn, hv]
      have hl2 : (bound2 n x foo vD E).lookup k = some v := by rw [bound2, lookup_set, if_neg hkf, lookup_del, if_neg hkx, hl1]
      have hmn : n ∈ k :: ks ↔ n ∈ ks := by simp [Ne.symm hkn]
      have hmx : x ∈ k :: ks ↔ x ∈ ks := by simp [Ne.symm hkx]
      rw [hmn, hmx] at hs
      have fin : ∀ (E' : List (Bytes × V)) (vars : List (Bytes × Variable)), E'.lookup k = some v → s = top base E' vars →
          Stage n x foo base E aA vD ks s →
          (keyK (i + 6) s base.length aA k = .panic ∨ ∃ t, keyK (i + 6) s base.length aA k = .ok t ∧ Stage n x foo base E aA vD ks t) ∧
          (Fits n x foo m a D → ∃ t, keyK (i + 6) s base.length aA k = .ok t) := by
        intro E' vars hE' hs1 hs2
        have hc := key E' vars hE'
        rw [← hs1] at hc
        refine ⟨?_, fun hf => ⟨_, hc.2 hf⟩⟩
        rcases hc.1 with hc | hc
        · exact Or.inr ⟨s, hc, hs2⟩
        · exact Or.inl hc
      have hst : Stage n x foo base E aA vD ks s := ⟨vars, hs⟩
      rcases hs with ⟨_, _, hs, _⟩ | ⟨_, _, hs, _⟩ | ⟨_, _, hs, _⟩ | ⟨_, _, hs⟩
      · exact fin E vars hv hs hst
      · exact fin _ vars hl1 hs hst
      · exact fin E vars hv hs hst
      · exact fin _ vars hl2 hs hst

theorem stage_loop {n x foo : Bytes} {m a : Members} {base : Heap} {E A : List (Bytes × V)} {aA : Nat} {D : Doc} {vD : V} {N : Nat}
    (h : Scene n x foo m a base E A aA D vD N) : ∀ (ks : List Bytes), (∀ k ∈ ks, (m.get k).isSome) → ks.Nodup → ∀ (s : Store),
    Stage n x foo base E aA vD ks s → ∀ j ≥ N + 7 + ks.length,
    (keysK j s base.length aA ks = .panic ∨ ∃ vars, keysK j s base.length aA ks = .ok (top base (bound2 n x foo vD E) vars)) ∧
    (Fits n x foo m a D → ∃ t, keysK j s base.length aA ks = .ok t) := by
  intro ks
  induction ks with
  | nil =>
    intro _ _ s hs j hj
    obtain ⟨j, rfl⟩ : ∃ k, j = k + 1 := ⟨j - 1, by omega⟩
    obtain ⟨vars, hs⟩ := hs
    rcases hs with ⟨hs, _⟩ | ⟨_, hs, _⟩ | ⟨hs, _⟩ | ⟨_, _, rfl⟩
    · cases hs
    · cases hs
    · cases hs
    · exact ⟨Or.inr ⟨vars, rfl⟩, fun _ => ⟨_, rfl⟩⟩
  | cons k ks ih =>
    intro hm hnd s hs j hj
    simp only [List.length_cons] at hj
    obtain ⟨j, rfl⟩ : ∃ k, j = k + 1 := ⟨j - 1, by omega⟩
    obtain ⟨hnd1, hnd2⟩ := List.nodup_cons.mp hnd
    obtain ⟨h1, h2⟩ := stage_turn h k ks (hm k (by simp)) hnd1 s hs j (by omega)
    simp only [keysK]
    rcases h1 with h1 | ⟨t, h1, h3⟩
    · rw [h1]
      refine ⟨Or.inl rfl, fun hf => ?_⟩
      obtain ⟨t, ht⟩ := h2 hf
      rw [h1] at ht
      cases ht
    · rw [h1]
      exact ih (fun k' hk' => hm k' (by simp [hk'])) hnd2 t h3 j (by omega)

/-- C124, partial: with one placeholder as a key, bound to a name that is not a key of the template by another member, and otherwise no
placeholders, the document is accepted exactly if it is the template with the name in the place of the placeholder, whatever the order of
the maps. -/
theorem one_key_partial (n x foo : Bytes) (m a : Members) (h : OneKey n x m) (ha : a.WF) (hfoo : a.get n = some (.str foo))
    (hx : a.get x = none) (hfresh : m.get foo = none) :
    ∃ N, ∀ fuel ≥ N, ∃ r, jsonEqualK fuel (.obj m) (.obj a) = some r ∧ (r = .accepted ↔ Renamed n x foo m a) := by
  obtain ⟨D, hD⟩ := Option.isSome_iff_exists.mp h.member
  obtain ⟨_, hA⟩ := load_holds (.obj a) []
  obtain ⟨aA, A, hA1, hA2, hA3⟩ := hA
  obtain ⟨⟨X, hX⟩, hE⟩ := loadM_holds m (load (.obj a) []).2
  generalize hhA : (load (.obj a) []).2 = hp at *
  generalize hbase : (loadM m hp).2 = base at *
  generalize hEE : (loadM m hp).1 = E at *
  have hatA : base[aA]? = some A := by
    rw [hX, List.getElem?_append_left (List.getElem?_eq_some_iff.mp hA2).1]; exact hA2
  have hHA : HoldsM base A a := by rw [hX]; exact holdsM_mono hp X a A hA3
  obtain ⟨vD, hlD, hhD⟩ : ∃ v, E.lookup x = some v ∧ Holds base v D := by
    rcases holdsM_get base x m E hE with ⟨_, h2⟩ | ⟨v, d', h1, h2, h3⟩
    · rw [hD] at h2; cases h2
    · rw [hD] at h2; cases h2; exact ⟨v, h1, h3⟩
  obtain ⟨N, hN⟩ := bounds (Q := fun d j => ∀ (s : Store) (v w : V), Holds s.heap v d →
    Calm s (substK j s v w) (∃ d', Holds s.heap w d' ∧ Same d d')) m n (by
      intro k d hk hd
      obtain ⟨N, hN⟩ := subst_calm d (get_wf m h.wf k d hd) (h.plain k d hk hd).1 (h.plain k d hk hd).2.1
      exact ⟨N, hN⟩)
  have sc : Scene n x foo m a base E A aA D vD N :=
    { one := h, holdsE := hE, atA := hatA, holdsA := hHA, fooAt := hfoo, noX := hx, fresh := hfresh, getD := hD, lookD := hlD, holdD := hhD,
      bound := hN }
  have hnx : x ≠ n := by
    intro hx
    have h1 := h.binderKey
    rw [← hx, h.var] at h1
    cases h1
  have hxf : x ≠ foo := by
    intro hx
    rw [← hx, hD] at hfresh
    cases hfresh
  have hnf : n ≠ foo := by
    intro hx
    rw [← hx, h.binder] at hfresh
    cases hfresh
  -- the final template
  have hM : HoldsM base (bound2 n x foo vD E) (((m.set n (.str foo)).del x).set foo D) :=
    holdsM_set base foo vD D hhD _ _ (holdsM_del base x _ _ (holdsM_set base n (.str foo) (.str foo) rfl m E hE))
  generalize hmB : ((m.set n (.str foo)).del x).set foo D = mB at hM
  have hgB : ∀ k, mB.get k = if k = foo then some D else if k = x then none else if k = n then some (.str foo) else m.get k := by
    intro k; rw [← hmB, get_set, get_del, get_set]
  have hwB : mB.WF := by
    rw [← hmB]
    exact set_wf _ (del_wf _ (set_wf m h.wf n (.str foo) (by trivial)) x) foo D (get_wf m h.wf x D hD)
  have hsame : Same (.obj mB) (.obj a) ↔ Renamed n x foo m a := by
    constructor
    · intro hs
      cases hs with
      | obj _ _ g1 g2 =>
        refine ⟨fun k => ?_, fun d v hd hv => ?_, fun k d v h1 h2 h3 hd hv => ?_⟩
        · rw [← g1 k, hgB]
          by_cases h1 : k = foo
          · simp [h1]
          · by_cases h2 : k = x
            · subst h2; simp [h1]
            · by_cases h3 : k = n
              · subst h3; simp [h1, h2, h.binder]
              · simp [h1, h2, h3]
        · rw [hD] at hd; cases hd
          exact g2 foo D v (by rw [hgB, if_pos rfl]) hv
        · exact g2 k d v (by rw [hgB, if_neg h3, if_neg h2, if_neg h1, hd]) hv
    · rintro ⟨g1, g2, g3⟩
      refine .obj mB a (fun k => ?_) (fun k d v hd hv => ?_)
      · apply isSome_eq_of
        rw [g1 k, hgB]
        by_cases h1 : k = foo
        · simp [h1]
        · by_cases h2 : k = x
          · subst h2; simp [h1]
          · by_cases h3 : k = n
            · subst h3; simp [h1, h2, h.binder]
            · simp [h1, h2, h3]
      · rw [hgB] at hd
        by_cases h1 : k = foo
        · subst h1
          rw [if_pos rfl] at hd
          cases hd
          exact g2 D v hD hv
        · rw [if_neg h1] at hd
          by_cases h2 : k = x
          · rw [if_pos h2] at hd; cases hd
          · rw [if_neg h2] at hd
            by_cases h3 : k = n
            · rw [if_pos h3] at hd
              cases hd
              subst h3
              rw [hfoo] at hv
              cases hv
              exact same_refl _
            · rw [if_neg h3] at hd
              exact g3 k d v h3 h2 h1 hd hv
  have hfits : Renamed n x foo m a → Fits n x foo m a D := by
    rintro ⟨g1, g2, g3⟩
    refine ⟨?_, fun k d h1 h2 hd => ?_⟩
    · obtain ⟨v, hv⟩ := Option.isSome_iff_exists.mp ((g1 foo).mpr (Or.inl rfl))
      exact ⟨v, hv, g2 D v hD hv⟩
    · obtain ⟨v, hv⟩ := Option.isSome_iff_exists.mp ((g1 k).mpr (Or.inr ⟨h2, by rw [hd]; rfl⟩))
      exact ⟨v, hv, g3 k d v h1 h2 (by intro hk; rw [hk, hfresh] at hd; cases hd) hd hv⟩
  obtain ⟨R1, hR1⟩ := read_holds (base ++ [bound2 n x foo vD E]) (.obj mB) (.ref base.length)
    ⟨base.length, _, rfl, by simp, holdsM_mono base _ mB _ hM⟩
  obtain ⟨R2, hR2⟩ := read_holds (base ++ [bound2 n x foo vD E]) (.obj a) (.ref aA)
    (holds_mono base _ (.obj a) (.ref aA) ⟨aA, A, rfl, hatA, hHA⟩)
  refine ⟨N + 8 + m.keys.length + R1 + R2, fun fuel hf => ?_⟩
  obtain ⟨j, rfl⟩ : ∃ j, fuel = j + 1 := ⟨fuel - 1, by omega⟩
  have hks : E.map Prod.fst = m.keys := holdsM_keys base m E hE
  have hstart : substK (j + 1) ⟨base ++ [E], []⟩ (.ref base.length) (.ref aA) = keysK j (top base E []) base.length aA m.keys := by
    simp only [substK, top]
    rw [← hks]
    simp [List.getD_eq_getElem?_getD]
  obtain ⟨h1, h2⟩ := stage_loop sc m.keys (fun k hk => (mem_keys m k).mp hk) (nodup_keys m h.wf) (top base E [])
    ⟨[], Or.inl ⟨(mem_keys m n).mpr (by rw [h.binder]; rfl), (mem_keys m x).mpr (by rw [hD]; rfl), rfl, rfl⟩⟩ j (by omega)
  have hload : jsonEqualK (j + 1) (.obj m) (.obj a) =
      match keysK j (top base E []) base.length aA m.keys with
      | .fuel => none
      | .panic => some .panicked
      | .fatal => some .failed
      | .ok s =>
        match readV (j + 1) s.heap (.ref base.length), readV (j + 1) s.heap (.ref aA) with
        | some d, some d' => some (if deepEqual d d' then .accepted else .failed)
        | _, _ => none := by
    have hy : load (.obj m) hp = (.ref base.length, base ++ [E]) := by
      simp only [load, hbase, hEE]
    rw [← hstart]
    simp only [jsonEqualK, hhA, hA1, hy]
  rw [hload]
  rcases h1 with h1 | ⟨vars, h1⟩
  · rw [h1]
    refine ⟨.panicked, rfl, ?_⟩
    constructor
    · intro hr; cases hr
    · intro hr
      obtain ⟨t, ht⟩ := h2 (hfits hr)
      rw [h1] at ht
      cases ht
  · rw [h1]
    simp only [top, hR1 (j + 1) (by omega), hR2 (j + 1) (by omega)]
    refine ⟨_, rfl, ?_⟩
    rw [← hsame, ← deep_iff (.obj mB) (.obj a) hwB ha]
    by_cases hd : deepEqual (.obj mB) (.obj a) = true
    · simp [hd]
    · simp [hd]

/-! ### Disagreements and a concrete case -/

/-- An object. -/
def objOf : List (Bytes × Doc) → Members
  | [] => .nil
  | (k, d) :: l => .cons k d (objOf l)

/-- C124 fails: a name that is a key of the template too takes that key's place, so a document without one of the members is accepted. -/
theorem collision_accepted :
    jsonEqualK 30 (.obj (objOf [(asc "n", .str (asc "{k}")), (asc "{k}", .num 1), (asc "foo", .num 2)]))
      (.obj (objOf [(asc "n", .str (asc "foo")), (asc "foo", .num 1)])) = some .accepted := by decide +kernel

/-- C124 fails: a missing key panics, as does a placeholder bound to what is not a string. -/
theorem missing_key_panics :
    jsonEqualK 30 (.obj (objOf [(asc "n", .str (asc "{k}")), (asc "{k}", .num 1)])) (.obj (objOf [(asc "n", .str (asc "foo"))])) =
      some .panicked ∧
    jsonEqualK 30 (.obj (objOf [(asc "n", .str (asc "{k}")), (asc "{k}", .num 1)])) (.obj (objOf [(asc "n", .num 3), (asc "3", .num 1)])) =
      some .panicked := by decide +kernel

/-- C124 fails: a placeholder as a key cannot have any value. -/
theorem any_below_key_fails :
    jsonEqualK 30 (.obj (objOf [(asc "n", .str (asc "{k}")), (asc "{k}", .str (asc "{ANYTHING}"))]))
      (.obj (objOf [(asc "n", .str (asc "foo")), (asc "foo", .num 1)])) = some .failed ∧
    jsonEqualK 30 (.obj (objOf [(asc "{k}", .str (asc "{ANYTHING}")), (asc "n", .str (asc "{k}"))]))
      (.obj (objOf [(asc "n", .str (asc "foo")), (asc "foo", .num 1)])) = some .failed := by decide +kernel

/-- C124 fails: the result depends on the order in which Go walks the map. -/
theorem order_matters :
    jsonEqualK 30 (.obj (objOf [(asc "n", .str (asc "{k}")), (asc "{k}", .obj (objOf [(asc "{k}", .num 1)]))]))
      (.obj (objOf [(asc "n", .str (asc "foo")), (asc "foo", .obj (objOf [(asc "foo", .num 1)]))])) = some .accepted ∧
    jsonEqualK 30 (.obj (objOf [(asc "{k}", .obj (objOf [(asc "{k}", .num 1)])), (asc "n", .str (asc "{k}"))]))
      (.obj (objOf [(asc "n", .str (asc "foo")), (asc "foo", .obj (objOf [(asc "foo", .num 1)]))])) = some .failed := by decide +kernel

/-- A template that is compared with itself. -/
def looping : Doc := .obj (objOf [(asc "{k}", .obj (objOf [(asc "x", .str (asc "{k}"))]))])

/-- The maps of `looping`, twice. -/
def loopStore : Store :=
  ⟨[[(asc "x", .str (asc "{k}"))], [(asc "{k}", .ref 0)], [(asc "x", .str (asc "{k}"))], [(asc "{k}", .ref 2)]],
    [(asc "{k}", ⟨.null, [⟨asc "{k}", 3, 1⟩]⟩)]⟩

theorem loop_forever : ∀ j, substK j loopStore (.ref 2) (.ref 0) = .fuel := by
  intro j
  induction j using Nat.strongRecOn with
  | ind j ih =>
    match j, ih with
    | 0, _ => rfl
    | 1, _ => rfl
    | 2, _ => rfl
    | 3, _ => rfl
    | 4, _ => rfl
    | 5, _ => rfl
    | j + 6, ih =>
      have h := ih j (by omega)
      have h1 : runSub (j + 1) loopStore ⟨asc "{k}", 3, 1⟩ (.str (asc "{k}")) = .fuel := by
        show (substK j loopStore (.ref 2) (.ref 0)).bind _ = .fuel
        rw [h]; rfl
      have h2 : runSubs (j + 2) loopStore [⟨asc "{k}", 3, 1⟩] (.str (asc "{k}")) = .fuel := by
        show (runSub (j + 1) loopStore ⟨asc "{k}", 3, 1⟩ (.str (asc "{k}"))).bind _ = .fuel
        rw [h1]; rfl
      have h3 : bindVar (j + 3) loopStore (asc "{k}") (.str (asc "{k}")) = .fuel := by
        show (runSubs (j + 2) loopStore [⟨asc "{k}", 3, 1⟩] (.str (asc "{k}"))).bind _ = .fuel
        rw [h2]; rfl
      have h4 : keyK (j + 4) loopStore 2 0 (asc "x") = .fuel := h3
      show (keyK (j + 4) loopStore 2 0 (asc "x")).bind _ = .fuel
      rw [h4]; rfl

/-- C124 fails: the check never ends (the stack overflows) for a document that is the template itself. -/
theorem never_ends : ∀ fuel, jsonEqualK fuel looping looping = none := by
  intro fuel
  match fuel with
  | 0 => rfl
  | 1 => rfl
  | 2 => rfl
  | j + 3 =>
    have h1 : keyK (j + 1) ⟨loopStore.heap, []⟩ 3 1 (asc "{k}") = .fuel := by
      match j with
      | 0 => rfl
      | j + 1 =>
        show substK (j + 1) loopStore (.ref 2) (.ref 0) = .fuel
        exact loop_forever _
    have h2 : substK (j + 3) ⟨loopStore.heap, []⟩ (.ref 3) (.ref 1) = .fuel := by
      show (keyK (j + 1) ⟨loopStore.heap, []⟩ 3 1 (asc "{k}")).bind _ = .fuel
      rw [h1]; rfl
    show (match substK (j + 3) ⟨loopStore.heap, []⟩ (.ref 3) (.ref 1) with
      | .fuel => none
      | .panic => some Outcome.panicked
      | .fatal => some .failed
      | .ok s =>
        match readV (j + 3) s.heap (.ref 3), readV (j + 3) s.heap (.ref 1) with
        | some d, some d' => some (if deepEqual d d' then .accepted else .failed)
        | _, _ => none) = none
    rw [h2]

/-- A template in both orders, and what it matches. -/
def keyTemplate : Members := objOf [(asc "{id}", .obj (objOf [(asc "size", .num 3)])), (asc "last", .str (asc "{id}")), (asc "ok", .bool true)]

theorem keyTemplate_one : OneKey (asc "last") (asc "{id}") keyTemplate where
  wf := by simp [keyTemplate, objOf, Members.WF, Members.get, Doc.WF, asc]
  var := by decide
  notAny := by decide
  binder := rfl
  binderKey := by decide
  member := by decide +kernel
  keys := by
    intro k hk hx
    have := (mem_keys keyTemplate k).mpr hk
    simp only [keyTemplate, objOf, Members.keys, List.mem_cons, List.not_mem_nil, or_false] at this
    rcases this with rfl | rfl | rfl
    · exact absurd rfl hx
    · decide
    · decide
  plain := by
    intro k d hk hd
    have := (mem_keys keyTemplate k).mpr (by rw [hd]; rfl)
    simp only [keyTemplate, objOf, Members.keys, List.mem_cons, List.not_mem_nil, or_false] at this
    rcases this with rfl | rfl | rfl
    · cases hd
      refine ⟨by simp [Doc.Plain, objOf, Members.Plain]; decide, ?_, by simp [IsAny], by simp [IsName]⟩
      simp [Doc.Literal, objOf, Members.Literal, IsAny, IsName]
    · exact absurd rfl hk
    · cases hd
      exact ⟨trivial, trivial, by simp [IsAny], by simp [IsName]⟩

example : jsonEqualK 40 (.obj keyTemplate)
    (.obj (objOf [(asc "last", .str (asc "a7")), (asc "ok", .bool true), (asc "a7", .obj (objOf [(asc "size", .num 3)]))])) = some .accepted := by
  decide +kernel

end Verif.JsonEqual
