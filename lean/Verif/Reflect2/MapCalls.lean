import Verif.Basic

/-!
# C141: maps with the safe and the unsafe configuration of reflect2

Model of `safeMapType` (reflect2/safe_map.go), of what it has from `safeType` (reflect2/safe_type.go), and of `UnsafeMapType`
(reflect2/unsafe_map.go), call by call on the same maps.  Memory is left out: keys and elements are values, maps are reached by handles
held in variables.  Iteration is in C84 and C111.
-/

namespace Verif.Reflect2.MapCalls

variable {K V : Type} [DecidableEq K]

/-! ### The runtime -/

/-- Maps by handle and variables of the map type, which hold a handle or nil (`*(*unsafe.Pointer)(obj)`, reflect2/unsafe_map.go:76). -/
structure St (K V : Type) where
  maps : Nat → List (K × V)
  vars : Nat → Option Nat
  nextMap : Nat
  nextVar : Nat

/-- The element under a key, reflect2/unsafe_link.go:24-26 (`mapaccess`); nothing is in a nil map. -/
def access (s : St K V) (m : Option Nat) (k : K) : Option V :=
  match m with
  | none => none
  | some h => ((s.maps h).find? fun e => e.1 = k).map Prod.snd

/-- The entries after an assignment, reflect2/unsafe_link.go:20-22. -/
def assignList (k : K) (v : V) : List (K × V) → List (K × V)
  | [] => [(k, v)]
  | e :: rest => if e.1 = k then (k, v) :: rest else e :: assignList k v rest

/-- `mapassign`, reflect2/unsafe_link.go:20-22 and `reflect.Value.SetMapIndex`: panics for a nil map. -/
def assign (s : St K V) (m : Option Nat) (k : K) (v : V) : Option (St K V) :=
  match m with
  | none => none
  | some h => some { s with maps := fun h' => if h' = h then assignList k v (s.maps h) else s.maps h' }

/-- `mapdelete`, which `reflect.Value.SetMapIndex` calls for the zero value, reflect2/safe_map.go:30: a nil map is left alone. -/
def delete (s : St K V) (m : Option Nat) (k : K) : St K V :=
  match m with
  | none => s
  | some h => { s with maps := fun h' => if h' = h then (s.maps h).filter (fun e => decide (e.1 ≠ k)) else s.maps h' }

/-- A new map in a new variable, reflect2/unsafe_map.go:60-63, reflect2/safe_map.go:17-19. -/
def make (s : St K V) : St K V × Nat :=
  ({ maps := fun h => if h = s.nextMap then [] else s.maps h
     vars := fun o => if o = s.nextVar then some s.nextMap else s.vars o
     nextMap := s.nextMap + 1
     nextVar := s.nextVar + 1 }, s.nextVar)

/-- A new variable, nil, reflect2/unsafe_type.go:47-49, reflect2/safe_type.go:14. -/
def new (s : St K V) : St K V × Nat :=
  ({ s with vars := fun o => if o = s.nextVar then none else s.vars o, nextVar := s.nextVar + 1 }, s.nextVar)

/-! ### Model -/

/-- An argument of type `interface{}` where a key, an element or a map is meant: nil; a pointer to a value of exactly the type (`none`: the
nil pointer); a pointer to a value of another type that can be assigned to it, as what it then becomes; the value itself or one that can be assigned; anything else. Used for
reflect2/safe_map.go:26, 37, 49.  Simplification: key types are not interfaces, for which a pointer is a key itself. -/
inductive Arg (α : Type) where
  | nil
  | ptr (o : Option α)
  | near (o : Option α)
  | val (a : α)
  | other

/-- `reflect.ValueOf(arg).Elem()`, reflect2/safe_map.go:30, 50, 51 and reflect2/safe_type.go:61, 69: panics (`none`) for what is no pointer; gives the
zero `reflect.Value` (`some none`) for a nil pointer.  What cannot be assigned makes the next call panic, which is taken together here. -/
def elem {α : Type} : Arg α → Option (Option α)
  | .ptr o => some o
  | .near o => some o
  | _ => none

/-- `assertType` of a pointer, reflect2/unsafe_type.go:77-85. -/
def exact {α : Type} : Arg α → Option (Option α)
  | .ptr o => some o
  | _ => none

/-- The calls on a map type, as at reflect2/reflect2.go:9-34, 89-102. -/
inductive Call (K V : Type) where
  /-- `MakeMap`, reflect2/safe_map.go:16-20, reflect2/unsafe_map.go:56-63; the capacity changes nothing that can be seen. -/
  | makeMap (cap : Nat)
  /-- `New`, reflect2/safe_type.go:13-15, reflect2/unsafe_type.go:47-53. -/
  | new
  /-- `SetIndex`, reflect2/safe_map.go:26-31, reflect2/unsafe_map.go:65-77. -/
  | setIndex (obj : Arg Nat) (key : Arg K) (elem : Arg V)
  /-- `GetIndex`, reflect2/safe_map.go:49-60, reflect2/unsafe_map.go:91-102. -/
  | getIndex (obj : Arg Nat) (key : Arg K)
  /-- `TryGetIndex`, reflect2/safe_map.go:37-47, reflect2/unsafe_map.go:79-89. -/
  | tryGetIndex (obj : Arg Nat) (key : Arg K)
  /-- `IsNil`, reflect2/safe_type.go:57-62, reflect2/unsafe_map.go:22-36. -/
  | isNil (obj : Arg Nat)
  /-- `Set`, reflect2/safe_type.go:68-70, reflect2/unsafe_type.go:25-35. -/
  | set (obj val : Arg Nat)

/-- What a call returns: nothing, a pointer to a variable, a pointer to an element or nil, the element or none with false, a truth value (reflect2/reflect2.go:9-34, 89-102). -/
inductive Res (V : Type) where
  | unit
  | obj (o : Nat)
  | got (v : Option V)
  | tried (v : Option V)
  | bool (b : Bool)

/-- A call with the unsafe configuration, reflect2/unsafe_map.go:22-102 and reflect2/unsafe_type.go:25-53; `none` where it panics.  Reading or writing
through a nil pointer panics; a nil key is not read if the map is empty (`mapaccess` returns first). -/
def callUnsafe (s : St K V) : Call K V → Option (St K V × Res V)
  | .makeMap _ => some ((make s).1, .obj (make s).2)
  | .new => some ((new s).1, .obj (new s).2)
  | .setIndex obj key e =>
    match exact obj, exact key, exact e with
    | some (some o), some (some k), some (some v) => (assign s (s.vars o) k v).map fun s => (s, .unit)
    | _, _, _ => none
  | .getIndex obj key =>
    match exact obj, exact key with
    | some (some o), some (some k) => some (s, .got (access s (s.vars o) k))
    | some (some o), some none =>
      match s.vars o with
      | none => some (s, .got none)
      | some h => if s.maps h = [] then some (s, .got none) else none
    | _, _ => none
  | .tryGetIndex obj key =>
    match exact obj, exact key with
    | some (some o), some (some k) => some (s, .tried (access s (s.vars o) k))
    | some (some o), some none =>
      match s.vars o with
      | none => some (s, .tried none)
      | some h => if s.maps h = [] then some (s, .tried none) else none
    | _, _ => none
  | .isNil obj =>
    match obj with
    | .nil => some (s, .bool true)
    | .ptr none => some (s, .bool true)
    | .ptr (some o) => some (s, .bool (s.vars o).isNone)
    | _ => none
  | .set obj val =>
    match exact obj, exact val with
    | some (some o), some (some x) => some ({ s with vars := fun o' => if o' = o then s.vars x else s.vars o' }, .unit)
    | _, _ => none

/-- A call with the safe configuration, reflect2/safe_map.go:16-60 and reflect2/safe_type.go:13-70; `none` where it panics.  A map given itself (`.val`) is
told by a variable that holds it. `zero` is the zero key, reflect2/safe_map.go:39-41. -/
def callSafe (zero : K) (s : St K V) : Call K V → Option (St K V × Res V)
  | .makeMap _ => some ((make s).1, .obj (make s).2)
  | .new => some ((new s).1, .obj (new s).2)
  | .setIndex obj key e =>
    match elem obj, elem key, elem e with
    | some (some o), some (some k), some (some v) => (assign s (s.vars o) k v).map fun s => (s, .unit)
    | some (some o), some (some k), some none => some (delete s (s.vars o) k, .unit)
    | _, _, _ => none
  | .getIndex obj key =>
    match elem obj, elem key with
    | some (some o), some (some k) => some (s, .got (access s (s.vars o) k))
    | _, _ => none
  | .tryGetIndex obj key =>
    match obj, key with
    | .val o, .nil => some (s, .tried (access s (s.vars o) zero))
    | .val o, .val k => some (s, .tried (access s (s.vars o) k))
    | _, _ => none
  | .isNil obj =>
    match obj with
    | .nil => some (s, .bool true)
    | .ptr (some o) => some (s, .bool (s.vars o).isNone)
    | .near (some o) => some (s, .bool (s.vars o).isNone)
    | _ => none
  | .set obj val =>
    match elem obj, elem val with
    | some (some o), some (some x) => some ({ s with vars := fun o' => if o' = o then s.vars x else s.vars o' }, .unit)
    | _, _ => none

/-- Calls one after the other, of the methods at reflect2/reflect2.go:89-102. -/
def run (call : St K V → Call K V → Option (St K V × Res V)) : St K V → List (Call K V) → Option (St K V × List (Res V))
  | s, [] => some (s, [])
  | s, c :: rest =>
    match call s c with
    | none => none
    | some (s, r) => (run call s rest).map fun (s, rs) => (s, r :: rs)

/-! ### Specification -/

/-- Arguments as the documentation shows them: pointers to values of the very type. -/
def Arg.Plain {α : Type} : Arg α → Prop
  | .ptr (some _) => True
  | _ => False

/-- Calls with such arguments (`IsNil` may be asked about nil), other than `TryGetIndex`. -/
def Plain : Call K V → Prop
  | .makeMap _ | .new => True
  | .setIndex o k e => o.Plain ∧ k.Plain ∧ e.Plain
  | .getIndex o k => o.Plain ∧ k.Plain
  | .tryGetIndex _ _ => False
  | .isNil .nil => True
  | .isNil o => o.Plain
  | .set o v => o.Plain ∧ v.Plain

/-- A map of the language: the elements by key. -/
abbrev Content (K V : Type) := K → Option V

/-- What a variable of the language holds: nil, or a map shared by its handle; maps of the language by handle. -/
structure World (K V : Type) where
  content : Nat → Content K V
  var : Nat → Option Nat
  maps : Nat
  vars : Nat

/-- What a call with the arguments it is meant for does to variables of the language: `*o = make(M)`, `new(M)`, `(*o)[k] = v`, `(*o)[k]`, `*o == nil`, `*o = *x`. -/
inductive Does : World K V → Call K V → World K V → Res V → Prop
  | makeMap (w w' : World K V) (cap : Nat) (h : w'.maps = w.maps + 1 ∧ w'.vars = w.vars + 1)
      (hv : w'.var w.vars = some w.maps ∧ ∀ o, o ≠ w.vars → w'.var o = w.var o)
      (hc : (∀ k, w'.content w.maps k = none) ∧ ∀ m, m ≠ w.maps → w'.content m = w.content m) : Does w (.makeMap cap) w' (.obj w.vars)
  | new (w w' : World K V) (h : w'.maps = w.maps ∧ w'.vars = w.vars + 1)
      (hv : w'.var w.vars = none ∧ ∀ o, o ≠ w.vars → w'.var o = w.var o) (hc : w'.content = w.content) : Does w .new w' (.obj w.vars)
  | setIndex (w w' : World K V) (o m : Nat) (k : K) (v : V) (hm : w.var o = some m) (h : w'.maps = w.maps ∧ w'.vars = w.vars ∧ w'.var = w.var)
      (hk : w'.content m k = some v) (hc : ∀ m' k', (m', k') ≠ (m, k) → w'.content m' k' = w.content m' k') :
      Does w (.setIndex (.ptr (some o)) (.ptr (some k)) (.ptr (some v))) w' .unit
  | getNil (w : World K V) (o : Nat) (k : K) (hm : w.var o = none) : Does w (.getIndex (.ptr (some o)) (.ptr (some k))) w (.got none)
  | getIndex (w : World K V) (o m : Nat) (k : K) (hm : w.var o = some m) :
      Does w (.getIndex (.ptr (some o)) (.ptr (some k))) w (.got (w.content m k))
  | nilNil (w : World K V) : Does w (.isNil .nil) w (.bool true)
  | isNil (w : World K V) (o : Nat) (b : Bool) (hb : b = true ↔ w.var o = none) : Does w (.isNil (.ptr (some o))) w (.bool b)
  | set (w w' : World K V) (o x : Nat) (h : w'.maps = w.maps ∧ w'.vars = w.vars ∧ w'.content = w.content)
      (hv : w'.var o = w.var x ∧ ∀ o', o' ≠ o → w'.var o' = w.var o') : Does w (.set (.ptr (some o)) (.ptr (some x))) w' .unit

/-- Calls of the language one after the other. -/
def DoesAll : World K V → List (Call K V) → World K V → List (Res V) → Prop
  | w, [], w', rs => w' = w ∧ rs = []
  | w, c :: rest, w', rs => ∃ u r rs', Does w c u r ∧ DoesAll u rest w' rs' ∧ rs = r :: rs'

/-- What the language sees of a state of the runtime. -/
def seen (s : St K V) : World K V := ⟨fun h k => access s (some h) k, s.vars, s.nextMap, s.nextVar⟩

/-! ### Proofs -/

theorem find_assignList (k : K) (v : V) : ∀ (l : List (K × V)) (k' : K),
    ((assignList k v l).find? fun e => e.1 = k').map Prod.snd = if k' = k then some v else (l.find? fun e => e.1 = k').map Prod.snd
  | [], k' => by
    by_cases h : k' = k
    · subst h; simp [assignList]
    · simp [assignList, h, Ne.symm h]
  | e :: rest, k' => by
    by_cases he : e.1 = k
    · rw [assignList, if_pos he]
      by_cases h : k' = k
      · subst h; simp
      · rw [if_neg h, List.find?_cons, List.find?_cons]
        have : e.1 ≠ k' := fun h' => h (h' ▸ he)
        simp [Ne.symm h, this]
    · rw [assignList, if_neg he, List.find?_cons, List.find?_cons]
      by_cases h' : e.1 = k'
      · subst h'
        simp [he]
      · simp only [h', decide_false]
        exact find_assignList k v rest k'

/-- With plain arguments the two configurations do the same, in one call. -/
theorem call_same (zero : K) (s : St K V) (c : Call K V) (h : Plain c) : callSafe zero s c = callUnsafe s c := by
  cases c with
  | makeMap cap => rfl
  | new => rfl
  | setIndex o k e =>
    obtain ⟨ho, hk, he⟩ := h
    cases o with
    | ptr o =>
      cases o with
      | none => cases ho
      | some o =>
        cases k with
        | ptr k =>
          cases k with
          | none => cases hk
          | some k =>
            cases e with
            | ptr e =>
              cases e with
              | none => cases he
              | some v => rfl
            | _ => cases he
        | _ => cases hk
    | _ => cases ho
  | getIndex o k =>
    obtain ⟨ho, hk⟩ := h
    cases o with
    | ptr o =>
      cases o with
      | none => cases ho
      | some o =>
        cases k with
        | ptr k =>
          cases k with
          | none => cases hk
          | some k => rfl
        | _ => cases hk
    | _ => cases ho
  | tryGetIndex o k => cases h
  | isNil o =>
    cases o with
    | nil => rfl
    | ptr o =>
      cases o with
      | none => cases h
      | some o => rfl
    | _ => cases h
  | set o v =>
    obtain ⟨ho, hv⟩ := h
    cases o with
    | ptr o =>
      cases o with
      | none => cases ho
      | some o =>
        cases v with
        | ptr v =>
          cases v with
          | none => cases hv
          | some v => rfl
        | _ => cases hv
    | _ => cases ho

/-- C141 (partly): calls other than `TryGetIndex`, with pointers to values of the very types, have the same results and leave the same maps and variables
with both configurations, and panic with both or with none.  Missing: `TryGetIndex` (`tryGetIndex_never`), nil pointers (`nil_element_deletes`, `nil_pointer_differs`)
and pointers to other types (`near_accepted`). -/
theorem same_calls_partial (zero : K) : ∀ (calls : List (Call K V)) (s : St K V), (∀ c ∈ calls, Plain c) →
    run (callSafe zero) s calls = run callUnsafe s calls
  | [], _, _ => rfl
  | c :: rest, s, h => by
    rw [run, run, call_same zero s c (h c List.mem_cons_self)]
    cases callUnsafe s c with
    | none => rfl
    | some x => exact congrArg (Option.map _) (same_calls_partial zero rest x.1 fun c hc => h c (List.mem_cons_of_mem _ hc))

theorem call_does (s s' : St K V) (c : Call K V) (r : Res V) (h : Plain c) (hc : callUnsafe s c = some (s', r)) :
    Does (seen s) c (seen s') r := by
  cases c with
  | makeMap cap =>
    injection hc with hc
    injection hc with h1 h2
    subst h1 h2
    refine .makeMap _ _ cap ⟨rfl, rfl⟩ ⟨by simp [seen, make], fun o ho => ?_⟩ ⟨fun k => by simp [seen, make, access], fun m hm => ?_⟩
    · show (if o = s.nextVar then some s.nextMap else s.vars o) = s.vars o
      exact if_neg ho
    · funext k
      have hm' : m ≠ s.nextMap := hm
      simp [seen, make, access, hm']
  | new =>
    injection hc with hc
    injection hc with h1 h2
    subst h1 h2
    refine .new _ _ ⟨rfl, rfl⟩ ⟨by simp [seen, new], fun o ho => ?_⟩ rfl
    show (if o = s.nextVar then none else s.vars o) = s.vars o
    exact if_neg ho
  | setIndex o k e =>
    obtain ⟨ho, hk, he⟩ := h
    cases o with
    | ptr o =>
      cases o with
      | none => cases ho
      | some o =>
        cases k with
        | ptr k =>
          cases k with
          | none => cases hk
          | some k =>
            cases e with
            | ptr e =>
              cases e with
              | none => cases he
              | some v =>
                simp only [callUnsafe, exact] at hc
                cases hm : s.vars o with
                | none => rw [hm] at hc; cases hc
                | some m =>
                  rw [hm] at hc
                  injection hc with hc
                  injection hc with h1 h2
                  subst h1 h2
                  have key : ∀ m' k', access { s with maps := fun h' => if h' = m then assignList k v (s.maps m) else s.maps h' } (some m') k' =
                      if m' = m ∧ k' = k then some v else access s (some m') k' := by
                    intro m' k'
                    by_cases hm' : m' = m
                    · subst hm'
                      simp only [access, if_true, find_assignList, true_and]
                    · simp [access, hm']
                  refine .setIndex _ _ o m k v hm ⟨rfl, rfl, rfl⟩ ?_ fun m' k' hn => ?_
                  · exact (key m k).trans (if_pos ⟨rfl, rfl⟩)
                  · exact (key m' k').trans (if_neg fun ⟨a, b⟩ => hn (by rw [a, b]))
            | _ => cases he
        | _ => cases hk
    | _ => cases ho
  | getIndex o k =>
    obtain ⟨ho, hk⟩ := h
    cases o with
    | ptr o =>
      cases o with
      | none => cases ho
      | some o =>
        cases k with
        | ptr k =>
          cases k with
          | none => cases hk
          | some k =>
            simp only [callUnsafe, exact] at hc
            injection hc with hc
            injection hc with h1 h2
            subst h1 h2
            cases hm : s.vars o with
            | none => exact .getNil _ o k hm
            | some m => exact .getIndex _ o m k hm
        | _ => cases hk
    | _ => cases ho
  | tryGetIndex o k => cases h
  | isNil o =>
    cases o with
    | nil =>
      injection hc with hc
      injection hc with h1 h2
      subst h1 h2
      exact .nilNil _
    | ptr o =>
      cases o with
      | none => cases h
      | some o =>
        simp only [callUnsafe] at hc
        injection hc with hc
        injection hc with h1 h2
        subst h1 h2
        exact .isNil _ o _ (by rw [Option.isNone_iff_eq_none]; exact Iff.rfl)
    | _ => cases h
  | set o v =>
    obtain ⟨ho, hv⟩ := h
    cases o with
    | ptr o =>
      cases o with
      | none => cases ho
      | some o =>
        cases v with
        | ptr v =>
          cases v with
          | none => cases hv
          | some x =>
            simp only [callUnsafe, exact] at hc
            injection hc with hc
            injection hc with h1 h2
            subst h1 h2
            refine .set _ _ o x ⟨rfl, rfl, ?_⟩ ⟨if_pos rfl, fun o' ho' => if_neg ho'⟩
            funext m k
            rfl
        | _ => cases hv
    | _ => cases ho

/-- C141 (partly): what the calls do is what the language does with these variables and maps, with both configurations, for any sequence of them. -/
theorem calls_do_partial (zero : K) : ∀ (calls : List (Call K V)) (s s' : St K V) (rs : List (Res V)), (∀ c ∈ calls, Plain c) →
    run (callSafe zero) s calls = some (s', rs) → DoesAll (seen s) calls (seen s') rs
  | [], s, s', rs, _, h => by
    injection h with h
    injection h with h1 h2
    exact ⟨by rw [h1], h2.symm⟩
  | c :: rest, s, s', rs, hp, h => by
    rw [run] at h
    cases hc : callSafe zero s c with
    | none => rw [hc] at h; cases h
    | some x =>
      rw [hc] at h
      obtain ⟨y, hy, he⟩ := Option.map_eq_some_iff.mp h
      have hpc := hp c List.mem_cons_self
      injection he with h1 h2
      refine ⟨seen x.1, x.2, y.2, call_does s x.1 c x.2 hpc (by rw [← call_same zero s c hpc, hc]), ?_, h2.symm⟩
      exact calls_do_partial zero rest x.1 s' y.2 (fun c hc => hp c (List.mem_cons_of_mem _ hc)) (by rw [hy, ← h1])

/-- A call of this kind panics only for an assignment to a nil map. -/
theorem panics_iff (zero : K) (s : St K V) (c : Call K V) (h : Plain c) :
    callSafe zero s c = none ↔ ∃ o k v, c = .setIndex (.ptr (some o)) (.ptr (some k)) (.ptr (some v)) ∧ s.vars o = none := by
  constructor
  · intro hc
    cases c with
    | makeMap cap => cases hc
    | new => cases hc
    | setIndex o k e =>
      obtain ⟨ho, hk, he⟩ := h
      cases o with
      | ptr o =>
        cases o with
        | none => cases ho
        | some o =>
          cases k with
          | ptr k =>
            cases k with
            | none => cases hk
            | some k =>
              cases e with
              | ptr e =>
                cases e with
                | none => cases he
                | some v =>
                  refine ⟨o, k, v, rfl, ?_⟩
                  simp only [callSafe, elem] at hc
                  cases hm : s.vars o with
                  | none => rfl
                  | some m => rw [hm] at hc; cases hc
              | _ => cases he
          | _ => cases hk
      | _ => cases ho
    | getIndex o k =>
      rw [call_same zero s _ h] at hc
      obtain ⟨ho, hk⟩ := h
      cases o with
      | ptr o =>
        cases o with
        | none => cases ho
        | some o =>
          cases k with
          | ptr k =>
            cases k with
            | none => cases hk
            | some k => cases hc
          | _ => cases hk
      | _ => cases ho
    | tryGetIndex o k => cases h
    | isNil o =>
      cases o with
      | nil => cases hc
      | ptr o =>
        cases o with
        | none => cases h
        | some o => cases hc
      | _ => cases h
    | set o v =>
      obtain ⟨ho, hv⟩ := h
      cases o with
      | ptr o =>
        cases o with
        | none => cases ho
        | some o =>
          cases v with
          | ptr v =>
            cases v with
            | none => cases hv
            | some v => cases hc
          | _ => cases hv
      | _ => cases ho
  · rintro ⟨o, k, v, rfl, hv⟩
    simp only [callSafe, elem, hv, assign, Option.map_none]

/-! ### What is not so -/

/-- The full statement of C141 is false: whatever the arguments and the maps, `TryGetIndex` panics with one of the two configurations; one wants pointers, the other
the map and the key themselves. -/
theorem tryGetIndex_never (zero : K) (s : St K V) (obj : Arg Nat) (key : Arg K) :
    callSafe zero s (.tryGetIndex obj key) = none ∨ callUnsafe s (.tryGetIndex obj key) = none := by
  cases obj with
  | val o => exact .inr rfl
  | _ => exact .inl rfl

/-- Each of the two finds what was set if it gets what it wants: the safe one for the map and the key themselves, the unsafe one for pointers to them. -/
theorem tryGetIndex_finds (zero : K) (s : St K V) (o m : Nat) (k : K) (v : V) (hm : s.vars o = some m) :
    (∃ s', run (callSafe zero) s [.setIndex (.ptr (some o)) (.ptr (some k)) (.ptr (some v)), .tryGetIndex (.val o) (.val k)] =
      some (s', [.unit, .tried (some v)])) ∧
    (∃ s', run callUnsafe s [.setIndex (.ptr (some o)) (.ptr (some k)) (.ptr (some v)), .tryGetIndex (.ptr (some o)) (.ptr (some k))] =
      some (s', [.unit, .tried (some v)])) := by
  constructor <;> refine ⟨{ s with maps := fun h' => if h' = m then assignList k v (s.maps m) else s.maps h' }, ?_⟩ <;>
    simp [run, callSafe, callUnsafe, elem, exact, assign, access, hm, find_assignList]

/-- The full statement of C141 is false: a nil pointer for the element deletes the entry with the safe configuration and panics with the unsafe one. -/
theorem nil_element_deletes (zero : K) (s : St K V) (o m : Nat) (k : K) (hm : s.vars o = some m) :
    (∃ s', callSafe zero s (.setIndex (.ptr (some o)) (.ptr (some k)) (.ptr none)) = some (s', .unit) ∧ access s' (some m) k = none ∧
      ∀ k', k' ≠ k → access s' (some m) k' = access s (some m) k') ∧
    callUnsafe s (.setIndex (.ptr (some o)) (.ptr (some k)) (.ptr none)) = none := by
  refine ⟨⟨_, rfl, ?_, ?_⟩, rfl⟩
  · simp only [hm, delete, access, if_true]
    rw [Option.map_eq_none_iff, List.find?_eq_none]
    intro e he
    simpa using (List.mem_filter.mp he).2
  · intro k' hk'
    simp only [hm, delete, access, if_true]
    congr 1
    rw [List.find?_filter]
    congr 1
    funext e
    by_cases h : e.1 = k'
    · simp [h, hk']
    · simp [h]

/-- The full statement of C141 is false: a nil pointer to a map is nil for the unsafe configuration and a panic for the safe one; a nil pointer for the key
finds nothing in an empty map with the unsafe one and panics with the safe one. -/
theorem nil_pointer_differs (zero : K) (s : St K V) (o : Nat) (ho : s.vars o = none) :
    callUnsafe s (.isNil (.ptr none)) = some (s, .bool true) ∧ callSafe zero s (.isNil (.ptr none)) = none ∧
    callUnsafe s (.getIndex (.ptr (some o)) (.ptr none)) = some (s, .got none) ∧ callSafe zero s (.getIndex (.ptr (some o)) (.ptr none)) = none := by
  refine ⟨rfl, rfl, ?_, rfl⟩
  simp only [callUnsafe, exact, ho]

/-- A nil pointer for the key, exactly: the unsafe configuration finds nothing in a map without entries (or nil) and panics for every other; the safe one always
panics. -/
theorem nil_key (zero : K) (s : St K V) (o : Nat) :
    ((∀ k, access s (s.vars o) k = none) →
      callUnsafe s (.getIndex (.ptr (some o)) (.ptr none)) = some (s, .got none) ∧
      callUnsafe s (.tryGetIndex (.ptr (some o)) (.ptr none)) = some (s, .tried none)) ∧
    ((∃ k, access s (s.vars o) k ≠ none) →
      callUnsafe s (.getIndex (.ptr (some o)) (.ptr none)) = none ∧
      callUnsafe s (.tryGetIndex (.ptr (some o)) (.ptr none)) = none) ∧
    callSafe zero s (.getIndex (.ptr (some o)) (.ptr none)) = none ∧
    callSafe zero s (.tryGetIndex (.ptr (some o)) (.ptr none)) = none := by
  simp only [callUnsafe, exact]
  cases hv : s.vars o with
  | none => exact ⟨fun _ => ⟨rfl, rfl⟩, fun h => absurd rfl h.choose_spec, rfl, rfl⟩
  | some m =>
    refine ⟨fun h => ?_, fun ⟨k, hk⟩ => ?_, rfl, rfl⟩
    · have he : s.maps m = [] := by
        cases hl : s.maps m with
        | nil => rfl
        | cons e l =>
          have := h e.1
          simp [access, hl] at this
      simp only [if_pos he]
      exact ⟨trivial, trivial⟩
    · have he : s.maps m ≠ [] := fun he => hk (by simp [access, he])
      simp only [if_neg he]
      exact ⟨trivial, trivial⟩

/-- The full statement of C141 is false: a pointer to a value of another type that can be assigned is taken by the safe configuration as if of the type, and refused by the other. -/
theorem near_accepted (zero : K) (s : St K V) (o : Nat) (k : K) (e : Arg V) :
    callSafe zero s (.setIndex (.ptr (some o)) (.near (some k)) e) = callSafe zero s (.setIndex (.ptr (some o)) (.ptr (some k)) e) ∧
    callUnsafe s (.setIndex (.ptr (some o)) (.near (some k)) e) = none ∧
    callSafe zero s (.getIndex (.ptr (some o)) (.near (some k))) = some (s, .got (access s (s.vars o) k)) ∧
    callUnsafe s (.getIndex (.ptr (some o)) (.near (some k))) = none := ⟨rfl, rfl, rfl, rfl⟩

/-! ### Cases -/

/-- No maps and no variables: the state before any of reflect2/safe_map.go:16-60 is called. -/
def empty : St String Nat := ⟨fun _ => [], fun _ => none, 1, 1⟩

/-- Two variables come to share a map: what is set through one is got through the other, with both configurations. -/
example : ∃ s, run (callSafe "") empty [.makeMap 3, .new, .isNil (.ptr (some 2)), .set (.ptr (some 2)) (.ptr (some 1)),
      .setIndex (.ptr (some 2)) (.ptr (some "a")) (.ptr (some 7)), .getIndex (.ptr (some 1)) (.ptr (some "a")),
      .getIndex (.ptr (some 1)) (.ptr (some "b"))] =
    some (s, [.obj 1, .obj 2, .bool true, .unit, .unit, .got (some 7), .got none]) := ⟨_, rfl⟩

/-- The same calls are plain, so both theorems apply. -/
example : ∀ c ∈ ([.makeMap 3, .new, .isNil (.ptr (some 2)), .set (.ptr (some 2)) (.ptr (some 1)),
      .setIndex (.ptr (some 2)) (.ptr (some "a")) (.ptr (some 7)), .getIndex (.ptr (some 1)) (.ptr (some "a"))] : List (Call String Nat)), Plain c := by
  intro c hc
  simp only [List.mem_cons, List.not_mem_nil, or_false] at hc
  rcases hc with rfl | rfl | rfl | rfl | rfl | rfl <;> simp [Plain, Arg.Plain]

/-- An assignment to a nil map panics with both. -/
example : run (callSafe "") empty [.new, .setIndex (.ptr (some 1)) (.ptr (some "a")) (.ptr (some 7))] = none ∧
    run callUnsafe empty [.new, .setIndex (.ptr (some 1)) (.ptr (some "a")) (.ptr (some 7))] = none := ⟨rfl, rfl⟩

/-- A map that `tryGetIndex_finds` is about. -/
example : (⟨fun _ => [("a", 1)], fun o => if o = 1 then some 1 else none, 2, 2⟩ : St String Nat).vars 1 = some 1 := rfl

end Verif.Reflect2.MapCalls
