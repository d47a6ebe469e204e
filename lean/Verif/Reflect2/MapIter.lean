import Verif.Basic

/-!
# C142: iterating over a map that changes, with the unsafe configuration of reflect2

Model of `UnsafeMapIterator` in reflect2/unsafe_map.go, with as much of the map of the runtime (Go 1.9) as shows: entries are in slots of memory, a slot
is cleared when its entry is deleted, and entries move to other slots when the map grows.  Keys equal themselves (NaN is left out).
-/

namespace Verif.Reflect2.MapIter

variable {K V : Type} [DecidableEq K]

/-! ### The runtime -/

/-- A map: the contents of slots, the slot of each entry, and the first slot not in use. What `mapiterinit` and `mapiternext`, reflect2/unsafe_link.go:28-36, go through. -/
structure St (K V : Type) where
  slots : Nat → K × V
  live : List (K × Nat)
  next : Nat

/-- The slot of an entry (`mapaccess`, reflect2/unsafe_link.go:24-26). -/
def slotOf (s : St K V) (k : K) : Option Nat := (s.live.find? fun e => e.1 = k).map Prod.snd

/-- What may happen to a map between the calls on an iterator (reflect2/unsafe_map.go:125-137): an assignment, a deletion, and the runtime moving an entry while the map
grows. -/
inductive Change (K V : Type) where
  | assign (k : K) (v : V)
  | delete (k : K)
  | move (k : K)

/-- Writes a slot (`typedmemmove` in `mapassign`, reflect2/unsafe_link.go:20-22). -/
def write (f : Nat → K × V) (a : Nat) (x : K × V) : Nat → K × V := fun b => if b = a then x else f b

/-- A change.  `clear` is what is left in the slot of a deleted entry: the zero values or, in newer versions, what had no pointers in it.  The old
slot of an entry moved stays as it is while there are iterators. (`mapassign`, reflect2/unsafe_link.go:20-22, and `delete` of the language.) -/
def change (clear : K × V → K × V) (s : St K V) : Change K V → St K V
  | .assign k v =>
    match slotOf s k with
    | some a => { s with slots := write s.slots a (k, v) }
    | none => ⟨write s.slots s.next (k, v), (k, s.next) :: s.live, s.next + 1⟩
  | .delete k =>
    match slotOf s k with
    | some a => { s with slots := write s.slots a (clear (s.slots a)), live := s.live.filter fun e => decide (e.1 ≠ k) }
    | none => s
  | .move k =>
    match slotOf s k with
    | some a => ⟨write s.slots s.next (s.slots a), (k, s.next) :: s.live.filter (fun e => decide (e.1 ≠ k)), s.next + 1⟩
    | none => s

/-- Changes one after the other, between two calls (reflect2/unsafe_map.go:125-137). -/
def changes (clear : K × V → K × V) (s : St K V) (cs : List (Change K V)) : St K V := cs.foldl (change clear) s

/-- `hiter`, reflect2/unsafe_link.go:44-48: the slot it stands at (`key` and `value` in one), and the keys the runtime will come to. -/
structure Iter (K : Type) where
  cur : Option Nat
  rest : List K

/-- `mapiternext`, reflect2/unsafe_link.go:34-36: on to the next key that is in the map. -/
def advance (s : St K V) : List K → Iter K
  | [] => ⟨none, []⟩
  | k :: rest =>
    match slotOf s k with
    | some a => ⟨some a, rest⟩
    | none => advance s rest

/-! ### Model -/

/-- `UnsafeIterate`, reflect2/unsafe_map.go:110-116: `mapiterinit` goes to the first entry at once.  `order` is the order the runtime takes. -/
def iterate (s : St K V) (order : List K) : Iter K := advance s order

/-- `HasNext`, reflect2/unsafe_map.go:124-126. -/
def hasNext (it : Iter K) : Bool := it.cur.isSome

/-- `Next` and `UnsafeNext`, reflect2/unsafe_map.go:128-138: the slot the iterator stood at. -/
def next (s : St K V) (it : Iter K) : Option Nat × Iter K := (it.cur, advance s it.rest)

/-- The loop `for iter.HasNext() { iter.Next() }`, as at reflect2/test/map_elem_eface_test.go:44-47, with changes before each call of `Next`.  What each call of `Next` pointed to, read at
once, with the map at that moment; and the iterator at the end. -/
def loop (clear : K × V → K × V) (s : St K V) (it : Iter K) : List (List (Change K V)) → List (St K V × (K × V)) × Iter K
  | [] => ([], it)
  | cs :: more =>
    if hasNext it then
      match next (changes clear s cs) it with
      | (some a, it') =>
        let r := loop clear (changes clear s cs) it' more
        ((changes clear s cs, (changes clear s cs).slots a) :: r.1, r.2)
      | (none, it') => ([], it')
    else ([], it)

/-! ### Specification -/

/-- What the language sees. -/
def content (s : St K V) (k : K) : Option V := (slotOf s k).map fun a => (s.slots a).2

/-- A map as the runtime keeps it: one entry per key, one slot per entry, and the slot holds the key. -/
structure Ok (s : St K V) : Prop where
  holds : ∀ k a, slotOf s k = some a → (s.slots a).1 = k ∧ a < s.next

/-- Changes that `range` would allow for, less two: no entry is deleted before it was returned, and none that moves is assigned to before the next call. -/
def Fine (returned : List K) (cs : List (Change K V)) : Prop :=
  (∀ k, .delete k ∈ cs → k ∈ returned) ∧ cs.Pairwise fun a b => ∀ k v, a = .move k → b ≠ .assign k v

/-- All changes during the loop are fine, given the keys returned before each. -/
def AllFine (keys : List K) : List (List (Change K V)) → Nat → Prop
  | [], _ => True
  | cs :: more, n => Fine (keys.take n) cs ∧ AllFine keys more (n + 1)

/-! ### Proofs -/

theorem find_filter_ne (l : List (K × Nat)) (k k' : K) (h : k' ≠ k) :
    (l.filter fun e => decide (e.1 ≠ k)).find? (fun e => decide (e.1 = k')) = l.find? fun e => decide (e.1 = k') := by
  rw [List.find?_filter]
  congr 1
  funext e
  by_cases he : e.1 = k'
  · simp [he, h]
  · simp [he]

theorem find_filter_eq (l : List (K × Nat)) (k : K) : (l.filter fun e => decide (e.1 ≠ k)).find? (fun e => decide (e.1 = k)) = none := by
  rw [List.find?_eq_none]
  intro e he
  simpa using (List.mem_filter.mp he).2

/-- Slots of entries after a change. -/
theorem slotOf_change (clear : K × V → K × V) (s : St K V) (c : Change K V) (k' : K) :
    slotOf (change clear s c) k' =
      match c with
      | .assign k _ => if slotOf s k = none ∧ k' = k then some s.next else slotOf s k'
      | .delete k => if k' = k then none else slotOf s k'
      | .move k => if (slotOf s k).isSome ∧ k' = k then some s.next else slotOf s k' := by
  cases c with
  | assign k v =>
    show slotOf (change clear s (.assign k v)) k' = if slotOf s k = none ∧ k' = k then some s.next else slotOf s k'
    cases h : slotOf s k with
    | some a =>
      rw [if_neg fun hh => by cases hh.1]
      simp only [change, h]
      rfl
    | none =>
      simp only [change, h, true_and]
      show Option.map _ (List.find? _ (_ :: _)) = _
      rw [List.find?_cons]
      by_cases hk : k' = k
      · simp [hk]
      · simp only [Ne.symm hk, decide_false, if_neg hk]
        rfl
  | delete k =>
    show slotOf (change clear s (.delete k)) k' = if k' = k then none else slotOf s k'
    cases h : slotOf s k with
    | some a =>
      simp only [change, h]
      show Option.map _ (List.find? _ (List.filter _ _)) = _
      by_cases hk : k' = k
      · subst hk
        rw [find_filter_eq, if_pos rfl]; rfl
      · rw [find_filter_ne _ _ _ hk, if_neg hk]; rfl
    | none =>
      simp only [change, h]
      by_cases hk : k' = k
      · subst hk; rw [if_pos rfl]; exact h
      · rw [if_neg hk]
  | move k =>
    show slotOf (change clear s (.move k)) k' = if (slotOf s k).isSome ∧ k' = k then some s.next else slotOf s k'
    cases h : slotOf s k with
    | some a =>
      simp only [change, h, Option.isSome_some, true_and]
      show Option.map _ (List.find? _ (_ :: List.filter _ _)) = _
      rw [List.find?_cons]
      by_cases hk : k' = k
      · simp [hk]
      · simp only [Ne.symm hk, decide_false, if_neg hk]
        rw [find_filter_ne _ _ _ hk]; rfl
    | none => simp [change, h]

theorem slots_distinct {s : St K V} (h : Ok s) {k k' : K} {a : Nat} (h1 : slotOf s k = some a) (h2 : slotOf s k' = some a) : k = k' := by
  rw [← (h.holds _ _ h1).1, (h.holds _ _ h2).1]

theorem change_ok (clear : K × V → K × V) (s : St K V) (h : Ok s) (c : Change K V) : Ok (change clear s c) := by
  refine ⟨fun k' a' hk' => ?_⟩
  rw [slotOf_change] at hk'
  cases c with
  | assign k v =>
    simp only at hk'
    simp only [change]
    cases hs : slotOf s k with
    | some a =>
      rw [hs] at hk'
      simp only [reduceCtorEq, false_and, if_false] at hk'
      obtain ⟨h1, h2⟩ := h.holds _ _ hk'
      refine ⟨?_, h2⟩
      simp only [write]
      by_cases ha : a' = a
      · subst ha
        rw [if_pos rfl]
        exact slots_distinct h hs hk'
      · rw [if_neg ha]; exact h1
    | none =>
      rw [hs] at hk'
      simp only [true_and] at hk'
      by_cases he : k' = k
      · rw [if_pos he] at hk'
        injection hk' with hk'
        subst hk'
        simp [write, he]
      · rw [if_neg he] at hk'
        obtain ⟨h1, h2⟩ := h.holds _ _ hk'
        refine ⟨?_, by show _ < s.next + 1; omega⟩
        simp only [write]
        rw [if_neg (by omega)]
        exact h1
  | delete k =>
    simp only at hk'
    simp only [change]
    by_cases he : k' = k
    · rw [if_pos he] at hk'; cases hk'
    · rw [if_neg he] at hk'
      obtain ⟨h1, h2⟩ := h.holds _ _ hk'
      cases hs : slotOf s k with
      | some a =>
        refine ⟨?_, h2⟩
        simp only [write]
        rw [if_neg (show a' ≠ a from fun ha => he (slots_distinct h hk' (ha ▸ hs)))]
        exact h1
      | none => exact ⟨h1, h2⟩
  | move k =>
    simp only at hk'
    simp only [change]
    cases hs : slotOf s k with
    | some a =>
      rw [hs] at hk'
      simp only [Option.isSome_some, true_and] at hk'
      by_cases he : k' = k
      · rw [if_pos he] at hk'
        injection hk' with hk'
        subst hk'
        simp only [write, if_true]
        exact ⟨by rw [(h.holds _ _ hs).1, he], by omega⟩
      · rw [if_neg he] at hk'
        obtain ⟨h1, h2⟩ := h.holds _ _ hk'
        refine ⟨?_, by show _ < s.next + 1; omega⟩
        simp only [write]
        rw [if_neg (by omega)]
        exact h1
    | none =>
      rw [hs] at hk'
      simp only [Option.isSome_none, Bool.false_eq_true, false_and, if_false] at hk'
      exact h.holds _ _ hk'

theorem changes_ok (clear : K × V → K × V) (cs : List (Change K V)) (s : St K V) (h : Ok s) : Ok (changes clear s cs) := by
  induction cs generalizing s with
  | nil => exact h
  | cons c cs ih => exact ih _ (change_ok clear s h c)

theorem change_stays (clear : K × V → K × V) (s : St K V) (c : Change K V) (k : K) (hc : c ≠ .delete k) (h : (slotOf s k).isSome) :
    (slotOf (change clear s c) k).isSome := by
  rw [slotOf_change]
  cases c with
  | assign k' v => simp only; split <;> simp [h]
  | delete k' =>
    simp only
    rw [if_neg (fun e => hc (by rw [e]))]
    exact h
  | move k' => simp only; split <;> simp [h]

theorem changes_stay (clear : K × V → K × V) (cs : List (Change K V)) (s : St K V) (k : K) (hc : .delete k ∉ cs) (h : (slotOf s k).isSome) :
    (slotOf (changes clear s cs) k).isSome := by
  induction cs generalizing s with
  | nil => exact h
  | cons c cs ih =>
    exact ih _ (fun hm => hc (List.mem_cons_of_mem _ hm)) (change_stays clear s c k (fun e => hc (e ▸ List.mem_cons_self)) h)

/-- A slot that holds what is under a key now, and is of no other key; with `here` it is the slot of the entry. -/
structure Shows (s : St K V) (k : K) (a : Nat) (here : Bool) : Prop where
  below : a < s.next
  key : (s.slots a).1 = k
  elem : content s k = some (s.slots a).2
  alone : ∀ k', k' ≠ k → slotOf s k' ≠ some a
  own : here = true → slotOf s k = some a

theorem shows_start {s : St K V} (h : Ok s) {k : K} {a : Nat} (hs : slotOf s k = some a) : Shows s k a true :=
  ⟨(h.holds _ _ hs).2, (h.holds _ _ hs).1, by rw [content, hs]; rfl, fun _ hk' h' => hk' (slots_distinct h h' hs), fun _ => hs⟩

theorem content_of {s : St K V} {k : K} {v : V} (h : content s k = some v) : ∃ a, slotOf s k = some a ∧ (s.slots a).2 = v :=
  Option.map_eq_some_iff.mp h

/-- One change, other than deleting the entry or assigning to it after it moved. -/
theorem change_shows (clear : K × V → K × V) (s : St K V) (h : Ok s) (c : Change K V) (k : K) (a : Nat) (here : Bool) (hs : Shows s k a here)
    (hd : c ≠ .delete k) (ha : ∀ v, here = false → c ≠ .assign k v) :
    ∃ here', Shows (change clear s c) k a here' ∧ (here' = false → here = false ∨ c = .move k) := by
  obtain ⟨b, hb, hv⟩ := content_of hs.elem
  obtain ⟨hb1, hb2⟩ := h.holds _ _ hb
  have hlt := hs.below
  cases c with
  | assign k' v =>
    by_cases he : k' = k
    · subst he
      have hh : here = true := by
        cases here with
        | true => rfl
        | false => exact absurd rfl (ha v rfl)
      have hown := hs.own hh
      refine ⟨true, ?_, fun h => by cases h⟩
      have hc : change clear s (.assign k' v) = { s with slots := write s.slots a (k', v) } := by simp only [change, hown]
      refine ⟨by rw [hc]; exact hlt, by rw [hc]; simp [write], ?_, fun k'' hk'' => ?_, fun _ => ?_⟩
      · rw [content, slotOf_change]
        simp only [hown, reduceCtorEq, false_and, if_false, Option.map_some]
      · rw [slotOf_change]
        simp only [hown, reduceCtorEq, false_and, if_false]
        exact hs.alone _ hk''
      · rw [slotOf_change]
        simp only [hown, reduceCtorEq, false_and, if_false]
    · refine ⟨here, ?_, fun h => .inl h⟩
      cases hk' : slotOf s k' with
      | some c =>
        have hc : change clear s (.assign k' v) = { s with slots := write s.slots c (k', v) } := by simp only [change, hk']
        have hca : a ≠ c := fun e => hs.alone _ he (e ▸ hk')
        have hcb : b ≠ c := fun e => he (slots_distinct h hk' (e ▸ hb))
        have hl : ∀ x, slotOf (change clear s (.assign k' v)) x = slotOf s x := by
          intro x; rw [slotOf_change]; simp only [hk', reduceCtorEq, false_and, if_false]
        refine ⟨by rw [hc]; exact hlt, ?_, ?_, fun k'' hk'' => ?_, fun hh => ?_⟩
        · rw [hc]; simp only [write, if_neg hca]; exact hs.key
        · rw [content, hl, hb, hc]
          simp only [write, if_neg hca, if_neg hcb, Option.map_some, hv]
        · rw [hl]; exact hs.alone _ hk''
        · rw [hl]; exact hs.own hh
      | none =>
        have hc : change clear s (.assign k' v) = ⟨write s.slots s.next (k', v), (k', s.next) :: s.live, s.next + 1⟩ := by simp only [change, hk']
        have hl : ∀ x, slotOf (change clear s (.assign k' v)) x = if x = k' then some s.next else slotOf s x := by
          intro x; rw [slotOf_change]; simp only [hk', true_and]
        refine ⟨by rw [hc]; show a < s.next + 1; omega, ?_, ?_, fun k'' hk'' => ?_, fun hh => ?_⟩
        · rw [hc]; simp only [write]; rw [if_neg (by omega)]; exact hs.key
        · rw [content, hl, if_neg (Ne.symm he), hb, hc]
          simp only [write, Option.map_some]
          rw [if_neg (by omega), if_neg (by omega), hv]
        · rw [hl]
          by_cases e : k'' = k'
          · rw [if_pos e]; intro e'; injection e' with e'; omega
          · rw [if_neg e]; exact hs.alone _ hk''
        · rw [hl, if_neg (Ne.symm he)]; exact hs.own hh
  | delete k' =>
    have he : k' ≠ k := fun e => hd (by rw [e])
    refine ⟨here, ?_, fun h => .inl h⟩
    have hl : ∀ x, slotOf (change clear s (.delete k')) x = if x = k' then none else slotOf s x := by
      intro x; rw [slotOf_change]
    cases hk' : slotOf s k' with
    | some c =>
      have hc : change clear s (.delete k') = { s with slots := write s.slots c (clear (s.slots c)), live := s.live.filter fun e => decide (e.1 ≠ k') } := by
        simp only [change, hk']
      have hca : a ≠ c := fun e => hs.alone _ he (e ▸ hk')
      have hcb : b ≠ c := fun e => he (slots_distinct h hk' (e ▸ hb))
      refine ⟨by rw [hc]; exact hlt, ?_, ?_, fun k'' hk'' => ?_, fun hh => ?_⟩
      · rw [hc]; simp only [write, if_neg hca]; exact hs.key
      · rw [content, hl, if_neg (Ne.symm he), hb, hc]
        simp only [write, if_neg hca, if_neg hcb, Option.map_some, hv]
      · rw [hl]; split
        · simp
        · exact hs.alone _ hk''
      · rw [hl, if_neg (Ne.symm he)]; exact hs.own hh
    | none =>
      have hc : change clear s (.delete k') = s := by simp only [change, hk']
      rw [hc]; exact hs
  | move k' =>
    cases hk' : slotOf s k' with
    | none =>
      have hc : change clear s (.move k') = s := by simp only [change, hk']
      rw [hc]; exact ⟨here, hs, fun h => .inl h⟩
    | some c =>
      have hc : change clear s (.move k') =
          ⟨write s.slots s.next (s.slots c), (k', s.next) :: s.live.filter (fun e => decide (e.1 ≠ k')), s.next + 1⟩ := by simp only [change, hk']
      have hl : ∀ x, slotOf (change clear s (.move k')) x = if x = k' then some s.next else slotOf s x := by
        intro x; rw [slotOf_change]; simp only [hk', Option.isSome_some, true_and]
      by_cases he : k' = k
      · subst he
        refine ⟨false, ?_, fun _ => .inr rfl⟩
        refine ⟨by rw [hc]; show a < s.next + 1; omega, ?_, ?_, fun k'' hk'' => ?_, fun hh => by cases hh⟩
        · rw [hc]; simp only [write]; rw [if_neg (by omega)]; exact hs.key
        · rw [content, hl, if_pos rfl, hc]
          simp only [write, Option.map_some, if_true]
          rw [if_neg (by omega)]
          rw [hb] at hk'
          injection hk' with hk'
          rw [← hk', hv]
        · rw [hl, if_neg hk'']; exact hs.alone _ hk''
      · refine ⟨here, ?_, fun h => .inl h⟩
        refine ⟨by rw [hc]; show a < s.next + 1; omega, ?_, ?_, fun k'' hk'' => ?_, fun hh => ?_⟩
        · rw [hc]; simp only [write]; rw [if_neg (by omega)]; exact hs.key
        · rw [content, hl, if_neg (Ne.symm he), hb, hc]
          simp only [write, Option.map_some]
          rw [if_neg (by omega), if_neg (by omega), hv]
        · rw [hl]
          by_cases e : k'' = k'
          · rw [if_pos e]; intro e'; injection e' with e'; omega
          · rw [if_neg e]; exact hs.alone _ hk''
        · rw [hl, if_neg (Ne.symm he)]; exact hs.own hh

theorem changes_show (clear : K × V → K × V) (k : K) (a : Nat) : ∀ (cs : List (Change K V)) (s : St K V) (here : Bool), Ok s → Shows s k a here →
    .delete k ∉ cs → (cs.Pairwise fun a b => ∀ k v, a = .move k → b ≠ .assign k v) → (here = false → ∀ v, .assign k v ∉ cs) →
    ∃ here', Shows (changes clear s cs) k a here'
  | [], s, here, _, hs, _, _, _ => ⟨here, hs⟩
  | c :: cs, s, here, h, hs, hd, hp, ha => by
    rw [List.pairwise_cons] at hp
    obtain ⟨here', hs', hh⟩ := change_shows clear s h c k a here hs (fun e => hd (e ▸ List.mem_cons_self))
      fun v hf e => ha hf v (e ▸ List.mem_cons_self)
    refine changes_show clear k a cs _ here' (change_ok clear s h c) hs' (fun hm => hd (List.mem_cons_of_mem _ hm)) hp.2 fun hf v hm => ?_
    rcases hh hf with hf | hm'
    · exact ha hf v (List.mem_cons_of_mem _ hm)
    · exact hp.1 _ hm k v hm' rfl

/-- Where `mapiternext` comes to: the first key of the rest in the map. -/
theorem advance_cases (s : St K V) : ∀ (l : List K), ((advance s l).cur = none ∧ (advance s l).rest = [] ∧ ∀ k ∈ l, slotOf s k = none) ∨
    ∃ pre k post a, l = pre ++ k :: post ∧ (∀ k' ∈ pre, slotOf s k' = none) ∧ slotOf s k = some a ∧ advance s l = ⟨some a, post⟩
  | [] => .inl ⟨rfl, rfl, fun _ h => by cases h⟩
  | k :: l => by
    cases hk : slotOf s k with
    | some a => exact .inr ⟨[], k, l, a, rfl, (fun _ h => by cases h), hk, by simp only [advance, hk]⟩
    | none =>
      have ha : advance s (k :: l) = advance s l := by simp only [advance, hk]
      rw [ha]
      rcases advance_cases s l with ⟨h1, h2, h3⟩ | ⟨pre, k', post, a, h1, h2, h3, h4⟩
      · refine .inl ⟨h1, h2, fun k' hk' => ?_⟩
        rcases List.mem_cons.mp hk' with rfl | hk'
        · exact hk
        · exact h3 _ hk'
      · refine .inr ⟨k :: pre, k', post, a, by rw [h1]; rfl, fun k'' hk'' => ?_, h3, h4⟩
        rcases List.mem_cons.mp hk'' with rfl | hk''
        · exact hk
        · exact h2 _ hk''

/-- The keys among the results. -/
def keysOf (r : List (St K V × (K × V))) : List K := r.map fun x => x.2.1

/-- The loop from an iterator made by `mapiternext` in the present state. -/
theorem loop_from (clear : K × V → K × V) : ∀ (segs : List (List (Change K V))) (s : St K V) (order done : List K), Ok s → order.Nodup →
    (∀ k ∈ done, k ∉ order) → order.length ≤ segs.length →
    (∀ r, r = (loop clear s (advance s order) segs).1 → AllFine (done ++ keysOf r) segs done.length) →
    let r := loop clear s (advance s order) segs
    hasNext r.2 = false ∧ (keysOf r.1).Sublist order ∧ (∀ k ∈ order, (slotOf s k).isSome → k ∈ keysOf r.1) ∧
      ∀ x ∈ r.1, content x.1 x.2.1 = some x.2.2
  | [], s, order, done, _, _, _, hl, _ => by
    have : order = [] := List.length_eq_zero_iff.mp (by simp only [List.length_nil] at hl; omega)
    subst this
    exact ⟨rfl, List.Sublist.slnil, fun k hk => (by cases hk), fun x hx => (by cases hx)⟩
  | cs :: more, s, order, done, hok, hn, hd, hl, hf => by
    rcases advance_cases s order with ⟨h1, h2, h3⟩ | ⟨pre, k, post, a, h1, h2, h3, h4⟩
    · have hnx : hasNext (advance s order) = false := by rw [hasNext, h1]; rfl
      have e : loop clear s (advance s order) (cs :: more) = ([], advance s order) := by
        rw [loop, hnx]; rfl
      intro r
      have hr : r = ([], advance s order) := e
      rw [hr]
      refine ⟨hnx, List.nil_sublist _, fun k hk hs => ?_, fun x hx => (by cases hx)⟩
      rw [h3 k hk] at hs; cases hs
    · have e : loop clear s (advance s order) (cs :: more) =
          ((changes clear s cs, (changes clear s cs).slots a) :: (loop clear (changes clear s cs) (advance (changes clear s cs) post) more).1,
            (loop clear (changes clear s cs) (advance (changes clear s cs) post) more).2) := by
        rw [h4]; rfl
      rw [e] at hf
      have hf1 := (hf _ rfl).1
      have htake : (done ++ keysOf ((changes clear s cs, (changes clear s cs).slots a) ::
          (loop clear (changes clear s cs) (advance (changes clear s cs) post) more).1)).take done.length = done := List.take_left
      rw [htake] at hf1
      have hnd : ∀ x ∈ order, .delete x ∉ cs := fun x hx hm => hd x (hf1.1 x hm) hx
      have hkm : k ∈ order := by rw [h1]; simp
      obtain ⟨here, hsh⟩ := changes_show clear k a cs s true hok (shows_start hok h3) (hnd k hkm) hf1.2 fun hh => by cases hh
      have hok' := changes_ok clear cs s hok
      have hkey : ((changes clear s cs).slots a).1 = k := hsh.key
      rw [h1] at hn
      have hn2 := (List.nodup_append.mp hn).2.1
      rw [List.nodup_cons] at hn2
      have hpl : post.length ≤ more.length := by
        rw [h1] at hl
        simp only [List.length_append, List.length_cons] at hl
        omega
      have hrec := loop_from clear more (changes clear s cs) post (done ++ [k]) hok' hn2.2
        (fun x hx hxp => by
          rcases List.mem_append.mp hx with hx | hx
          · exact hd x hx (by rw [h1]; exact List.mem_append_right _ (List.mem_cons_of_mem _ hxp))
          · rw [List.mem_singleton.mp hx] at hxp; exact hn2.1 hxp)
        hpl (fun r hr => by
          have := (hf _ rfl).2
          rw [← hr] at this
          simp only [keysOf, List.map_cons, hkey] at this
          rw [List.append_assoc, List.length_append]
          exact this)
      intro r
      have hr : r = _ := e
      rw [hr]
      obtain ⟨g1, g2, g3, g4⟩ := hrec
      refine ⟨g1, ?_, fun x hx hs => ?_, fun x hx => ?_⟩
      · rw [h1]
        refine List.Sublist.trans ?_ (List.sublist_append_right pre (k :: post))
        show (((changes clear s cs).slots a).1 :: keysOf _).Sublist _
        rw [hkey]
        exact g2.cons_cons k
      · show x ∈ ((changes clear s cs).slots a).1 :: keysOf _
        rw [hkey]
        have hx' := hx
        rw [h1] at hx
        rcases List.mem_append.mp hx with hx | hx
        · rw [h2 x hx] at hs; cases hs
        · rcases List.mem_cons.mp hx with rfl | hx
          · exact List.mem_cons_self
          · exact List.mem_cons_of_mem _ (g3 x hx (changes_stay clear cs s x (hnd x hx') hs))
      · rcases List.mem_cons.mp hx with rfl | hx
        · show content (changes clear s cs) ((changes clear s cs).slots a).1 = _
          rw [hkey]; exact hsh.elem
        · exact g4 x hx

/-- C142 (partly): in any order the runtime takes, if the loop deletes only entries already returned, and does not assign to an entry after it moved and before the next call, then
the loop ends; it returns no key twice, every key the map had at the start, and each with the element it has at that moment.  Missing: other deletions
(`deleted_returned`) and other assignments (`stale_returned`). -/
theorem iteration_partial (clear : K × V → K × V) (s : St K V) (hs : Ok s) (order : List K) (ho : order.Nodup)
    (hk : ∀ k, (content s k).isSome → k ∈ order) (segs : List (List (Change K V))) (hl : order.length ≤ segs.length)
    (hf : AllFine (keysOf (loop clear s (iterate s order) segs).1) segs 0) :
    let r := loop clear s (iterate s order) segs
    hasNext r.2 = false ∧ (keysOf r.1).Nodup ∧ (∀ k, (content s k).isSome → k ∈ keysOf r.1) ∧ ∀ x ∈ r.1, content x.1 x.2.1 = some x.2.2 := by
  intro r
  have := loop_from clear segs s order [] hs ho (fun _ h => by cases h) hl (fun r hr => by rw [hr]; exact hf)
  refine ⟨this.1, ho.sublist this.2.1, fun k h => this.2.2.1 k (hk k h) ?_, this.2.2.2⟩
  rw [content, Option.isSome_map] at h
  exact h

/-! ### What is not so -/

/-- The full statement of C142 is false: the iterator is one entry ahead, so that an entry deleted before it was reached is returned, as whatever the
runtime left in its place. -/
theorem deleted_returned (clear : K × V → K × V) (s : St K V) (hs : Ok s) (k₁ k₂ : K) (v₁ v₂ : V) (rest : List K) (h1 : content s k₁ = some v₁) (h2 : content s k₂ = some v₂) :
    ∃ s' more, (loop clear s (iterate s (k₁ :: k₂ :: rest)) [[], [.delete k₂]]).1 = [(s, (k₁, v₁)), (s', more)] ∧
      content s' k₂ = none ∧ more = clear (k₂, v₂) := by
  obtain ⟨a, ha, hv⟩ := content_of h1
  obtain ⟨b, hb, hw⟩ := content_of h2
  have e : iterate s (k₁ :: k₂ :: rest) = ⟨some a, k₂ :: rest⟩ := by simp only [iterate, advance, ha]
  have e2 : advance s (k₂ :: rest) = ⟨some b, rest⟩ := by simp only [advance, hb]
  refine ⟨change clear s (.delete k₂), clear (k₂, v₂), ?_, ?_, rfl⟩
  · rw [e]
    show (s, s.slots a) :: (loop clear s (advance s (k₂ :: rest)) [[.delete k₂]]).1 = _
    rw [e2]
    show [(s, s.slots a), (change clear s (.delete k₂), (change clear s (.delete k₂)).slots b)] = _
    have x1 : s.slots a = (k₁, v₁) := Prod.ext (hs.holds _ _ ha).1 hv
    have x2 : s.slots b = (k₂, v₂) := Prod.ext (hs.holds _ _ hb).1 hw
    have x3 : (change clear s (.delete k₂)).slots b = clear (k₂, v₂) := by
      simp only [change, hb, write, if_true, x2]
    rw [x1, x3]
  · rw [content, slotOf_change]
    simp

/-- The full statement of C142 is false: an element assigned after the map grew, but before `Next` comes to it, is returned as it was before. -/
theorem stale_returned (clear : K × V → K × V) (s : St K V) (hs : Ok s) (k₁ k₂ : K) (v₁ v₂ v : V) (rest : List K) (h1 : content s k₁ = some v₁)
    (h2 : content s k₂ = some v₂) :
    ∃ s', (loop clear s (iterate s (k₁ :: k₂ :: rest)) [[], [.move k₂, .assign k₂ v]]).1 = [(s, (k₁, v₁)), (s', (k₂, v₂))] ∧
      content s' k₂ = some v := by
  obtain ⟨a, ha, hv⟩ := content_of h1
  obtain ⟨b, hb, hw⟩ := content_of h2
  have hbn := (hs.holds _ _ hb).2
  have e : iterate s (k₁ :: k₂ :: rest) = ⟨some a, k₂ :: rest⟩ := by simp only [iterate, advance, ha]
  have e2 : advance s (k₂ :: rest) = ⟨some b, rest⟩ := by simp only [advance, hb]
  have l1 : slotOf (change clear s (.move k₂)) k₂ = some s.next := by
    rw [slotOf_change]; simp only [hb, Option.isSome_some, true_and, if_true]
  have c1 : (change clear s (.move k₂)).slots b = s.slots b := by
    simp only [change, hb, write]; rw [if_neg (by omega)]
  have c2 : change clear (change clear s (.move k₂)) (.assign k₂ v) =
      { change clear s (.move k₂) with slots := write (change clear s (.move k₂)).slots s.next (k₂, v) } := by
    show (match slotOf (change clear s (.move k₂)) k₂ with | some a => _ | none => _) = _
    rw [l1]
  refine ⟨change clear (change clear s (.move k₂)) (.assign k₂ v), ?_, ?_⟩
  · rw [e]
    show (s, s.slots a) :: (loop clear s (advance s (k₂ :: rest)) [[.move k₂, .assign k₂ v]]).1 = _
    rw [e2]
    show [(s, s.slots a), (change clear (change clear s (.move k₂)) (.assign k₂ v), (change clear (change clear s (.move k₂)) (.assign k₂ v)).slots b)] = _
    have x1 : s.slots a = (k₁, v₁) := Prod.ext (hs.holds _ _ ha).1 hv
    have x2 : s.slots b = (k₂, v₂) := Prod.ext (hs.holds _ _ hb).1 hw
    have x3 : (change clear (change clear s (.move k₂)) (.assign k₂ v)).slots b = (k₂, v₂) := by
      rw [c2]
      simp only [write]
      rw [if_neg (by omega), c1, x2]
    rw [x1, x3]
  · rw [content, slotOf_change]
    simp only [l1, reduceCtorEq, false_and, if_false, Option.map_some, c2, write, if_true]

/-! ### Cases -/

/-- Three entries, as in a map given to reflect2/unsafe_map.go:110. -/
def three : St Nat Nat := ⟨fun a => (a + 10, a * 100), [(10, 0), (11, 1), (12, 2)], 3⟩

theorem three_ok : Ok three := by
  refine ⟨fun k a h => ?_⟩
  obtain ⟨e, he, rfl⟩ := Option.map_eq_some_iff.mp h
  have hm := List.mem_of_find?_eq_some he
  have hp := List.find?_some he
  simp only [three, List.mem_cons, List.not_mem_nil, or_false, decide_eq_true_eq] at hm hp ⊢
  rcases hm with rfl | rfl | rfl <;> simp at hp <;> subst hp <;> simp

/-- Every entry is assigned to and deleted as soon as it was returned, and others are assigned to ahead. -/
example : (loop (fun _ => (0, 0)) three (iterate three [11, 12, 10]) [[.assign 12 5], [.delete 11, .assign 10 6], [.delete 12, .assign 13 9]]).1.map Prod.snd =
    [(11, 100), (12, 5), (10, 6)] := by decide

/-- This case meets the hypotheses of the theorem. -/
example : AllFine (V := Nat) [11, 12, 10] [[.assign 12 5], [.delete 11, .assign 10 6], [.delete 12, .assign 13 9]] 0 := by
  simp [AllFine, Fine]

/-- Deleting what was not reached: an entry that is not in the map. -/
example : (loop (fun _ => (0, 0)) three (iterate three [11, 12, 10]) [[], [.delete 12], []]).1.map Prod.snd = [(11, 100), (0, 0), (10, 0)] := by decide

end Verif.Reflect2.MapIter
