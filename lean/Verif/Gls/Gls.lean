import Verif.Basic

/-!
# C45, C46: goroutine-local storage

Model of gls/gls.go.  Storage maps live in a heap and are passed by reference, as Go's maps are.  Goroutine ids are natural numbers (those of the runtime are
positive; for a negative id the shard index is negative and the call panics).  Each operation takes effect at its access to the sharded
table, which is under the lock of the shard.
-/

namespace Verif.Gls

variable {K V : Type} [DecidableEq K]

/-! ### Model -/

/-- A Go map. -/
abbrev GoMap (K V : Type) := K → Option V

/-- An assignment `m[k] = v`, gls.go 98. -/
def assign (m : GoMap K V) (k : K) (v : V) : GoMap K V := fun k' => if k' = k then some v else m k'

/-- `shards` is `globalMaps` (gls.go 10): shard, then id, to a reference.  `wrapped` are the functions made by `WithGls` (with the
reference captured, gls.go 58) and `WithEmptyGls` (with none). -/
structure St (K V : Type) where
  shards : Nat → Nat → Option Nat
  heap : Nat → GoMap K V
  next : Nat
  wrapped : List (Option Nat)

/-- What goroutines do (gls.go 25-103). -/
inductive Op (K V : Type)
  /-- `ResetGls` with a new map, gls.go 25-31. -/
  | reset (g : Nat) (m : GoMap K V)
  /-- `DeleteGls`, gls.go 33-39. -/
  | delete (g : Nat)
  /-- `Set` on goroutine `g`, gls.go 93-99. -/
  | set (g : Nat) (k : K) (v : V)
  /-- `WithGls` on goroutine `g`, gls.go 54-73. -/
  | wrap (g : Nat)
  /-- `WithEmptyGls`, gls.go 75-83. -/
  | wrapEmpty
  /-- The `c`-th wrapped function starts on goroutine `g`, gls.go 68-69 and 78-79. -/
  | enter (g c : Nat)
  /-- It ends there, gls.go 70 and 80. -/
  | leave (g : Nat)

/-- `globalMaps[shardIndex][goid] = ...`, gls.go 26 and 29. -/
def put (s : Nat → Nat → Option Nat) (g : Nat) (r : Option Nat) : Nat → Nat → Option Nat :=
  fun i h => if i = g % 16 ∧ h = g then r else s i h

/-- `GetGls`, gls.go 41-52. -/
def getGls (s : St K V) (g : Nat) : Option Nat := s.shards (g % 16) g

/-- One operation; `copy` is what `Copy` does to a value that has it, and the identity otherwise (gls.go 60-65).  `Set` without storage panics
and changes nothing (gls.go 95-97). -/
def step (copy : V → V) (s : St K V) : Op K V → St K V
  | .reset g m => { s with heap := fun r => if r = s.next then m else s.heap r, next := s.next + 1, shards := put s.shards g (some s.next) }
  | .delete g => { s with shards := put s.shards g none }
  | .set g k v =>
    match getGls s g with
    | some r => { s with heap := fun r' => if r' = r then assign (s.heap r) k v else s.heap r' }
    | none => s
  | .wrap g =>
    let m := match getGls s g with
      | some r => fun k => (s.heap r k).map copy
      | none => fun _ => none
    { s with heap := fun r => if r = s.next then m else s.heap r, next := s.next + 1, wrapped := s.wrapped ++ [some s.next] }
  | .wrapEmpty => { s with wrapped := s.wrapped ++ [none] }
  | .enter g c =>
    match s.wrapped[c]? with
    | some (some r) => { s with shards := put s.shards g (some r) }
    | some none => { s with heap := fun r => if r = s.next then fun _ => none else s.heap r, next := s.next + 1, shards := put s.shards g (some s.next) }
    | none => s
  | .leave g => { s with shards := put s.shards g none }

/-- A history (gls.go 25-103). -/
def run (copy : V → V) (s : St K V) (ops : List (Op K V)) : St K V := ops.foldl (step copy) s

/-- The state at the start, gls.go 16-23. -/
def start : St K V := { shards := fun _ _ => none, heap := fun _ _ => none, next := 0, wrapped := [] }

/-- `Get` on goroutine `g`, gls.go 85-91. -/
def get (s : St K V) (g : Nat) (k : K) : Option V :=
  match getGls s g with
  | some r => s.heap r k
  | none => none

/-- `IsGlsEnabled`, gls.go 101-103; `Set` panics exactly if it is false. -/
def isGlsEnabled (s : St K V) (g : Nat) : Bool := (getGls s g).isSome

/-! ### Specification -/

/-- Every goroutine has storage of its own or none; a wrapped function carries the values it is to start with. -/
structure Spec (K V : Type) where
  own : Nat → Option (GoMap K V)
  carried : List (GoMap K V)

/-- What each operation should do. -/
def Spec.step (copy : V → V) (s : Spec K V) : Op K V → Spec K V
  | .reset g m => { s with own := fun h => if h = g then some m else s.own h }
  | .delete g => { s with own := fun h => if h = g then none else s.own h }
  | .set g k v => { s with own := fun h => if h = g then (s.own g).map (fun m => assign m k v) else s.own h }
  | .wrap g => { s with carried := s.carried ++ [fun k => ((s.own g).bind (· k)).map copy] }
  | .wrapEmpty => { s with carried := s.carried ++ [fun _ => none] }
  | .enter g c => { s with own := fun h => if h = g ∧ c < s.carried.length then s.carried[c]? else s.own h }
  | .leave g => { s with own := fun h => if h = g then none else s.own h }

/-- A history. -/
def Spec.run (copy : V → V) (s : Spec K V) (ops : List (Op K V)) : Spec K V := ops.foldl (Spec.step copy) s

/-- The start. -/
def Spec.start : Spec K V := { own := fun _ => none, carried := [] }

/-- The wrapped functions that are run, in order. -/
def entered (ops : List (Op K V)) : List Nat :=
  ops.filterMap fun x => match x with
    | .enter _ c => some c
    | _ => none

/-! ### Refinement -/

/-- The model agrees with the specification: different goroutines have different maps, and a wrapped function that has not been run (is not in `used`)
has a map that nobody else has. -/
structure Sim (used : List Nat) (s : St K V) (p : Spec K V) : Prop where
  view : ∀ g, (getGls s g).map s.heap = p.own g
  noAlias : ∀ g h r, getGls s g = some r → getGls s h = some r → g = h
  old : ∀ g r, getGls s g = some r → r < s.next
  len : s.wrapped.length = p.carried.length
  kept : ∀ (c r : Nat), s.wrapped[c]? = some (some r) → c ∉ used → p.carried[c]? = some (s.heap r)
  empty : ∀ c : Nat, s.wrapped[c]? = some none → p.carried[c]? = some (fun _ => none)
  fresh : ∀ (c r : Nat), s.wrapped[c]? = some (some r) → r < s.next
  private_ : ∀ (c r : Nat), s.wrapped[c]? = some (some r) → c ∉ used → ∀ g, getGls s g ≠ some r
  distinct : ∀ c d r : Nat, s.wrapped[c]? = some (some r) → s.wrapped[d]? = some (some r) → c = d

omit [DecidableEq K] in
theorem getGls_put (s : St K V) (g : Nat) (r : Option Nat) (heap : Nat → GoMap K V) (n : Nat) (w : List (Option Nat)) (h : Nat) :
    getGls { shards := put s.shards g r, heap := heap, next := n, wrapped := w } h = if h = g then r else getGls s h := by
  unfold getGls put
  by_cases he : h = g
  · subst he; simp
  · simp [he]

omit [DecidableEq K] in
theorem sim_start : Sim ([] : List Nat) (start : St K V) Spec.start := by
  constructor <;> simp [start, Spec.start, getGls]

theorem sim_step (copy : V → V) (used : List Nat) (s : St K V) (p : Spec K V) (x : Op K V) (h : Sim used s p)
    (hx : ∀ g c, x = .enter g c → c ∉ used) : Sim (used ++ entered [x]) (step copy s x) (p.step copy x) := by
  obtain ⟨h1, h2, h3, h4, h5, h6, h7, h8, h9⟩ := h
  -- removing the storage of a goroutine
  have hdel : ∀ g, Sim used { s with shards := put s.shards g none } { p with own := fun h => if h = g then none else p.own h } := by
    intro g
    refine ⟨?_, ?_, ?_, h4, h5, h6, h7, ?_, h9⟩
    · intro h
      rw [getGls_put]
      by_cases he : h = g
      · simp [he]
      · simp only [he, if_false]; exact h1 h
    · intro a b r ha hb
      rw [getGls_put] at ha hb
      by_cases hag : a = g
      · simp [hag] at ha
      · by_cases hbg : b = g
        · simp [hbg] at hb
        · simp only [hag, hbg, if_false] at ha hb
          exact h2 a b r ha hb
    · intro a r ha
      rw [getGls_put] at ha
      by_cases hag : a = g
      · simp [hag] at ha
      · simp only [hag, if_false] at ha
        exact h3 a r ha
    · intro c r hc hu a ha
      rw [getGls_put] at ha
      by_cases hag : a = g
      · simp [hag] at ha
      · simp only [hag, if_false] at ha
        exact h8 c r hc hu a ha
  -- giving a goroutine a new map
  have hnew : ∀ g (m : GoMap K V), Sim used
      { s with heap := fun r => if r = s.next then m else s.heap r, next := s.next + 1, shards := put s.shards g (some s.next) }
      { p with own := fun h => if h = g then some m else p.own h } := by
    intro g m
    have hheap : ∀ r, r < s.next → (if r = s.next then m else s.heap r) = s.heap r := by
      intro r hr
      rw [if_neg (by omega)]
    refine ⟨?_, ?_, ?_, h4, ?_, h6, ?_, ?_, h9⟩
    · intro h
      rw [getGls_put]
      by_cases he : h = g
      · simp [he]
      · simp only [he, if_false]
        rw [← h1 h]
        cases hr : getGls s h with
        | none => rfl
        | some r =>
          simp only [Option.map_some]
          rw [hheap r (h3 h r hr)]
    · intro a b r ha hb
      rw [getGls_put] at ha hb
      by_cases hag : a = g
      · by_cases hbg : b = g
        · rw [hag, hbg]
        · simp only [hag, if_true, Option.some.injEq] at ha
          simp only [hbg, if_false] at hb
          have := h3 b r hb
          omega
      · by_cases hbg : b = g
        · simp only [hbg, if_true, Option.some.injEq] at hb
          simp only [hag, if_false] at ha
          have := h3 a r ha
          omega
        · simp only [hag, hbg, if_false] at ha hb
          exact h2 a b r ha hb
    · intro a r ha
      rw [getGls_put] at ha
      by_cases hag : a = g
      · simp only [hag, if_true, Option.some.injEq] at ha
        simp only; omega
      · simp only [hag, if_false] at ha
        have := h3 a r ha
        simp only; omega
    · intro c r hc hu
      have h5' := h5 c r hc hu
      have h7' := h7 c r hc
      simp only
      rw [hheap r h7']; exact h5'
    · intro c r hc
      have := h7 c r hc
      simp only; omega
    · intro c r hc hu a ha
      rw [getGls_put] at ha
      by_cases hag : a = g
      · simp only [hag, if_true, Option.some.injEq] at ha
        have := h7 c r hc
        omega
      · simp only [hag, if_false] at ha
        exact h8 c r hc hu a ha
  cases x with
  | reset g m => simpa [entered, step, Spec.step] using hnew g m
  | delete g => simpa [entered, step, Spec.step] using hdel g
  | leave g => simpa [entered, step, Spec.step] using hdel g
  | set g k v =>
    have he : used ++ entered ([Op.set g k v] : List (Op K V)) = used := by simp [entered]
    rw [he]
    simp only [step, Spec.step]
    cases hg : getGls s g with
    | none =>
      simp only
      have hown : p.own g = none := by rw [← h1 g, hg]; rfl
      have hp : (fun h => if h = g then (p.own g).map (fun m => assign m k v) else p.own h) = p.own := by
        funext h
        by_cases hh : h = g
        · rw [if_pos hh, hh, hown]; rfl
        · rw [if_neg hh]
      rw [hp]
      exact ⟨h1, h2, h3, h4, h5, h6, h7, h8, h9⟩
    | some r =>
      simp only
      refine ⟨?_, h2, h3, h4, ?_, h6, h7, h8, h9⟩
      · intro h
        change (getGls s h).map _ = _
        simp only
        by_cases hh : h = g
        · rw [if_pos hh, hh, hg, ← h1 g, hg]
          simp
        · rw [if_neg hh, ← h1 h]
          cases hr : getGls s h with
          | none => rfl
          | some r' =>
            simp only [Option.map_some]
            rw [if_neg]
            rintro rfl
            exact hh (h2 h g _ hr hg)
      · intro c r' hc hu
        simp only
        rw [if_neg]
        · exact h5 c r' hc hu
        · rintro rfl
          exact h8 c _ hc hu g hg
  | wrap g =>
    have he : used ++ entered ([Op.wrap g] : List (Op K V)) = used := by simp [entered]
    rw [he]
    simp only [step, Spec.step]
    have hm : (match getGls s g with
        | some r => fun k => (s.heap r k).map copy
        | none => fun _ => none) = fun k => ((p.own g).bind (· k)).map copy := by
      rw [← h1 g]
      cases getGls s g with
      | none => rfl
      | some r => rfl
    rw [hm]
    have hheap : ∀ (m : GoMap K V) r, r < s.next → (if r = s.next then m else s.heap r) = s.heap r := by
      intro m r hr
      rw [if_neg (by omega)]
    refine ⟨?_, h2, ?_, by simp [h4], ?_, ?_, ?_, ?_, ?_⟩
    · intro h
      change (getGls s h).map _ = _
      rw [← h1 h]
      cases hr : getGls s h with
      | none => rfl
      | some r =>
        simp only [Option.map_some]
        rw [hheap _ r (h3 h r hr)]
    · intro a r ha
      have := h3 a r ha
      simp only; omega
    · intro c r hc hu
      simp only at hc ⊢
      rw [List.getElem?_append] at hc
      split at hc
      · rename_i hlt
        rw [List.getElem?_append_left (by omega), hheap _ r (h7 c r hc)]
        exact h5 c r hc hu
      · rename_i hge
        have hc0 : c - s.wrapped.length = 0 := by
          cases hcc : c - s.wrapped.length with
          | zero => rfl
          | succ n => rw [hcc] at hc; simp at hc
        rw [hc0] at hc
        simp only [List.getElem?_cons_zero, Option.some.injEq] at hc
        subst hc
        rw [List.getElem?_append_right (by omega), ← h4, hc0]
        simp
    · intro c hc
      simp only at hc ⊢
      rw [List.getElem?_append] at hc
      split at hc
      · rename_i hlt
        rw [List.getElem?_append_left (by omega)]
        exact h6 c hc
      · rename_i hge
        cases hcc : c - s.wrapped.length with
        | zero => rw [hcc] at hc; simp at hc
        | succ n => rw [hcc] at hc; simp at hc
    · intro c r hc
      simp only at hc ⊢
      rw [List.getElem?_append] at hc
      split at hc
      · have := h7 c r hc; omega
      · cases hcc : c - s.wrapped.length with
        | zero =>
          rw [hcc] at hc
          simp only [List.getElem?_cons_zero, Option.some.injEq] at hc
          omega
        | succ n => rw [hcc] at hc; simp at hc
    · intro c r hc hu a ha
      simp only at hc
      change getGls s a = some r at ha
      rw [List.getElem?_append] at hc
      split at hc
      · exact h8 c r hc hu a ha
      · cases hcc : c - s.wrapped.length with
        | zero =>
          rw [hcc] at hc
          simp only [List.getElem?_cons_zero, Option.some.injEq] at hc
          have := h3 a r ha
          omega
        | succ n => rw [hcc] at hc; simp at hc
    · intro c d r hc hd
      simp only at hc hd
      rw [List.getElem?_append] at hc hd
      split at hc
      · split at hd
        · exact h9 c d r hc hd
        · cases hcc : d - s.wrapped.length with
          | zero =>
            rw [hcc] at hd
            simp only [List.getElem?_cons_zero, Option.some.injEq] at hd
            have := h7 c r hc
            omega
          | succ n => rw [hcc] at hd; simp at hd
      · split at hd
        · cases hcc : c - s.wrapped.length with
          | zero =>
            rw [hcc] at hc
            simp only [List.getElem?_cons_zero, Option.some.injEq] at hc
            have := h7 d r hd
            omega
          | succ n => rw [hcc] at hc; simp at hc
        · cases hcc : c - s.wrapped.length with
          | zero =>
            cases hdd : d - s.wrapped.length with
            | zero => omega
            | succ n => rw [hdd] at hd; simp at hd
          | succ n => rw [hcc] at hc; simp at hc
  | wrapEmpty =>
    have he : used ++ entered ([Op.wrapEmpty] : List (Op K V)) = used := by simp [entered]
    rw [he]
    simp only [step, Spec.step]
    have hsome : ∀ (c r : Nat), (s.wrapped ++ [none])[c]? = some (some r) → s.wrapped[c]? = some (some r) := by
      intro c r hc
      rw [List.getElem?_append] at hc
      split at hc
      · exact hc
      · cases hcc : c - s.wrapped.length with
        | zero => rw [hcc] at hc; simp at hc
        | succ n => rw [hcc] at hc; simp at hc
    have hlt : ∀ (c : Nat) x, s.wrapped[c]? = some x → c < s.wrapped.length := by
      intro c x hc
      exact (List.getElem?_eq_some_iff.mp hc).1
    refine ⟨h1, h2, h3, by simp [h4], ?_, ?_, ?_, ?_, ?_⟩
    · intro c r hc hu
      have hc := hsome c r hc
      have := hlt c _ hc
      rw [List.getElem?_append_left (by omega)]
      exact h5 c r hc hu
    · intro c hc
      simp only at hc ⊢
      rw [List.getElem?_append] at hc
      split at hc
      · rw [List.getElem?_append_left (by omega)]
        exact h6 c hc
      · rename_i hge
        cases hcc : c - s.wrapped.length with
        | zero =>
          rw [List.getElem?_append_right (by omega), ← h4, hcc]
          simp
        | succ n => rw [hcc] at hc; simp at hc
    · intro c r hc; exact h7 c r (hsome c r hc)
    · intro c r hc hu; exact h8 c r (hsome c r hc) hu
    · intro c d r hc hd; exact h9 c d r (hsome c r hc) (hsome d r hd)
  | enter g c =>
    have he : used ++ entered ([Op.enter g c] : List (Op K V)) = used ++ [c] := by simp [entered]
    rw [he]
    have hcu := hx g c rfl
    have weaken : ∀ s p, Sim used s p → Sim (used ++ [c]) (s : St K V) p := by
      rintro s p ⟨k1, k2, k3, k4, k5, k6, k7, k8, k9⟩
      exact ⟨k1, k2, k3, k4, fun c r hc hu => k5 c r hc (fun hm => hu (List.mem_append_left _ hm)), k6, k7,
        fun c r hc hu => k8 c r hc (fun hm => hu (List.mem_append_left _ hm)), k9⟩
    simp only [step, Spec.step]
    cases hw : s.wrapped[c]? with
    | none =>
      simp only
      have hge : ¬ c < p.carried.length := by
        rw [List.getElem?_eq_none_iff] at hw
        omega
      have hp : (fun h => if h = g ∧ c < p.carried.length then p.carried[c]? else p.own h) = p.own := by
        funext h
        rw [if_neg (fun hh => hge hh.2)]
      rw [hp]
      exact weaken s p ⟨h1, h2, h3, h4, h5, h6, h7, h8, h9⟩
    | some w =>
      have hlt : c < p.carried.length := by
        have := (List.getElem?_eq_some_iff.mp hw).1
        omega
      cases w with
      | none =>
        simp only
        have hp : (fun h => if h = g ∧ c < p.carried.length then p.carried[c]? else p.own h) =
            fun h => if h = g then some (fun _ => none) else p.own h := by
          funext h
          by_cases hh : h = g
          · rw [if_pos ⟨hh, hlt⟩, if_pos hh, h6 c hw]
          · rw [if_neg (fun x => hh x.1), if_neg hh]
        rw [hp]
        exact weaken _ _ (hnew g (fun _ => none))
      | some r =>
        simp only
        have hp : (fun h => if h = g ∧ c < p.carried.length then p.carried[c]? else p.own h) =
            fun h => if h = g then some (s.heap r) else p.own h := by
          funext h
          by_cases hh : h = g
          · rw [if_pos ⟨hh, hlt⟩, if_pos hh, h5 c r hw hcu]
          · rw [if_neg (fun x => hh x.1), if_neg hh]
        rw [hp]
        refine ⟨?_, ?_, ?_, h4, ?_, h6, h7, ?_, h9⟩
        · intro h
          rw [getGls_put]
          by_cases hh : h = g
          · simp [hh]
          · simp only [hh, if_false]; exact h1 h
        · intro a b r' ha hb
          rw [getGls_put] at ha hb
          by_cases hag : a = g
          · by_cases hbg : b = g
            · rw [hag, hbg]
            · simp only [hag, if_true, Option.some.injEq] at ha
              simp only [hbg, if_false] at hb
              subst ha
              exact absurd hb (h8 c r hw hcu b)
          · by_cases hbg : b = g
            · simp only [hbg, if_true, Option.some.injEq] at hb
              simp only [hag, if_false] at ha
              subst hb
              exact absurd ha (h8 c r hw hcu a)
            · simp only [hag, hbg, if_false] at ha hb
              exact h2 a b r' ha hb
        · intro a r' ha
          rw [getGls_put] at ha
          by_cases hag : a = g
          · simp only [hag, if_true, Option.some.injEq] at ha
            subst ha
            exact h7 c r hw
          · simp only [hag, if_false] at ha
            exact h3 a r' ha
        · intro d r' hd hu
          exact h5 d r' hd (fun hm => hu (List.mem_append_left _ hm))
        · intro d r' hd hu a ha
          rw [getGls_put] at ha
          by_cases hag : a = g
          · simp only [hag, if_true, Option.some.injEq] at ha
            subst ha
            have := h9 d c r hd hw
            subst this
            exact hu (List.mem_append_right _ (List.mem_singleton.mpr rfl))
          · simp only [hag, if_false] at ha
            exact h8 d r' hd (fun hm => hu (List.mem_append_left _ hm)) a ha

omit [DecidableEq K] in
theorem entered_cons (x : Op K V) (xs : List (Op K V)) : entered (x :: xs) = entered [x] ++ entered xs := by
  unfold entered
  rw [List.filterMap_cons, List.filterMap_cons]
  split <;> simp

theorem sim_run (copy : V → V) (ops : List (Op K V)) (used : List Nat) (s : St K V) (p : Spec K V) (h : Sim used s p)
    (hn : (used ++ entered ops).Nodup) : Sim (used ++ entered ops) (run copy s ops) (p.run copy ops) := by
  induction ops generalizing used s p with
  | nil => simpa [entered, run, Spec.run] using h
  | cons x xs ih =>
    rw [entered_cons, ← List.append_assoc] at hn ⊢
    refine ih _ _ _ (sim_step copy used s p x h ?_) hn
    rintro g c rfl hm
    have h2 := (List.nodup_append.mp (List.nodup_append.mp hn).1).2.2
    exact h2 c hm c (by simp [entered]) rfl

/-- C45, C46: any number of goroutines with any ids, in any interleaving: each sees storage that is its own, and a wrapped function starts with what its
creator's storage held when it was wrapped - if no wrapped function is run twice. -/
theorem private_storage_partial (copy : V → V) (ops : List (Op K V)) (hn : (entered ops).Nodup) (g : Nat) (k : K) :
    get (run copy start ops) g k = (((Spec.start : Spec K V).run copy ops).own g).bind (· k) ∧
    isGlsEnabled (run copy start ops) g = (((Spec.start : Spec K V).run copy ops).own g).isSome := by
  have h := sim_run copy ops [] start Spec.start sim_start (by simpa using hn)
  have hv := h.view g
  unfold get isGlsEnabled
  rw [← hv]
  cases getGls (run copy start ops) g <;> simp

/-- The goroutine an operation is about. -/
def about : Op K V → Option Nat
  | .reset g _ => some g
  | .delete g => some g
  | .set g _ _ => some g
  | .enter g _ => some g
  | .leave g => some g
  | .wrap _ => none
  | .wrapEmpty => none

theorem spec_others (copy : V → V) (ops : List (Op K V)) (p : Spec K V) (g : Nat) (h : ∀ x ∈ ops, about x ≠ some g) :
    (p.run copy ops).own g = p.own g := by
  induction ops generalizing p with
  | nil => rfl
  | cons x xs ih =>
    have hx := h x (List.mem_cons_self ..)
    have : (p.step copy x).own g = p.own g := by
      cases x with
      | reset g' m => simp only [about, ne_eq, Option.some.injEq] at hx; simp [Spec.step, Ne.symm hx]
      | delete g' => simp only [about, ne_eq, Option.some.injEq] at hx; simp [Spec.step, Ne.symm hx]
      | set g' k v => simp only [about, ne_eq, Option.some.injEq] at hx; simp [Spec.step, Ne.symm hx]
      | enter g' c => simp only [about, ne_eq, Option.some.injEq] at hx; simp [Spec.step, Ne.symm hx]
      | leave g' => simp only [about, ne_eq, Option.some.injEq] at hx; simp [Spec.step, Ne.symm hx]
      | wrap g' => rfl
      | wrapEmpty => rfl
    rw [← this]
    exact ih _ (fun y hy => h y (List.mem_cons_of_mem _ hy))

omit [DecidableEq K] in
theorem enter_sublist (a b : List (Op K V)) : entered (a ++ b) = entered a ++ entered b := by
  unfold entered
  rw [List.filterMap_append]

/-- C45: after `Set` on a goroutine with storage, `Get` there returns the value whatever other goroutines do meanwhile, whether or not they
share its shard; and other keys are as before. -/
theorem get_after_set_partial (copy : V → V) (before others : List (Op K V)) (g : Nat) (k : K) (v : V)
    (hn : (entered (before ++ Op.set g k v :: others)).Nodup) (he : isGlsEnabled (run copy start before) g = true)
    (ho : ∀ x ∈ others, about x ≠ some g) (k' : K) :
    get (run copy start (before ++ Op.set g k v :: others)) g k' = if k' = k then some v else get (run copy start before) g k' := by
  rw [(private_storage_partial copy _ hn g k').1]
  have hn1 : (entered before).Nodup := by
    rw [enter_sublist] at hn
    exact (List.nodup_append.mp hn).1
  rw [(private_storage_partial copy _ hn1 g k').1]
  rw [(private_storage_partial copy _ hn1 g k').2] at he
  have hrun : (Spec.start : Spec K V).run copy (before ++ Op.set g k v :: others) =
      ((((Spec.start : Spec K V).run copy before).step copy (.set g k v))).run copy others := by
    simp [Spec.run, List.foldl_append]
  rw [hrun, spec_others copy others _ g ho]
  obtain ⟨m, hm⟩ := Option.isSome_iff_exists.mp he
  simp only [Spec.step, if_true, hm, Option.map_some, Option.bind_some, assign]

/-- Goroutines 3 and 19 share a shard. -/
example : (3 : Nat) % 16 = 19 % 16 ∧
    get (run id start ([.reset 3 (fun _ => none), .reset 19 (fun _ => none)] ++ Op.set 3 1 10 :: [.set 19 1 20, .delete 19] : List (Op Nat Nat))) 3 1 = some 10 := by
  decide

example : (entered ([.reset 3 (fun _ => none), .reset 19 (fun _ => none)] ++ Op.set 3 1 10 :: [.set 19 1 20, .delete 19] : List (Op Nat Nat))).Nodup ∧
    isGlsEnabled (run id start ([.reset 3 (fun _ => none), .reset 19 (fun _ => none)] : List (Op Nat Nat))) 3 = true := by
  decide

theorem carried_prefix (copy : V → V) (ops : List (Op K V)) (p : Spec K V) (c : Nat) (hc : c < p.carried.length) :
    (p.run copy ops).carried[c]? = p.carried[c]? ∧ c < (p.run copy ops).carried.length := by
  induction ops generalizing p with
  | nil => exact ⟨rfl, hc⟩
  | cons x xs ih =>
    have : (p.step copy x).carried[c]? = p.carried[c]? ∧ c < (p.step copy x).carried.length := by
      cases x <;> simp only [Spec.step]
      case wrap g => exact ⟨List.getElem?_append_left hc, by rw [List.length_append]; omega⟩
      case wrapEmpty => exact ⟨List.getElem?_append_left hc, by rw [List.length_append]; omega⟩
      all_goals exact ⟨trivial, hc⟩
    obtain ⟨h1, h2⟩ := ih (p.step copy x) this.2
    exact ⟨h1.trans this.1, h2⟩

/-- The number of wrapped functions made by a history. -/
def wraps (ops : List (Op K V)) : Nat :=
  (ops.filter fun x => match x with
    | .wrap _ => true
    | .wrapEmpty => true
    | _ => false).length

theorem carried_length (copy : V → V) (ops : List (Op K V)) (p : Spec K V) : (p.run copy ops).carried.length = p.carried.length + wraps ops := by
  induction ops generalizing p with
  | nil => rfl
  | cons x xs ih =>
    have h1 : (p.run copy (x :: xs)) = (p.step copy x).run copy xs := rfl
    rw [h1, ih]
    cases x <;> simp [Spec.step, wraps] <;> omega

/-- C46 (partly): a function wrapped on `parent` and started on `child` after anything else has happened - in particular after further `Set`s of the parent - sees for every key
the value, copied, that the parent had when wrapping; proved if no wrapped function is run twice. -/
theorem inherits_partial (copy : V → V) (before between after : List (Op K V)) (parent child : Nat) (k : K)
    (hn : (entered (before ++ Op.wrap parent :: between ++ Op.enter child (wraps before) :: after)).Nodup)
    (ho : ∀ x ∈ after, about x ≠ some child) :
    get (run copy start (before ++ Op.wrap parent :: between ++ Op.enter child (wraps before) :: after)) child k =
      (get (run copy start before) parent k).map copy := by
  rw [(private_storage_partial copy _ hn child k).1]
  have hn1 : (entered before).Nodup := by
    rw [List.append_assoc, enter_sublist] at hn
    exact (List.nodup_append.mp hn).1
  rw [(private_storage_partial copy _ hn1 parent k).1]
  have hrun : (Spec.start : Spec K V).run copy (before ++ Op.wrap parent :: between ++ Op.enter child (wraps before) :: after) =
      (((((Spec.start : Spec K V).run copy before).step copy (.wrap parent)).run copy between).step copy (.enter child (wraps before))).run copy after := by
    simp [Spec.run, List.foldl_append]
  rw [hrun, spec_others copy after _ child ho]
  generalize hp : (Spec.start : Spec K V).run copy before = p
  have hlen : wraps before = p.carried.length := by
    rw [← hp, carried_length]
    simp [Spec.start]
  have hcp := carried_prefix copy between (p.step copy (.wrap parent)) (wraps before) (by simp [Spec.step, hlen])
  simp only [Spec.step, true_and] at hcp ⊢
  rw [if_pos hcp.2, hcp.1, hlen]
  simp

/-- Parent 1 has 5 under key 0; sets 6 after wrapping; the child sees 5. -/
example : get (run (· + 100) start ([.reset 1 (fun _ => none), .set 1 0 5] ++ Op.wrap 1 :: [.set 1 0 6] ++ Op.enter 2 (wraps ([.reset 1 (fun _ => none), .set 1 0 5] : List (Op Nat Nat))) :: [] : List (Op Nat Nat))) 2 0 =
    some 105 := by decide

example : (entered ([.reset 1 (fun _ => none), .set 1 0 5] ++ Op.wrap 1 :: [.set 1 0 6] ++ Op.enter 2 (wraps ([.reset 1 (fun _ => none), .set 1 0 5] : List (Op Nat Nat))) :: [] : List (Op Nat Nat))).Nodup := by decide

/-- C46 (partly): whatever a child does is invisible to the parent. -/
theorem parent_unaffected_partial (copy : V → V) (before child : List (Op K V)) (parent : Nat) (k : K) (hn : (entered (before ++ child)).Nodup)
    (ho : ∀ x ∈ child, about x ≠ some parent) :
    get (run copy start (before ++ child)) parent k = get (run copy start before) parent k := by
  rw [(private_storage_partial copy _ hn parent k).1]
  have hn1 : (entered before).Nodup := by
    rw [enter_sublist] at hn
    exact (List.nodup_append.mp hn).1
  rw [(private_storage_partial copy _ hn1 parent k).1]
  have hrun : (Spec.start : Spec K V).run copy (before ++ child) = ((Spec.start : Spec K V).run copy before).run copy child := by
    simp [Spec.run, List.foldl_append]
  rw [hrun, spec_others copy child _ parent ho]

/-- C46: when the wrapped function has ended, the goroutine has no storage, whatever else happens elsewhere and however often functions are run. -/
theorem gone_after (copy : V → V) (before others : List (Op K V)) (g : Nat) (ho : ∀ x ∈ others, about x ≠ some g) :
    isGlsEnabled (run copy start (before ++ Op.leave g :: others)) g = false := by
  have hrun : run copy start (before ++ Op.leave g :: others) = run copy (step copy (run copy start before) (.leave g)) others := by
    simp [run, List.foldl_append]
  rw [hrun]
  have hstep : ∀ (ops : List (Op K V)) (s : St K V), (∀ x ∈ ops, about x ≠ some g) → getGls s g = none → getGls (run copy s ops) g = none := by
    intro ops
    induction ops with
    | nil => intro s _ h; exact h
    | cons x xs ih =>
      intro s ho h
      refine ih (step copy s x) (fun y hy => ho y (List.mem_cons_of_mem _ hy)) ?_
      have hx := ho x (List.mem_cons_self ..)
      cases x with
      | reset g' m => simp only [about, ne_eq, Option.some.injEq] at hx; simp only [step, getGls_put, if_neg (Ne.symm hx), h]
      | delete g' => simp only [about, ne_eq, Option.some.injEq] at hx; simp only [step, getGls_put, if_neg (Ne.symm hx), h]
      | leave g' => simp only [about, ne_eq, Option.some.injEq] at hx; simp only [step, getGls_put, if_neg (Ne.symm hx), h]
      | wrap g' => exact h
      | wrapEmpty => exact h
      | set g' k v =>
        simp only [step]
        split
        · exact h
        · exact h
      | enter g' c =>
        simp only [about, ne_eq, Option.some.injEq] at hx
        simp only [step]
        split
        · simp only [getGls_put, if_neg (Ne.symm hx), h]
        · simp only [getGls_put, if_neg (Ne.symm hx), h]
        · exact h
  unfold isGlsEnabled
  rw [hstep others _ ho]
  · rfl
  · simp only [step, getGls_put, if_true]

/-- C46 is false if a wrapped function is run again: the second run sees what the first run set, though the parent never had it. -/
theorem second_run_sees_first :
    get (run id start ([.reset 1 (fun _ => none), .wrap 1, .enter 2 0, .set 2 7 70, .leave 2, .enter 3 0] : List (Op Nat Nat))) 3 7 = some 70 ∧
    get (run id start ([.reset 1 (fun _ => none)] : List (Op Nat Nat))) 1 7 = none := by decide

/-- C45 is false if a wrapped function runs on two goroutines at a time: what one sets the other sees. -/
theorem two_runs_share :
    get (run id start ([.reset 1 (fun _ => none), .wrap 1, .enter 2 0, .enter 3 0, .set 2 7 70] : List (Op Nat Nat))) 3 7 = some 70 := by decide

end Verif.Gls
