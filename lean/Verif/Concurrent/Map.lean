import Verif.Basic

/-!
# C47: the lock based map

Model of concurrent/go_below_19.go.  (From Go 1.9 on, `Map` is `sync.Map` of the standard library, which is not modelled.)  Any number of goroutines interleave
between acquiring the lock, accessing the map, and releasing the lock.  The map access itself is taken to be a single step; `no_race` shows that
no other access can overlap a write.
-/

namespace Verif.ConcMap

variable {K V : Type} [DecidableEq K]

/-! ### Model -/

/-- Where a goroutine stands in `Load` (go_below_19.go 18-23) or `Store` (25-29). -/
inductive Pc (K V : Type)
  | idle
  /-- Wants the read lock, 19. -/
  | rlock (k : K)
  /-- Holds the read lock, about to read, 20. -/
  | read (k : K)
  /-- Has read, about to release, 21. -/
  | runlock (k : K) (r : Option V)
  /-- Wants the lock, 26. -/
  | lock (k : K) (v : V)
  /-- Holds the lock, about to write, 27. -/
  | write (k : K) (v : V)
  /-- Has written, about to release, 28. -/
  | unlock (k : K) (v : V)

/-- The operations in the order in which they take effect (go_below_19.go 21 and 28). -/
inductive Eff (K V : Type)
  | load (t : Nat) (k : K) (r : Option V)
  | store (t : Nat) (k : K) (v : V)

/-- `readers` and `writer` are the `sync.RWMutex`; `effects` records accesses to the map, for the specification only (go_below_19.go 7-10). -/
structure St (K V : Type) where
  data : K → Option V
  readers : List Nat
  writer : Option Nat
  pc : Nat → Pc K V
  effects : List (Eff K V)

/-- A step of goroutine `t` (go_below_19.go 18-29). -/
inductive Step (K V : Type)
  | load (t : Nat) (k : K)
  | store (t : Nat) (k : K) (v : V)
  | go (t : Nat)

/-- Moves goroutine `t` (go_below_19.go 18-29). -/
def move (s : St K V) (t : Nat) (p : Pc K V) : Nat → Pc K V := fun u => if u = t then p else s.pc u

/-- One step; a goroutine waiting for the lock cannot go on while it is taken (go_below_19.go 18-29). -/
def step (s : St K V) : Step K V → Option (St K V)
  | .load t k => match s.pc t with
    | .idle => some { s with pc := move s t (.rlock k) }
    | _ => none
  | .store t k v => match s.pc t with
    | .idle => some { s with pc := move s t (.lock k v) }
    | _ => none
  | .go t => match s.pc t with
    | .idle => none
    | .rlock k => if s.writer = none then some { s with readers := t :: s.readers, pc := move s t (.read k) } else none
    | .read k => some { s with pc := move s t (.runlock k (s.data k)), effects := s.effects ++ [.load t k (s.data k)] }
    | .runlock _ _ => some { s with readers := s.readers.erase t, pc := move s t .idle }
    | .lock k v => if s.writer = none ∧ s.readers = [] then some { s with writer := some t, pc := move s t (.write k v) } else none
    | .write k v => some { s with data := fun k' => if k' = k then some v else s.data k', pc := move s t (.unlock k v),
                                  effects := s.effects ++ [.store t k v] }
    | .unlock _ _ => some { s with writer := none, pc := move s t .idle }

/-- A run (go_below_19.go 18-29). -/
def run (s : St K V) : List (Step K V) → Option (St K V)
  | [] => some s
  | x :: xs => (step s x).bind fun s => run s xs

/-- `NewMap`, go_below_19.go 12-16. -/
def start : St K V := { data := fun _ => none, readers := [], writer := none, pc := fun _ => .idle, effects := [] }

/-! ### Specification -/

/-- The latest value stored under a key. -/
def latest : List (Eff K V) → K → Option V
  | [], _ => none
  | .load _ _ _ :: rest, k => latest rest k
  | .store _ k' v :: rest, k => (latest rest k).or (if k = k' then some v else none)

/-- Every `Load` returns what was stored last before it. -/
def Sequential (h : List (Eff K V)) : Prop := ∀ pre t k r post, h = pre ++ Eff.load t k r :: post → r = latest pre k

/-! ### Proofs -/

theorem latest_append (h g : List (Eff K V)) (k : K) : latest (h ++ g) k = (latest g k).or (latest h k) := by
  induction h with
  | nil => simp [latest]
  | cons x h ih =>
    cases x with
    | load t k' r => simpa [latest] using ih
    | store t k' v =>
      simp only [List.cons_append, latest, ih]
      cases latest g k <;> simp

/-- The lock is held by those who are in a critical section. -/
structure Inv (s : St K V) : Prop where
  data : ∀ k, s.data k = latest s.effects k
  seq : Sequential s.effects
  reader : ∀ t, t ∈ s.readers ↔ (∃ k, s.pc t = .read k) ∨ (∃ k r, s.pc t = .runlock k r)
  writer : ∀ t, s.writer = some t ↔ (∃ k v, s.pc t = .write k v) ∨ (∃ k v, s.pc t = .unlock k v)
  excl : s.writer ≠ none → s.readers = []
  nodup : s.readers.Nodup

theorem inv_start : Inv (start : St K V) := by
  refine ⟨by intro k; rfl, ?_, by simp [start], by simp [start], by simp [start], by simp [start]⟩
  intro pre t k r post h
  simp [start] at h

theorem seq_load (h : List (Eff K V)) (t : Nat) (k : K) (hs : Sequential h) : Sequential (h ++ [Eff.load t k (latest h k)]) := by
  intro pre u k' r post he
  rcases List.eq_nil_or_concat post with rfl | ⟨post', y, rfl⟩
  · have h2 := List.append_inj' he rfl
    obtain ⟨h3, h4⟩ := h2
    simp only [List.cons.injEq, Eff.load.injEq, and_true] at h4
    obtain ⟨_, rfl, rfl⟩ := h4
    rw [h3]
  · have he' : h ++ [Eff.load t k (latest h k)] = (pre ++ Eff.load u k' r :: post') ++ [y] := by rw [he]; simp
    have h2 := List.append_inj' he' rfl
    exact hs pre u k' r post' h2.1

theorem seq_store (h : List (Eff K V)) (t : Nat) (k : K) (v : V) (hs : Sequential h) : Sequential (h ++ [Eff.store t k v]) := by
  intro pre u k' r post he
  rcases List.eq_nil_or_concat post with rfl | ⟨post', y, rfl⟩
  · have h2 := List.append_inj' he rfl
    simp at h2
  · have he' : h ++ [Eff.store t k v] = (pre ++ Eff.load u k' r :: post') ++ [y] := by rw [he]; simp
    have h2 := List.append_inj' he' rfl
    exact hs pre u k' r post' h2.1

theorem inv_step (s s' : St K V) (x : Step K V) (h : step s x = some s') (hi : Inv s) : Inv s' := by
  obtain ⟨h1, h2, h3, h4, h5, h6⟩ := hi
  -- a move between places outside the critical sections
  have outside : ∀ t p, (∀ k, s.pc t ≠ .read k) → (∀ k r, s.pc t ≠ .runlock k r) → (∀ k v, s.pc t ≠ .write k v) → (∀ k v, s.pc t ≠ .unlock k v) →
      (∀ k, p ≠ .read k) → (∀ k r, p ≠ .runlock k r) → (∀ k v, p ≠ .write k v) → (∀ k v, p ≠ .unlock k v) →
      Inv { s with pc := move s t p } := by
    intro t p a1 a2 a3 a4 b1 b2 b3 b4
    refine ⟨h1, h2, ?_, ?_, h5, h6⟩
    · intro u
      simp only [move]
      by_cases hu : u = t
      · subst hu
        rw [h3]
        simp [a1, a2, b1, b2]
      · simp only [hu, if_false]; exact h3 u
    · intro u
      simp only [move]
      by_cases hu : u = t
      · subst hu
        rw [h4]
        simp [a3, a4, b3, b4]
      · simp only [hu, if_false]; exact h4 u
  cases x with
  | load t k =>
    simp only [step] at h
    split at h
    · rename_i hp
      injection h with h; subst h
      apply outside <;> simp [hp]
    · cases h
  | store t k v =>
    simp only [step] at h
    split at h
    · rename_i hp
      injection h with h; subst h
      apply outside <;> simp [hp]
    · cases h
  | go t =>
    simp only [step] at h
    split at h
    · cases h
    · rename_i k hp
      split at h
      · rename_i hw
        injection h with h; subst h
        refine ⟨h1, h2, ?_, ?_, ?_, ?_⟩
        · intro u
          simp only [move, List.mem_cons]
          by_cases hu : u = t
          · subst hu; simp
          · simp only [hu, if_false, false_or]; exact h3 u
        · intro u
          simp only [move]
          by_cases hu : u = t
          · subst hu; rw [hw]; simp
          · simp only [hu, if_false]; exact h4 u
        · intro hne; exact absurd hw hne
        · rw [List.nodup_cons]
          refine ⟨?_, h6⟩
          rw [h3, hp]
          simp
      · cases h
    · rename_i k hp
      injection h with h; subst h
      refine ⟨?_, ?_, ?_, ?_, h5, h6⟩
      · intro k'
        simp only
        rw [latest_append, h1 k']
        simp [latest]
      · simp only
        rw [h1 k]
        exact seq_load _ _ _ h2
      · intro u
        simp only [move]
        by_cases hu : u = t
        · subst hu
          rw [h3, hp]
          simp
        · simp only [hu, if_false]; exact h3 u
      · intro u
        simp only [move]
        by_cases hu : u = t
        · subst hu
          rw [h4, hp]
          simp
        · simp only [hu, if_false]; exact h4 u
    · rename_i k r hp
      injection h with h; subst h
      refine ⟨h1, h2, ?_, ?_, ?_, h6.erase _⟩
      · intro u
        simp only [move]
        rw [h6.mem_erase_iff]
        by_cases hu : u = t
        · subst hu; simp
        · simp only [hu, if_false, ne_eq, not_false_eq_true, true_and]; exact h3 u
      · intro u
        simp only [move]
        by_cases hu : u = t
        · subst hu
          rw [h4, hp]
          simp
        · simp only [hu, if_false]; exact h4 u
      · intro hne
        simp only at hne ⊢
        rw [h5 hne]
        rfl
    · rename_i k v hp
      split at h
      · rename_i hw
        injection h with h; subst h
        refine ⟨h1, h2, ?_, ?_, fun _ => hw.2, h6⟩
        · intro u
          simp only [move]
          by_cases hu : u = t
          · subst hu
            rw [h3, hp]
            simp
          · simp only [hu, if_false]; exact h3 u
        · intro u
          simp only [move, Option.some.injEq]
          by_cases hu : u = t
          · subst hu; simp
          · have := h4 u
            rw [hw.1] at this
            simp only [hu, if_false]
            constructor
            · intro he; exact absurd he.symm hu
            · intro hr; exact absurd (this.mpr hr) (by simp)
      · cases h
    · rename_i k v hp
      injection h with h; subst h
      refine ⟨?_, seq_store _ _ _ _ h2, ?_, ?_, h5, h6⟩
      · intro k'
        simp only
        rw [latest_append, ← h1 k']
        by_cases hk : k' = k
        · simp [latest, hk]
        · simp [latest, hk]
      · intro u
        simp only [move]
        by_cases hu : u = t
        · subst hu
          rw [h3, hp]
          simp
        · simp only [hu, if_false]; exact h3 u
      · intro u
        simp only [move]
        by_cases hu : u = t
        · subst hu
          rw [h4, hp]
          simp
        · simp only [hu, if_false]; exact h4 u
    · rename_i k v hp
      have hwt : s.writer = some t := (h4 t).mpr (Or.inr ⟨k, v, hp⟩)
      injection h with h; subst h
      refine ⟨h1, h2, ?_, ?_, (by intro hne; exact absurd rfl hne), h6⟩
      · intro u
        simp only [move]
        by_cases hu : u = t
        · subst hu
          rw [h3, hp]
          simp
        · simp only [hu, if_false]; exact h3 u
      · intro u
        simp only [move]
        by_cases hu : u = t
        · subst hu; simp
        · simp only [hu, if_false]
          constructor
          · intro he; cases he
          · intro hr
            have := (h4 u).mpr hr
            rw [hwt] at this
            simp only [Option.some.injEq] at this
            exact absurd this.symm hu

theorem inv_run (xs : List (Step K V)) (s s' : St K V) (h : run s xs = some s') (hi : Inv s) : Inv s' := by
  induction xs generalizing s with
  | nil =>
    simp only [run, Option.some.injEq] at h
    subst h
    exact hi
  | cons x xs ih =>
    simp only [run, Option.bind_eq_some_iff] at h
    obtain ⟨t, ht, h⟩ := h
    exact ih t h (inv_step s t x ht hi)

/-- C47: in every interleaving, every `Load` gives the value of the latest `Store` for its key in the order in which the operations take effect, or nothing. -/
theorem loads_latest (xs : List (Step K V)) (s : St K V) (h : run start xs = some s) : Sequential s.effects :=
  (inv_run xs start s h inv_start).seq

/-- C47: a write never overlaps another access: whoever is about to write is alone. -/
theorem no_race (xs : List (Step K V)) (s : St K V) (h : run start xs = some s) (t u : Nat) (k : K) (v : V) (ht : s.pc t = .write k v) (hu : u ≠ t) :
    (∀ k, s.pc u ≠ .read k) ∧ (∀ k v, s.pc u ≠ .write k v) := by
  obtain ⟨_, _, h3, h4, h5, _⟩ := inv_run xs start s h inv_start
  have hw : s.writer = some t := (h4 t).mpr (Or.inl ⟨k, v, ht⟩)
  constructor
  · intro k' hr
    have := (h3 u).mpr (Or.inl ⟨k', hr⟩)
    rw [h5 (by rw [hw]; simp)] at this
    cases this
  · intro k' v' hr
    have := (h4 u).mpr (Or.inl ⟨k', v', hr⟩)
    rw [hw] at this
    simp only [Option.some.injEq] at this
    exact hu this.symm

/-- C47: what `Load` hands back is what it read, and an operation takes effect between its call and its return: a goroutine that is about to return has its effect as the
last one it made. -/
theorem returns_effect (xs : List (Step K V)) (s : St K V) (h : run start xs = some s) (t : Nat) :
    (∀ k r, s.pc t = .runlock k r → ∃ pre post, s.effects = pre ++ Eff.load t k r :: post ∧
      ∀ e ∈ post, (∀ k r, e ≠ Eff.load t k r) ∧ (∀ k v, e ≠ Eff.store t k v)) ∧
    (∀ k v, s.pc t = .unlock k v → ∃ pre post, s.effects = pre ++ Eff.store t k v :: post ∧
      ∀ e ∈ post, (∀ k r, e ≠ Eff.load t k r) ∧ (∀ k v, e ≠ Eff.store t k v)) := by
  have key : ∀ (xs : List (Step K V)) (s s' : St K V), run s xs = some s' →
      ((∀ k r, s.pc t = .runlock k r → ∃ pre post, s.effects = pre ++ Eff.load t k r :: post ∧ ∀ e ∈ post, (∀ k r, e ≠ Eff.load t k r) ∧ (∀ k v, e ≠ Eff.store t k v)) ∧
       (∀ k v, s.pc t = .unlock k v → ∃ pre post, s.effects = pre ++ Eff.store t k v :: post ∧ ∀ e ∈ post, (∀ k r, e ≠ Eff.load t k r) ∧ (∀ k v, e ≠ Eff.store t k v))) →
      ((∀ k r, s'.pc t = .runlock k r → ∃ pre post, s'.effects = pre ++ Eff.load t k r :: post ∧ ∀ e ∈ post, (∀ k r, e ≠ Eff.load t k r) ∧ (∀ k v, e ≠ Eff.store t k v)) ∧
       (∀ k v, s'.pc t = .unlock k v → ∃ pre post, s'.effects = pre ++ Eff.store t k v :: post ∧ ∀ e ∈ post, (∀ k r, e ≠ Eff.load t k r) ∧ (∀ k v, e ≠ Eff.store t k v))) := by
    intro xs
    induction xs with
    | nil =>
      intro s s' h hi
      simp only [run, Option.some.injEq] at h
      subst h
      exact hi
    | cons x xs ih =>
      intro s s' h hi
      simp only [run, Option.bind_eq_some_iff] at h
      obtain ⟨m, hm, h⟩ := h
      refine ih m s' h ?_
      -- a step of t to a place other than the two, or of another goroutine without effect
      have plain : ∀ (u : Nat) (p : Pc K V) (m : St K V), m.pc = move s u p → m.effects = s.effects → (∀ k r, p ≠ .runlock k r) → (∀ k v, p ≠ .unlock k v) →
          ((∀ k r, m.pc t = .runlock k r → ∃ pre post, m.effects = pre ++ Eff.load t k r :: post ∧ ∀ e ∈ post, (∀ k r, e ≠ Eff.load t k r) ∧ (∀ k v, e ≠ Eff.store t k v)) ∧
           (∀ k v, m.pc t = .unlock k v → ∃ pre post, m.effects = pre ++ Eff.store t k v :: post ∧ ∀ e ∈ post, (∀ k r, e ≠ Eff.load t k r) ∧ (∀ k v, e ≠ Eff.store t k v))) := by
        intro u p m hpc hef n1 n2
        rw [hpc, hef]
        simp only [move]
        by_cases hu : t = u
        · simp only [hu, if_true]
          exact ⟨fun k r he => absurd he (n1 k r), fun k v he => absurd he (n2 k v)⟩
        · simp only [hu, if_false]
          exact hi
      have extend : ∀ (e : Eff K V) (l pre post : List (Eff K V)) (e0 : Eff K V), l = pre ++ e0 :: post → l ++ [e] = pre ++ e0 :: (post ++ [e]) := by
        intro e l pre post e0 he
        rw [he]; simp
      cases x with
      | load u k =>
        simp only [step] at hm
        split at hm
        · injection hm with hm; subst hm
          exact plain u _ _ rfl rfl (by simp) (by simp)
        · cases hm
      | store u k v =>
        simp only [step] at hm
        split at hm
        · injection hm with hm; subst hm
          exact plain u _ _ rfl rfl (by simp) (by simp)
        · cases hm
      | go u =>
        simp only [step] at hm
        split at hm
        · cases hm
        · split at hm
          · injection hm with hm; subst hm
            exact plain u _ _ rfl rfl (by simp) (by simp)
          · cases hm
        · rename_i k hp
          injection hm with hm; subst hm
          simp only [move]
          by_cases hu : t = u
          · subst hu
            simp only [if_true]
            refine ⟨?_, by simp⟩
            intro k' r' he
            simp only [Pc.runlock.injEq] at he
            obtain ⟨rfl, rfl⟩ := he
            exact ⟨s.effects, [], rfl, by simp⟩
          · simp only [hu, if_false]
            constructor
            · intro k' r' he
              obtain ⟨pre, post, h1, h2⟩ := hi.1 k' r' he
              refine ⟨pre, post ++ [Eff.load u k (s.data k)], extend _ _ _ _ _ h1, ?_⟩
              intro e hem
              rcases List.mem_append.mp hem with hem | hem
              · exact h2 e hem
              · simp only [List.mem_singleton] at hem
                subst hem
                exact ⟨(by intro k r he; injection he with he _ _; exact hu he.symm), (by intro k v he; cases he)⟩
            · intro k' v' he
              obtain ⟨pre, post, h1, h2⟩ := hi.2 k' v' he
              refine ⟨pre, post ++ [Eff.load u k (s.data k)], extend _ _ _ _ _ h1, ?_⟩
              intro e hem
              rcases List.mem_append.mp hem with hem | hem
              · exact h2 e hem
              · simp only [List.mem_singleton] at hem
                subst hem
                exact ⟨(by intro k r he; injection he with he _ _; exact hu he.symm), (by intro k v he; cases he)⟩
        · injection hm with hm; subst hm
          exact plain u _ _ rfl rfl (by simp) (by simp)
        · split at hm
          · injection hm with hm; subst hm
            exact plain u _ _ rfl rfl (by simp) (by simp)
          · cases hm
        · rename_i k v hp
          injection hm with hm; subst hm
          simp only [move]
          by_cases hu : t = u
          · subst hu
            simp only [if_true]
            refine ⟨by simp, ?_⟩
            intro k' v' he
            simp only [Pc.unlock.injEq] at he
            obtain ⟨rfl, rfl⟩ := he
            exact ⟨s.effects, [], rfl, by simp⟩
          · simp only [hu, if_false]
            constructor
            · intro k' r' he
              obtain ⟨pre, post, h1, h2⟩ := hi.1 k' r' he
              refine ⟨pre, post ++ [Eff.store u k v], extend _ _ _ _ _ h1, ?_⟩
              intro e hem
              rcases List.mem_append.mp hem with hem | hem
              · exact h2 e hem
              · simp only [List.mem_singleton] at hem
                subst hem
                exact ⟨(by intro k r he; cases he), (by intro k v he; injection he with he _ _; exact hu he.symm)⟩
            · intro k' v' he
              obtain ⟨pre, post, h1, h2⟩ := hi.2 k' v' he
              refine ⟨pre, post ++ [Eff.store u k v], extend _ _ _ _ _ h1, ?_⟩
              intro e hem
              rcases List.mem_append.mp hem with hem | hem
              · exact h2 e hem
              · simp only [List.mem_singleton] at hem
                subst hem
                exact ⟨(by intro k r he; cases he), (by intro k v he; injection he with he _ _; exact hu he.symm)⟩
        · injection hm with hm; subst hm
          exact plain u _ _ rfl rfl (by simp) (by simp)
  exact key xs start s h ⟨by simp [start], by simp [start]⟩

/-- Two goroutines store under the same key while a third reads: the reader waits for the first, and reads before the second. -/
example : ((run (start : St Nat Nat) [.store 1 5 10, .load 3 5, .go 1, .store 2 5 20, .go 1, .go 1, .go 3, .go 3, .go 3, .go 2, .go 2]).map
    (fun s => (s.data 5, s.effects.length))) = some (some 20, 3) := by decide

/-- A goroutine about to write, as in `no_race`. -/
example : (run (start : St Nat Nat) [.store 1 5 10, .load 3 5, .go 1]).map (fun s => match s.pc 1 with | .write _ _ => true | _ => false) = some true := by decide

end Verif.ConcMap
