import Verif.Basic

/-!
# C35 and C36: the asynchronous writer

Model of countlog/output/async/async.go as a state machine whose steps interleave freely.  Buffers live in
a memory, so that reuse of the caller's buffer and the copy in `Write` are visible.  Sending and receiving
on the channel are atomic steps, as Go guarantees.
-/

namespace Verif.Async

/-! ### Model -/

/-- A buffer: the caller's own, or a copy made by `Write` (async.go 104-116). -/
inductive Addr where
  | own (caller : Nat)
  | copy (k : Nat)
  deriving DecidableEq, Repr

/-- Where `asyncWrite` (async.go 73-102) is: in the outer loop; in the inner loop, with the timer running or
fired; ended. -/
inductive Worker where
  | looping
  | draining (fired : Bool)
  | ended
  deriving DecidableEq, Repr

/-- Where the caller of `Close` (async.go 118-125) is. -/
inductive Closing where
  | no
  | waiting
  | returned
  deriving DecidableEq, Repr

/-- The writer (async.go 13-22) and what surrounds it.  `received` is what the downstream writer was given,
`dropped` what `onMessageDropped` was called with.  The remaining fields only record the history:
`submitted` the calls of `Write` with the content at the time of the call, `accepted` what entered the queue,
`beforeClose` how much had when `Close` was called, `timedOut` and `panicked` how the worker ended. -/
structure State where
  cap : Nat
  heap : Addr → Bytes
  next : Nat
  queue : List Addr
  sending : Nat → Option Addr
  worker : Worker
  closing : Closing
  received : List Bytes
  dropped : List (Nat × Bytes)
  submitted : List (Nat × Bytes)
  accepted : List (Nat × Bytes)
  beforeClose : Nat
  timedOut : Bool
  panicked : Bool

/-- `NewAsyncWriter`, async.go 36-71, with a queue of `cap` messages (1024 if the configuration says 0). -/
def init (cap : Nat) : State where
  cap := if cap = 0 then 1024 else cap
  heap := fun _ => []
  next := 0
  queue := []
  sending := fun _ => none
  worker := .looping
  closing := .no
  received := []
  dropped := []
  submitted := []
  accepted := []
  beforeClose := 0
  timedOut := false
  panicked := false

/-- The steps (async.go 73-125). -/
inductive Step where
  /-- A caller changes the content of its buffer. -/
  | reuse (caller : Nat) (content : Bytes)
  /-- `blockingQueueWriter.Write` is called: the copy at async.go 105. -/
  | write (caller : Nat)
  /-- The send at 105 succeeds. -/
  | send (caller : Nat)
  /-- `nonBlockingQueueWriter.Write`, 109-116. -/
  | tryWrite (caller : Nat)
  /-- The worker receives a message and writes it downstream (84-88 or 95-99); the downstream
  writer returns (with or without an error) or panics. -/
  | deliver (panics : Bool)
  /-- The worker sees the context done, 76-78. -/
  | notice
  /-- One second has passed, 78. -/
  | fire
  /-- 81-83. -/
  | giveUp
  /-- 89-91. -/
  | drained
  /-- `Close` is called, 119. -/
  | close
  /-- `StopAndWaitForever` returns, 119: only after the worker has ended (`Verif.Concurrent.wait_complete`). -/
  | closeReturns
  deriving DecidableEq, Repr

/-- `append([]byte(nil), buf...)`, async.go 105 and 111. -/
def State.copyOf (s : State) (p : Nat) : State :=
  { s with
    heap := fun a => if a = .copy s.next then s.heap (.own p) else s.heap a
    next := s.next + 1
    submitted := s.submitted ++ [(p, s.heap (.own p))] }

/-- One step; `none` if it cannot take place (async.go 73-125). -/
def step (s : State) : Step → Option State
  | .reuse p c => some { s with heap := fun a => if a = .own p then c else s.heap a }
  | .write p =>
    if s.sending p = none then
      some { s.copyOf p with sending := fun q => if q = p then some (.copy s.next) else s.sending q }
    else none
  | .send p =>
    match s.sending p with
    | none => none
    | some a =>
      if s.queue.length < s.cap then
        some { s with
          queue := s.queue ++ [a]
          sending := fun q => if q = p then none else s.sending q
          accepted := s.accepted ++ [(p, s.heap a)] }
      else none
  | .tryWrite p =>
    if s.sending p = none then
      let t := s.copyOf p
      if s.queue.length < s.cap then
        some { t with queue := s.queue ++ [.copy s.next], accepted := s.accepted ++ [(p, t.heap (.copy s.next))] }
      else some { t with dropped := s.dropped ++ [(p, t.heap (.own p))] }
    else none
  | .deliver panics =>
    match s.queue with
    | [] => none
    | a :: q =>
      if s.worker = .ended then none
      else some { s with
        queue := q
        received := s.received ++ [s.heap a]
        worker := if panics then .ended else s.worker
        panicked := s.panicked || panics }
  | .notice => if s.worker = .looping ∧ s.closing ≠ .no then some { s with worker := .draining false } else none
  | .fire => if s.worker = .draining false then some { s with worker := .draining true } else none
  | .giveUp => if s.worker = .draining true then some { s with worker := .ended, timedOut := true } else none
  | .drained => if s.worker = .draining false ∧ s.queue = [] then some { s with worker := .ended } else none
  | .close => if s.closing = .no then some { s with closing := .waiting, beforeClose := s.accepted.length } else none
  | .closeReturns => if s.closing = .waiting ∧ s.worker = .ended then some { s with closing := .returned } else none

/-- A sequence of steps (async.go 73-125). -/
def run (s : State) : List Step → Option State
  | [] => some s
  | x :: xs => (step s x).bind fun s => run s xs

/-- A writer with a blocking queue: `tryWrite` is not used (async.go 104-107). -/
def Blocking (xs : List Step) : Prop := ∀ x ∈ xs, ∀ p, x ≠ .tryWrite p

/-- A writer with a non-blocking queue: `write` and `send` are not used (async.go 109-116). -/
def NonBlocking (xs : List Step) : Prop := ∀ x ∈ xs, ∀ p, x ≠ .write p ∧ x ≠ .send p

/-! ### Specification -/

/-- `c` consists of `a` and `b`, each in order. -/
inductive Merge {α : Type} : List α → List α → List α → Prop where
  | nil : Merge [] [] []
  | left {a b c : List α} (x : α) : Merge a b c → Merge (a ++ [x]) b (c ++ [x])
  | right {a b c : List α} (x : α) : Merge a b c → Merge a (b ++ [x]) (c ++ [x])

/-- What one caller did. -/
def of (p : Nat) (l : List (Nat × Bytes)) : List Bytes := (l.filter fun x => x.1 == p).map Prod.snd

/-! ### Proof -/

theorem of_append (p : Nat) (l m : List (Nat × Bytes)) : of p (l ++ m) = of p l ++ of p m := by simp [of]

theorem of_one (p q : Nat) (b : Bytes) : of p [(q, b)] = if q = p then [b] else [] := by
  unfold of
  by_cases h : q = p
  · subst h; simp
  · have : ¬ (q == p) = true := by simpa using h
    simp [h]

/-- Only copies made so far are queued or waiting to be. -/
def Old (s : State) (a : Addr) : Prop := ∃ k, a = .copy k ∧ k < s.next

structure Inv (s : State) : Prop where
  old : ∀ a ∈ s.queue, Old s a
  oldSending : ∀ p a, s.sending p = some a → Old s a
  flow : s.accepted.map Prod.snd = s.received ++ s.queue.map s.heap
  bound : s.queue.length ≤ s.cap
  close : s.beforeClose ≤ s.accepted.length
  ended : s.worker = .ended → s.timedOut = false → s.panicked = false → s.beforeClose ≤ s.received.length
  open_ : s.closing = .no → s.worker = .looping ∨ (s.worker = .ended ∧ s.panicked = true)
  returned : s.closing = .returned → s.worker = .ended

theorem inv_init (cap : Nat) : Inv (init cap) :=
  ⟨by simp [init], by simp [init], rfl, Nat.zero_le _, Nat.zero_le _, by simp [init], fun _ => Or.inl rfl, by simp [init]⟩

theorem copyOf_heap (s : State) (p : Nat) (a : Addr) (h : Old s a) : (s.copyOf p).heap a = s.heap a := by
  obtain ⟨k, rfl, hk⟩ := h
  have : Addr.copy k ≠ .copy s.next := by
    intro e
    injection e with e
    omega
  simp [State.copyOf, this]

theorem Old.mono {s t : State} {a : Addr} (h : Old s a) (hn : s.next ≤ t.next) : Old t a := by
  obtain ⟨k, e, hk⟩ := h
  exact ⟨k, e, Nat.lt_of_lt_of_le hk hn⟩

theorem length_flow {s : State} (h : s.accepted.map Prod.snd = s.received ++ s.queue.map s.heap) :
    s.accepted.length = s.received.length + s.queue.length := by
  have := congrArg List.length h
  simpa using this

theorem inv_step (s s' : State) (x : Step) (h : Inv s) (hs : step s x = some s') : Inv s' := by
  obtain ⟨ho, hos, hf, hb, hc, he, hop, hret⟩ := h
  have hlen := length_flow hf
  cases x with
  | reuse p c =>
    simp only [step, Option.some.injEq] at hs
    subst hs
    refine ⟨ho, hos, ?_, hb, hc, he, hop, hret⟩
    simp only
    rw [hf]
    congr 1
    apply List.map_congr_left
    intro a ha
    obtain ⟨k, rfl, _⟩ := ho a ha
    simp
  | write p =>
    simp only [step] at hs
    split at hs
    · injection hs with hs
      subst hs
      refine ⟨fun a ha => (ho a ha).mono (by simp [State.copyOf]), ?_, ?_, hb, hc, he, hop, hret⟩
      · intro q a hq
        simp only at hq
        split at hq
        · injection hq with hq
          subst hq
          exact ⟨s.next, rfl, by simp [State.copyOf]⟩
        · exact (hos q a hq).mono (by simp [State.copyOf])
      · simp only [State.copyOf]
        rw [hf]
        congr 1
        apply List.map_congr_left
        intro a ha
        exact (copyOf_heap s p a (ho a ha)).symm
    · cases hs
  | send p =>
    simp only [step] at hs
    split at hs
    · cases hs
    · rename_i a hp
      split at hs
      · rename_i hlt
        injection hs with hs
        subst hs
        refine ⟨?_, ?_, ?_, ?_, ?_, he, hop, hret⟩
        · intro b hb'
          rcases List.mem_append.mp hb' with hb' | hb'
          · exact ho b hb'
          · simp only [List.mem_singleton] at hb'
            subst hb'
            exact hos p _ hp
        · intro q b hq
          simp only at hq
          split at hq
          · cases hq
          · exact hos q b hq
        · simp [hf]
        · simp only [List.length_append, List.length_singleton]; omega
        · simp only [List.length_append, List.length_singleton]; omega
      · cases hs
  | tryWrite p =>
    simp only [step] at hs
    split at hs
    · split at hs
      · rename_i hlt
        injection hs with hs
        subst hs
        refine ⟨?_, ?_, ?_, ?_, ?_, he, hop, hret⟩
        · intro b hb'
          rcases List.mem_append.mp hb' with hb' | hb'
          · exact (ho b hb').mono (by simp [State.copyOf])
          · simp only [List.mem_singleton] at hb'
            subst hb'
            exact ⟨s.next, rfl, by simp [State.copyOf]⟩
        · intro q a hq
          exact (hos q a hq).mono (by simp [State.copyOf])
        · simp only [List.map_append, List.map_cons, List.map_nil]
          have hm : s.queue.map s.heap = s.queue.map (s.copyOf p).heap :=
            List.map_congr_left fun a ha => (copyOf_heap s p a (ho a ha)).symm
          rw [hf, List.append_assoc, hm]
          rfl
        · simp only [List.length_append, List.length_singleton, State.copyOf]; omega
        · simp only [List.length_append, List.length_singleton, State.copyOf]; omega
      · injection hs with hs
        subst hs
        refine ⟨fun a ha => (ho a ha).mono (by simp [State.copyOf]), ?_, ?_, hb, hc, he, hop, hret⟩
        · intro q a hq
          exact (hos q a hq).mono (by simp [State.copyOf])
        · simp only [State.copyOf]
          rw [hf]
          congr 1
          apply List.map_congr_left
          intro a ha
          exact (copyOf_heap s p a (ho a ha)).symm
    · cases hs
  | deliver panics =>
    simp only [step] at hs
    split at hs
    · cases hs
    · rename_i a q hq
      split at hs
      · cases hs
      · rename_i hw
        injection hs with hs
        subst hs
        rw [hq] at ho hf hb
        refine ⟨fun b hb' => ho b (List.mem_cons_of_mem _ hb'), hos, ?_, ?_, hc, ?_, ?_, ?_⟩
        · simp [hf]
        · simp only [List.length_cons] at hb; simp only; omega
        · cases panics with
          | true => intro _ _ h; simp at h
          | false => intro h; simp only [Bool.false_eq_true, if_false] at h; exact absurd h hw
        · intro hno
          cases panics with
          | true => right; simp
          | false =>
            rcases hop hno with h | ⟨h, _⟩
            · left; simpa using h
            · exact absurd h hw
        · intro hr
          exact absurd (hret hr) hw
  | notice =>
    simp only [step] at hs
    split at hs
    · rename_i hw
      injection hs with hs
      subst hs
      refine ⟨ho, hos, hf, hb, hc, (by intro h; cases h), fun hno => absurd hno hw.2, ?_⟩
      intro hr
      have := hret hr
      rw [hw.1] at this
      cases this
    · cases hs
  | fire =>
    simp only [step] at hs
    split at hs
    · rename_i hw
      injection hs with hs
      subst hs
      refine ⟨ho, hos, hf, hb, hc, (by intro h; cases h), ?_, ?_⟩
      · intro hno
        rcases hop hno with h | ⟨h, _⟩ <;> rw [hw] at h <;> cases h
      · intro hr
        have := hret hr
        rw [hw] at this
        cases this
    · cases hs
  | giveUp =>
    simp only [step] at hs
    split at hs
    · rename_i hw
      injection hs with hs
      subst hs
      refine ⟨ho, hos, hf, hb, hc, (by intro _ h; cases h), ?_, fun _ => rfl⟩
      intro hno
      rcases hop hno with h | ⟨h, _⟩ <;> rw [hw] at h <;> cases h
    · cases hs
  | drained =>
    simp only [step] at hs
    split at hs
    · rename_i hw
      injection hs with hs
      subst hs
      refine ⟨ho, hos, hf, hb, hc, ?_, ?_, fun _ => rfl⟩
      · intro _ _ _
        simp only
        rw [hw.2] at hlen
        simp only [List.length_nil] at hlen
        omega
      · intro hno
        rcases hop hno with h | ⟨h, _⟩ <;> rw [hw.1] at h <;> cases h
    · cases hs
  | close =>
    simp only [step] at hs
    split at hs
    · rename_i hno
      injection hs with hs
      subst hs
      refine ⟨ho, hos, hf, hb, Nat.le_refl _, ?_, (by intro h; cases h), (by intro h; cases h)⟩
      intro hw _ hp
      rcases hop hno with h | ⟨_, h⟩
      · simp only at hw; rw [h] at hw; cases hw
      · simp only at hp; rw [h] at hp; cases hp
    · cases hs
  | closeReturns =>
    simp only [step] at hs
    split at hs
    · rename_i hw
      injection hs with hs
      subst hs
      exact ⟨ho, hos, hf, hb, hc, he, (by intro h; cases h), fun _ => hw.2⟩
    · cases hs

theorem inv_run : ∀ (xs : List Step) (s s' : State), Inv s → run s xs = some s' → Inv s' := by
  intro xs
  induction xs with
  | nil => intro s s' h hr; simp only [run, Option.some.injEq] at hr; subst hr; exact h
  | cons x xs ih =>
    intro s s' h hr
    rw [run] at hr
    cases hx : step s x with
    | none => rw [hx] at hr; cases hr
    | some t => rw [hx] at hr; exact ih t s' (inv_step s t x h hx) hr

/-- C35: in every interleaving with any number of callers, reusing their buffers as they
like, the downstream writer has been given exactly what entered the queue - with the content
at the time of the call - in order, except for what is still in the queue. -/
theorem delivered_in_order (cap : Nat) (xs : List Step) (s : State) (hrun : run (init cap) xs = some s) :
    ∃ pending, s.accepted.map Prod.snd = s.received ++ pending ∧ pending.length = s.queue.length :=
  ⟨s.queue.map s.heap, (inv_run xs _ _ (inv_init cap) hrun).flow, by simp⟩

/-- What a blocked caller is about to send. -/
def pendingOf (s : State) (p : Nat) : List Bytes :=
  match s.sending p with
  | none => []
  | some a => [s.heap a]

theorem blocking_step (s s' : State) (x : Step) (h : Inv s) (hs : step s x = some s') (hx : ∀ p, x ≠ .tryWrite p)
    (hd : s.dropped = []) (hp : ∀ p, of p s.submitted = of p s.accepted ++ pendingOf s p) :
    s'.dropped = [] ∧ ∀ p, of p s'.submitted = of p s'.accepted ++ pendingOf s' p := by
  cases x with
  | reuse q c =>
    simp only [step, Option.some.injEq] at hs
    subst hs
    refine ⟨hd, ?_⟩
    intro p
    rw [hp p]
    congr 1
    unfold pendingOf
    cases hsp : s.sending p with
    | none => simp
    | some a =>
      obtain ⟨k, rfl, _⟩ := h.oldSending p a hsp
      simp
  | write q =>
    simp only [step] at hs
    split at hs
    · rename_i hq
      injection hs with hs
      subst hs
      refine ⟨hd, ?_⟩
      intro p
      simp only [State.copyOf]
      rw [of_append, hp p, of_one, List.append_assoc]
      congr 1
      by_cases hqp : q = p
      · subst hqp
        simp [pendingOf, hq]
      · rw [if_neg hqp, List.append_nil]
        have : ¬ p = q := fun h => hqp h.symm
        simp only [pendingOf, if_neg this]
        cases hsp : s.sending p with
        | none => rfl
        | some a =>
          simp only
          have := copyOf_heap s q a (h.oldSending p a hsp)
          simp only [State.copyOf] at this
          rw [this]
    · cases hs
  | send q =>
    simp only [step] at hs
    split at hs
    · cases hs
    · rename_i a hq
      split at hs
      · injection hs with hs
        subst hs
        refine ⟨hd, ?_⟩
        intro p
        simp only
        rw [of_append, hp p, of_one, List.append_assoc]
        congr 1
        by_cases hqp : q = p
        · subst hqp
          simp [pendingOf, hq]
        · have : ¬ p = q := fun h => hqp h.symm
          simp [pendingOf, hqp, this]
      · cases hs
  | tryWrite q => exact absurd rfl (hx q)
  | deliver b =>
    simp only [step] at hs
    split at hs
    · cases hs
    · split at hs
      · cases hs
      · injection hs with hs; subst hs; exact ⟨hd, hp⟩
  | notice => simp only [step] at hs; split at hs <;> cases hs; exact ⟨hd, hp⟩
  | fire => simp only [step] at hs; split at hs <;> cases hs; exact ⟨hd, hp⟩
  | giveUp => simp only [step] at hs; split at hs <;> cases hs; exact ⟨hd, hp⟩
  | drained => simp only [step] at hs; split at hs <;> cases hs; exact ⟨hd, hp⟩
  | close => simp only [step] at hs; split at hs <;> cases hs; exact ⟨hd, hp⟩
  | closeReturns => simp only [step] at hs; split at hs <;> cases hs; exact ⟨hd, hp⟩

/-- C35: with a blocking queue nothing is dropped: what each caller submitted, with the
content at the time of the call, is what has entered the queue from it, in order, followed by
the one it may be waiting to send. -/
theorem blocking_loses_nothing (cap : Nat) (xs : List Step) (s : State) (hrun : run (init cap) xs = some s) (hb : Blocking xs) :
    s.dropped = [] ∧ ∀ p, of p s.submitted = of p s.accepted ++ pendingOf s p ∧ (pendingOf s p).length ≤ 1 := by
  have main : ∀ (xs : List Step) (s0 : State), Inv s0 → s0.dropped = [] →
      (∀ p, of p s0.submitted = of p s0.accepted ++ pendingOf s0 p) → Blocking xs → ∀ s, run s0 xs = some s →
      s.dropped = [] ∧ ∀ p, of p s.submitted = of p s.accepted ++ pendingOf s p := by
    intro xs
    induction xs with
    | nil => intro s0 _ hd hp _ s hr; simp only [run, Option.some.injEq] at hr; subst hr; exact ⟨hd, hp⟩
    | cons x xs ih =>
      intro s0 h hd hp hb s hr
      rw [run] at hr
      cases hx : step s0 x with
      | none => rw [hx] at hr; cases hr
      | some t =>
        rw [hx] at hr
        obtain ⟨hd', hp'⟩ := blocking_step s0 t x h hx (hb x (List.mem_cons_self ..)) hd hp
        exact ih t (inv_step s0 t x h hx) hd' hp' (fun y hy => hb y (List.mem_cons_of_mem _ hy)) s hr
  obtain ⟨h1, h2⟩ := main xs (init cap) (inv_init cap) rfl (fun p => rfl) hb s hrun
  refine ⟨h1, fun p => ⟨h2 p, ?_⟩⟩
  unfold pendingOf
  split <;> simp

/-- C35: with a non-blocking queue every submitted message either entered the queue or was
reported dropped, with its content, both in order. -/
theorem nonblocking_accounts (cap : Nat) (xs : List Step) (s : State) (hrun : run (init cap) xs = some s) (hn : NonBlocking xs) :
    Merge s.accepted s.dropped s.submitted := by
  have main : ∀ (xs : List Step) (s0 : State), NonBlocking xs → (∀ p, s0.sending p = none) →
      Merge s0.accepted s0.dropped s0.submitted → ∀ s, run s0 xs = some s → Merge s.accepted s.dropped s.submitted := by
    intro xs
    induction xs with
    | nil => intro s0 _ _ hm s hr; simp only [run, Option.some.injEq] at hr; subst hr; exact hm
    | cons x xs ih =>
      intro s0 hn hs hm s hr
      rw [run] at hr
      cases hx : step s0 x with
      | none => rw [hx] at hr; cases hr
      | some t =>
        rw [hx] at hr
        have hn' : NonBlocking xs := fun y hy => hn y (List.mem_cons_of_mem _ hy)
        have hxn := hn x (List.mem_cons_self ..)
        have goal : (∀ p, t.sending p = none) ∧ Merge t.accepted t.dropped t.submitted := by
          cases x with
          | write p => exact absurd rfl (hxn p).1
          | send p => exact absurd rfl (hxn p).2
          | reuse p c => simp only [step, Option.some.injEq] at hx; subst hx; exact ⟨hs, hm⟩
          | tryWrite p =>
            simp only [step, hs p, if_true] at hx
            have he : (s0.copyOf p).heap (.copy s0.next) = s0.heap (.own p) := by simp [State.copyOf]
            have he' : (s0.copyOf p).heap (.own p) = s0.heap (.own p) := by simp [State.copyOf]
            rw [he, he'] at hx
            split at hx
            · injection hx with hx
              subst hx
              exact ⟨hs, .left _ hm⟩
            · injection hx with hx
              subst hx
              exact ⟨hs, .right _ hm⟩
          | deliver b =>
            simp only [step] at hx
            split at hx
            · cases hx
            · split at hx
              · cases hx
              · injection hx with hx; subst hx; exact ⟨hs, hm⟩
          | notice => simp only [step] at hx; split at hx <;> cases hx; exact ⟨hs, hm⟩
          | fire => simp only [step] at hx; split at hx <;> cases hx; exact ⟨hs, hm⟩
          | giveUp => simp only [step] at hx; split at hx <;> cases hx; exact ⟨hs, hm⟩
          | drained => simp only [step] at hx; split at hx <;> cases hx; exact ⟨hs, hm⟩
          | close => simp only [step] at hx; split at hx <;> cases hx; exact ⟨hs, hm⟩
          | closeReturns => simp only [step] at hx; split at hx <;> cases hx; exact ⟨hs, hm⟩
        exact ih t hn' goal.1 goal.2 s hr
  exact main xs (init cap) hn (fun _ => rfl) .nil s hrun

theorem run_cap : ∀ (xs : List Step) (s s' : State), run s xs = some s' → s'.cap = s.cap := by
  intro xs
  induction xs with
  | nil =>
    intro s s' h
    simp only [run, Option.some.injEq] at h
    rw [h]
  | cons x xs ih =>
    intro s s' h
    simp only [run, Option.bind_eq_some_iff] at h
    obtain ⟨s1, h1, h2⟩ := h
    rw [ih s1 s' h2]
    cases x <;> simp only [step] at h1 <;> (repeat' split at h1) <;> cases h1 <;> rfl

/-- C35: a write to a non-blocking queue drops its message exactly when as many messages as configured (1024 if nothing is)
have been accepted and not yet been given to the downstream writer. -/
theorem dropped_only_when_full (cap : Nat) (xs : List Step) (s s' : State) (p : Nat) (hrun : run (init cap) xs = some s)
    (hs : step s (.tryWrite p) = some s') :
    s'.dropped ≠ s.dropped ↔ s.accepted.length = s.received.length + (if cap = 0 then 1024 else cap) := by
  have hinv := inv_run xs _ _ (inv_init cap) hrun
  have hlen := length_flow hinv.flow
  have hb := hinv.bound
  have hcap : s.cap = if cap = 0 then 1024 else cap := run_cap xs _ _ hrun
  simp only [step] at hs
  split at hs
  · split at hs
    · rename_i hlt
      injection hs with hs
      subst hs
      constructor
      · intro h; exact absurd rfl h
      · intro h; omega
    · rename_i hge
      injection hs with hs
      subst hs
      constructor
      · intro _; omega
      · intro _ h
        have := congrArg List.length h
        simp at this
  · cases hs

example : ∃ s s', run (init 1) [.reuse 0 (asc "a"), .tryWrite 0, .reuse 0 (asc "b")] = some s ∧ step s (.tryWrite 0) = some s' ∧
    s'.dropped = [(0, asc "b")] := ⟨_, _, rfl, rfl, rfl⟩

/-- C36 (partly): when `Close` returns, everything that entered the queue before the call has
been given to the downstream writer, in order, unless the second ran out - or the downstream
writer panicked, for which it is false, see `panic_loses`. -/
theorem close_flushes_partial (cap : Nat) (xs : List Step) (s : State) (hrun : run (init cap) xs = some s)
    (hclosed : s.closing = .returned) (ht : s.timedOut = false) (hp : s.panicked = false) :
    (s.accepted.take s.beforeClose).map Prod.snd = s.received.take s.beforeClose ∧
      (s.accepted.take s.beforeClose).length = s.beforeClose := by
  have h := inv_run xs _ _ (inv_init cap) hrun
  have hle := h.ended (h.returned hclosed) ht hp
  constructor
  · rw [List.map_take, h.flow, List.take_append_of_le_length hle]
  · rw [List.length_take]
    have := h.close
    omega

/-- A caller overwrites its buffer after `Write`; `Close` is called with one message still queued. -/
example : (run (init 2) [.reuse 0 (asc "a"), .write 0, .send 0, .reuse 0 (asc "b"), .write 0, .send 0, .reuse 0 (asc "c"),
    .deliver false, .close, .notice, .deliver false, .drained, .closeReturns]).map
      (fun s => (s.received, s.closing, s.beforeClose, s.timedOut, s.panicked)) =
    some ([asc "a", asc "b"], .returned, 2, false, false) := by decide +kernel

/-- A full queue drops. -/
example : (run (init 1) [.reuse 0 (asc "a"), .tryWrite 0, .reuse 0 (asc "b"), .tryWrite 0]).map
    (fun s => (s.submitted, s.accepted, s.dropped)) =
    some ([(0, asc "a"), (0, asc "b")], [(0, asc "a")], [(0, asc "b")]) := by decide +kernel

/-- C36 is false if the downstream writer panics: the worker ends, `Close` returns at once and
what is queued is lost although the time was not up. -/
theorem panic_loses : ∃ (xs : List Step) (s : State), run (init 2) xs = some s ∧ s.closing = .returned ∧ s.timedOut = false ∧
    s.beforeClose = 2 ∧ s.received = [asc "a"] := by
  refine ⟨[.reuse 0 (asc "a"), .write 0, .send 0, .deliver true, .reuse 0 (asc "b"), .write 0, .send 0, .close, .closeReturns],
    _, rfl, rfl, rfl, rfl, rfl⟩

end Verif.Async
