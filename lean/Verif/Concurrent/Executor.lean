import Verif.Basic

/-!
# C43 and C44: the executor

Model of concurrent/unbounded_executor.go as a state machine whose steps interleave freely.
A critical section of `activeGoroutinesMutex` is one step.  `LogPanic` and `LogInfo` (variables
a user may replace) are assumed to return.
-/

namespace Verif.Concurrent

/-! ### Model -/

/-- What `recover()` may return: nil, a string or another value (unbounded_executor.go 52). -/
inductive PanicVal where
  | nil
  | str (s : Bytes)
  | other (k : Nat)
  deriving DecidableEq, Repr

/-- How a handler ends: it returns, calls `runtime.Goexit`, or panics (unbounded_executor.go 60). -/
inductive Outcome where
  | returned
  | goexit
  | panicked (v : PanicVal)
  deriving DecidableEq, Repr

/-- Where a goroutine started at unbounded_executor.go 50 is: in the handler (line 60); in the
deferred function before `recover` (52); after `LogPanic` before the lock (56); past line 58. -/
inductive Phase where
  | running
  | ended (o : Outcome)
  | recovered (o : Outcome)
  | accounted (o : Outcome)
  deriving DecidableEq, Repr

/-- A goroutine: its `startFrom` (line 48) and where it is. -/
structure Routine where
  startFrom : Bytes
  phase : Phase
  deriving DecidableEq, Repr

/-- Where a caller of `StopAndWait` (72-85) is: before the call; waiting for the timer or the
context; about to call `checkGoroutines`; returned because of the context; returned because of
`checkGoroutines`. -/
inductive Waiter where
  | before
  | waiting
  | checking
  | gaveUp
  | done
  deriving DecidableEq, Repr

/-- The executor (24-29), the goroutines it started, the callers of `StopAndWait`, and what
was passed to `LogPanic`. -/
structure Exec where
  cancelled : Bool
  active : Bytes → Int
  routines : List Routine
  waiters : Nat → Waiter
  reports : List (Nat × PanicVal)

/-- `NewUnboundedExecutor`, 35-43. -/
def Exec.init : Exec := ⟨false, fun _ => 0, [], fun _ => .before, []⟩

/-- `StopSignal`, 22 (unbounded_executor.go 21). -/
def stopSignal : PanicVal := .str (asc "STOP!")

/-- The condition at line 53: `recover()` gives nil unless there was a panic with a value
other than nil. -/
def reportable : Outcome → Option PanicVal
  | .panicked v => if v ≠ .nil ∧ v ≠ stopSignal then some v else none
  | _ => none

/-- The steps (unbounded_executor.go 44-99). -/
inductive Step where
  /-- `Go` called from the place `startFrom`, 45-50. -/
  | go (startFrom : Bytes)
  /-- The handler of goroutine `i` ends. -/
  | finish (i : Nat) (o : Outcome)
  /-- 52-55 in goroutine `i`. -/
  | recover (i : Nat)
  /-- 56-58 in goroutine `i`. -/
  | account (i : Nat)
  /-- `Stop`, 64-66. -/
  | stop
  /-- `StopAndWait` is called by `w`, 73. -/
  | stopAndWait (w : Nat)
  /-- The timer fires, 77. -/
  | tick (w : Nat)
  /-- The context of `w` is done, 78-79. -/
  | expire (w : Nat)
  /-- `checkGoroutines`, 81-83 and 87-99. -/
  | check (w : Nat)
  deriving DecidableEq, Repr

/-- `checkGoroutines`, 90-98: no count is positive.  The map's keys are the places a
goroutine was started from. -/
def Exec.idle (s : Exec) : Bool := s.routines.all fun r => s.active r.startFrom ≤ 0

/-- One step; `none` if it cannot take place (unbounded_executor.go 44-99). -/
def step (s : Exec) : Step → Option Exec
  | .go k => some { s with
      active := fun x => if x = k then s.active x + 1 else s.active x
      routines := s.routines ++ [⟨k, .running⟩] }
  | .finish i o =>
    match s.routines[i]? with
    | some ⟨k, .running⟩ => some { s with routines := s.routines.set i ⟨k, .ended o⟩ }
    | _ => none
  | .recover i =>
    match s.routines[i]? with
    | some ⟨k, .ended o⟩ => some { s with
        routines := s.routines.set i ⟨k, .recovered o⟩
        reports := match reportable o with
          | some v => s.reports ++ [(i, v)]
          | none => s.reports }
    | _ => none
  | .account i =>
    match s.routines[i]? with
    | some ⟨k, .recovered o⟩ => some { s with
        active := fun x => if x = k then s.active x - 1 else s.active x
        routines := s.routines.set i ⟨k, .accounted o⟩ }
    | _ => none
  | .stop => some { s with cancelled := true }
  | .stopAndWait w =>
    if s.waiters w = .before then
      some { s with cancelled := true, waiters := fun x => if x = w then .waiting else s.waiters x }
    else none
  | .tick w =>
    if s.waiters w = .waiting then some { s with waiters := fun x => if x = w then .checking else s.waiters x } else none
  | .expire w =>
    if s.waiters w = .waiting then some { s with waiters := fun x => if x = w then .gaveUp else s.waiters x } else none
  | .check w =>
    if s.waiters w = .checking then
      some { s with waiters := fun x => if x = w then (if s.idle then .done else .waiting) else s.waiters x }
    else none

/-- A sequence of steps (unbounded_executor.go 44-99). -/
def run (s : Exec) : List Step → Option Exec
  | [] => some s
  | x :: xs => (step s x).bind fun s => run s xs

/-! ### Specification -/

/-- The handler has ended. -/
def Routine.finished (r : Routine) : Prop := r.phase ≠ .running

/-- How it ended, if it did. -/
def Routine.outcome (r : Routine) : Option Outcome :=
  match r.phase with
  | .running => none
  | .ended o | .recovered o | .accounted o => some o

/-! ### Proof -/

/-- The goroutines from `k` that have not been counted down. -/
def owing (k : Bytes) (rs : List Routine) : Nat :=
  rs.countP fun r => r.startFrom == k && (match r.phase with | .accounted _ => false | _ => true)

theorem countP_set {α : Type} (p : α → Bool) : ∀ (l : List α) (i : Nat) (x y : α), l[i]? = some x →
    (l.set i y).countP p + (if p x then 1 else 0) = l.countP p + (if p y then 1 else 0) := by
  intro l
  induction l with
  | nil => intro i x y h; simp at h
  | cons a l ih =>
    intro i x y h
    cases i with
    | zero =>
      simp only [List.getElem?_cons_zero, Option.some.injEq] at h
      subst h
      simp only [List.set_cons_zero, List.countP_cons]
      omega
    | succ i =>
      simp only [List.getElem?_cons_succ] at h
      have := ih i x y h
      simp only [List.set_cons_succ, List.countP_cons]
      omega

/-- Reports: exactly the goroutines past `recover` with something to report, once each. -/
def Reported (s : Exec) : Prop :=
  (s.reports.map Prod.fst).Nodup ∧ ∀ i v, (i, v) ∈ s.reports ↔
    ∃ r, s.routines[i]? = some r ∧
      (match r.phase with | .recovered o | .accounted o => reportable o = some v | _ => False)

structure Inv (s : Exec) : Prop where
  counts : ∀ k, s.active k = owing k s.routines
  reported : Reported s

theorem inv_init : Inv Exec.init :=
  ⟨fun _ => rfl, List.nodup_nil, by intro i v; simp [Exec.init]⟩

theorem getElem?_lt {α : Type} {l : List α} {i : Nat} {x : α} (h : l[i]? = some x) : i < l.length := by
  rcases Nat.lt_or_ge i l.length with h' | h'
  · exact h'
  · rw [List.getElem?_eq_none h'] at h; cases h

theorem inv_step (s s' : Exec) (x : Step) (h : Inv s) (hs : step s x = some s') : Inv s' := by
  obtain ⟨hc, hn, hr⟩ := h
  cases x with
  | go k =>
    simp only [step, Option.some.injEq] at hs
    subst hs
    refine ⟨?_, hn, ?_⟩
    · intro x
      simp only [owing, List.countP_append, List.countP_singleton]
      have := hc x
      unfold owing at this
      by_cases hx : x = k
      · subst hx; simp [this]
      · have : ¬ (k == x) = true := by simpa using Ne.symm hx
        simp only [if_neg hx, hc x, owing]
        simp [Ne.symm hx]
    · intro i v
      rw [hr i v]
      simp only
      rcases Nat.lt_trichotomy i s.routines.length with hi | hi | hi
      · rw [List.getElem?_append_left hi]
      · subst hi
        simp
      · rw [List.getElem?_eq_none (by omega), List.getElem?_eq_none (by simp; omega)]
  | finish i o =>
    simp only [step] at hs
    split at hs
    · rename_i k hi
      injection hs with hs
      subst hs
      have hlt := getElem?_lt hi
      refine ⟨?_, hn, ?_⟩
      · intro x
        have := countP_set (fun r : Routine => r.startFrom == x && (match r.phase with | .accounted _ => false | _ => true))
          s.routines i _ (⟨k, .ended o⟩ : Routine) hi
        have h2 := hc x
        unfold owing at h2 ⊢
        simp only at this ⊢
        omega
      · intro j v
        rw [hr j v]
        simp only [List.getElem?_set]
        by_cases hj : i = j
        · subst hj
          rw [hi]
          simp [hlt]
        · simp [hj]
    · cases hs
  | recover i =>
    simp only [step] at hs
    split at hs
    · rename_i k o hi
      injection hs with hs
      subst hs
      have hlt := getElem?_lt hi
      have hnew : ∀ v, (i, v) ∉ s.reports := by
        intro v hv
        obtain ⟨r, h1, h2⟩ := (hr i v).mp hv
        rw [hi] at h1
        injection h1 with h1
        subst h1
        exact h2
      refine ⟨?_, ?_, ?_⟩
      · intro x
        have := countP_set (fun r : Routine => r.startFrom == x && (match r.phase with | .accounted _ => false | _ => true))
          s.routines i _ (⟨k, .recovered o⟩ : Routine) hi
        have h2 := hc x
        unfold owing at h2 ⊢
        simp only at this ⊢
        omega
      · simp only
        cases ho : reportable o with
        | none => exact hn
        | some v =>
          rw [List.map_append, List.nodup_append]
          refine ⟨hn, by simp, ?_⟩
          intro a ha b hb
          simp only [List.map_cons, List.map_nil, List.mem_singleton] at hb
          subst hb
          rintro rfl
          obtain ⟨⟨x, y⟩, hxy, rfl⟩ := List.mem_map.mp ha
          exact hnew y hxy
      · intro j v
        simp only [List.getElem?_set]
        by_cases hj : i = j
        · subst hj
          simp only [if_pos hlt, if_true, Option.some.injEq, exists_eq_left']
          cases ho : reportable o with
          | none => simp [hnew v]
          | some w =>
            simp only [List.mem_append, hnew v, false_or, List.mem_singleton, Prod.mk.injEq, true_and, Option.some.injEq]
            exact eq_comm
        · have hj' : j ≠ i := fun h => hj h.symm
          simp only [if_neg hj]
          rw [← hr j v]
          cases ho : reportable o with
          | none => rfl
          | some w => simp [hj']
    · cases hs
  | account i =>
    simp only [step] at hs
    split at hs
    · rename_i k o hi
      injection hs with hs
      subst hs
      have hlt := getElem?_lt hi
      refine ⟨?_, hn, ?_⟩
      · intro x
        have := countP_set (fun r : Routine => r.startFrom == x && (match r.phase with | .accounted _ => false | _ => true))
          s.routines i _ (⟨k, .accounted o⟩ : Routine) hi
        have h2 := hc x
        unfold owing at h2 ⊢
        simp only [Bool.and_false, Bool.and_true, Bool.false_eq_true, if_false] at this ⊢
        by_cases hx : x = k
        · subst hx
          simp only [beq_self_eq_true, if_true] at this ⊢
          omega
        · have hk : ¬ (k == x) = true := by simpa using Ne.symm hx
          rw [if_neg hk] at this
          rw [if_neg hx]
          omega
      · intro j v
        rw [hr j v]
        simp only [List.getElem?_set]
        by_cases hj : i = j
        · subst hj
          rw [hi]
          simp [hlt]
        · simp [hj]
    · cases hs
  | stop =>
    simp only [step, Option.some.injEq] at hs
    subst hs
    exact ⟨hc, hn, hr⟩
  | stopAndWait w =>
    simp only [step] at hs
    split at hs
    · injection hs with hs; subst hs; exact ⟨hc, hn, hr⟩
    · cases hs
  | tick w =>
    simp only [step] at hs
    split at hs
    · injection hs with hs; subst hs; exact ⟨hc, hn, hr⟩
    · cases hs
  | expire w =>
    simp only [step] at hs
    split at hs
    · injection hs with hs; subst hs; exact ⟨hc, hn, hr⟩
    · cases hs
  | check w =>
    simp only [step] at hs
    split at hs
    · injection hs with hs; subst hs; exact ⟨hc, hn, hr⟩
    · cases hs

theorem inv_run : ∀ (xs : List Step) (s s' : Exec), Inv s → run s xs = some s' → Inv s' := by
  intro xs
  induction xs with
  | nil => intro s s' h hr; simp only [run, Option.some.injEq] at hr; subst hr; exact h
  | cons x xs ih =>
    intro s s' h hr
    rw [run] at hr
    cases hx : step s x with
    | none => rw [hx] at hr; cases hr
    | some t => rw [hx] at hr; exact ih t s' (inv_step s t x h hx) hr

theorem idle_iff (s : Exec) (h : Inv s) : s.idle = true ↔ ∀ r ∈ s.routines, ∃ o, r.phase = .accounted o := by
  unfold Exec.idle
  rw [List.all_eq_true]
  constructor
  · intro hall r hr
    have := hall r hr
    simp only [decide_eq_true_eq] at this
    rw [h.counts] at this
    have h0 : owing r.startFrom s.routines = 0 := by omega
    unfold owing at h0
    rw [List.countP_eq_zero] at h0
    have := h0 r hr
    cases hp : r.phase with
    | accounted o => exact ⟨o, rfl⟩
    | running => rw [hp] at this; simp at this
    | ended o => rw [hp] at this; simp at this
    | recovered o => rw [hp] at this; simp at this
  · intro hall r hr
    simp only [decide_eq_true_eq]
    rw [h.counts]
    have : owing r.startFrom s.routines = 0 := by
      unfold owing
      rw [List.countP_eq_zero]
      intro q hq
      obtain ⟨o, ho⟩ := hall q hq
      rw [ho]
      simp
    omega

/-- C43: in every interleaving, when `checkGoroutines` lets a caller of `StopAndWait`
return, every goroutine started on the executor has finished, and has been accounted for. -/
theorem wait_complete (xs : List Step) (s s' : Exec) (w : Nat) (hrun : run Exec.init xs = some s)
    (hstep : step s (.check w) = some s') (hdone : s'.waiters w = .done) :
    (∀ r ∈ s.routines, r.finished ∧ ∃ o, r.phase = .accounted o) ∧ s'.routines = s.routines := by
  have hinv := inv_run xs _ _ inv_init hrun
  simp only [step] at hstep
  split at hstep
  · injection hstep with hstep
    subst hstep
    simp only [if_true] at hdone
    split at hdone
    · rename_i hi
      refine ⟨?_, rfl⟩
      intro r hr
      obtain ⟨o, ho⟩ := (idle_iff s hinv).mp hi r hr
      exact ⟨by unfold Routine.finished; rw [ho]; simp, o, ho⟩
    · cases hdone
  · cases hstep

/-- The only way a caller gets to the state `done` is such a check, so a caller of
`StopAndWaitForever` (whose context is never done) does not return while a goroutine has not
finished. -/
theorem wait_blocks (xs : List Step) (s s' : Exec) (x : Step) (w : Nat) (hrun : run Exec.init xs = some s)
    (hstep : step s x = some s') (hbefore : s.waiters w ≠ .done) (r : Routine) (hr : r ∈ s.routines) (hrun' : ¬ r.finished) :
    s'.waiters w ≠ .done := by
  intro hdone
  have hx : x = .check w := by
    cases x with
    | check v =>
      simp only [step] at hstep
      split at hstep
      · injection hstep with hstep
        subst hstep
        by_cases hv : w = v
        · rw [hv]
        · simp only [if_neg hv] at hdone
          exact absurd hdone hbefore
      · cases hstep
    | go k => simp only [step, Option.some.injEq] at hstep; subst hstep; exact absurd hdone hbefore
    | stop => simp only [step, Option.some.injEq] at hstep; subst hstep; exact absurd hdone hbefore
    | finish i o => simp only [step] at hstep; split at hstep <;> cases hstep; exact absurd hdone hbefore
    | recover i => simp only [step] at hstep; split at hstep <;> cases hstep; exact absurd hdone hbefore
    | account i => simp only [step] at hstep; split at hstep <;> cases hstep; exact absurd hdone hbefore
    | stopAndWait v =>
      simp only [step] at hstep
      split at hstep
      · injection hstep with hstep
        subst hstep
        by_cases hv : w = v
        · simp [hv] at hdone
        · simp only [if_neg hv] at hdone; exact absurd hdone hbefore
      · cases hstep
    | tick v =>
      simp only [step] at hstep
      split at hstep
      · injection hstep with hstep
        subst hstep
        by_cases hv : w = v
        · simp [hv] at hdone
        · simp only [if_neg hv] at hdone; exact absurd hdone hbefore
      · cases hstep
    | expire v =>
      simp only [step] at hstep
      split at hstep
      · injection hstep with hstep
        subst hstep
        by_cases hv : w = v
        · simp [hv] at hdone
        · simp only [if_neg hv] at hdone; exact absurd hdone hbefore
      · cases hstep
  subst hx
  exact hrun' ((wait_complete xs s s' w hrun hstep hdone).1 r hr).1

/-- C43: and it does return: once every goroutine is accounted for, the next check lets a
caller return; until then it goes on polling. -/
theorem wait_returns (xs : List Step) (s : Exec) (w : Nat) (hrun : run Exec.init xs = some s) (hw : s.waiters w = .checking) :
    ∃ s', step s (.check w) = some s' ∧
      ((∀ r ∈ s.routines, ∃ o, r.phase = .accounted o) → s'.waiters w = .done) ∧
      ((∃ r ∈ s.routines, ∀ o, r.phase ≠ .accounted o) → s'.waiters w = .waiting) := by
  have hinv := inv_run xs _ _ inv_init hrun
  refine ⟨_, by simp only [step, if_pos hw]; rfl, ?_, ?_⟩
  · intro h
    simp [(idle_iff s hinv).mpr h]
  · rintro ⟨r, hr, h⟩
    have : s.idle = false := by
      rw [Bool.eq_false_iff]
      intro hi
      obtain ⟨o, ho⟩ := (idle_iff s hinv).mp hi r hr
      exact h o ho
    simp [this]

/-- C43: a call of `StopAndWait` starts to wait, and at every tick of its timer it looks whether all goroutines are accounted for: if
so it returns, otherwise it waits for the next; when its context is done while it waits, it returns at once.  Nothing else ever
makes it return, and nothing else can happen to it while it waits. -/
theorem wait_polls (xs : List Step) (s : Exec) (w : Nat) (hrun : run Exec.init xs = some s) :
    (s.waiters w = .before → ∃ s', step s (.stopAndWait w) = some s' ∧ s'.waiters w = .waiting ∧ s'.routines = s.routines) ∧
    (s.waiters w = .waiting →
      (∃ s', run s [.tick w, .check w] = some s' ∧ s'.routines = s.routines ∧
        ((∀ r ∈ s.routines, ∃ o, r.phase = .accounted o) → s'.waiters w = .done) ∧
        ((∃ r ∈ s.routines, ∀ o, r.phase ≠ .accounted o) → s'.waiters w = .waiting)) ∧
      (∃ s', step s (.expire w) = some s' ∧ s'.waiters w = .gaveUp) ∧
      (∀ x s', step s x = some s' → s'.waiters w ≠ s.waiters w → x = .tick w ∨ x = .expire w)) ∧
    (s.waiters w = .gaveUp ∨ s.waiters w = .done → ∀ x s', step s x = some s' → s'.waiters w = s.waiters w) := by
  refine ⟨?_, ?_, ?_⟩
  · intro h
    obtain ⟨t, ht⟩ : ∃ t, step s (.stopAndWait w) = some t := ⟨_, by simp only [step, if_pos h]; rfl⟩
    refine ⟨t, ht, ?_⟩
    simp only [step, if_pos h, Option.some.injEq] at ht
    rw [← ht]
    simp
  · intro h
    refine ⟨?_, ⟨_, by simp only [step, if_pos h]; rfl, by simp⟩, ?_⟩
    · obtain ⟨t, ht⟩ : ∃ t, step s (.tick w) = some t := ⟨_, by simp only [step, if_pos h]; rfl⟩
      have ht' := ht
      simp only [step, if_pos h, Option.some.injEq] at ht'
      have hrun' : run Exec.init (xs ++ [.tick w]) = some t := by
        have happ : ∀ (l : List Step) (a : Exec), run a (l ++ [.tick w]) = (run a l).bind fun b => step b (.tick w) := by
          intro l
          induction l with
          | nil =>
            intro a
            show (step a (.tick w)).bind (fun b => some b) = step a (.tick w)
            cases step a (.tick w) <;> rfl
          | cons x l ih =>
            intro a
            rw [List.cons_append, run, run]
            cases step a x with
            | none => rfl
            | some b => exact ih b
        rw [happ, hrun]
        exact ht
      have htw : t.waiters w = .checking := by rw [← ht']; simp
      have hr : t.routines = s.routines := by rw [← ht']
      obtain ⟨s', h1, h2, h3⟩ := wait_returns (xs ++ [.tick w]) t w hrun' htw
      have h4 : s'.routines = t.routines := by
        simp only [step, if_pos htw, Option.some.injEq] at h1
        rw [← h1]
      rw [hr] at h2 h3 h4
      exact ⟨s', by rw [run, ht]; show run t [.check w] = _; rw [run, h1]; rfl, h4, h2, h3⟩
    · intro x s' hx hne
      cases x <;> simp only [step] at hx <;> (try split at hx) <;> cases hx <;> first
        | exact absurd rfl hne
        | (rename_i v hv
           by_cases hvw : w = v
           · subst hvw; first | exact .inl rfl | exact .inr rfl | (rw [h] at hv; cases hv)
           · exact absurd (if_neg hvw) hne)
  · intro h x s' hx
    cases x <;> simp only [step] at hx <;> (try split at hx) <;> cases hx <;> first
      | rfl
      | (rename_i v hv
         by_cases hvw : w = v
         · subst hvw; rw [hv] at h; rcases h with h | h <;> cases h
         · exact if_neg hvw)

/-- A waiting caller of an executor with a goroutine that has not ended. -/
example : (run Exec.init [.go (asc "a.go:1"), .stopAndWait 0]).map (fun s => s.waiters 0) = some .waiting := by decide +kernel

/-- C44: in every interleaving, `LogPanic` is called exactly once for each goroutine whose
handler panicked with a value other than nil and the stop signal, with that value, before
the goroutine is accounted for, and for no other. -/
theorem panics_reported (xs : List Step) (s : Exec) (hrun : run Exec.init xs = some s) :
    (s.reports.map Prod.fst).Nodup ∧
    (∀ i v, (i, v) ∈ s.reports → ∃ r, s.routines[i]? = some r ∧ r.outcome = some (.panicked v) ∧ v ≠ .nil ∧ v ≠ .str (asc "STOP!")) ∧
    (∀ i r v, s.routines[i]? = some r → r.phase = .accounted (.panicked v) → v ≠ .nil → v ≠ .str (asc "STOP!") → (i, v) ∈ s.reports) := by
  obtain ⟨_, hn, hr⟩ := inv_run xs _ _ inv_init hrun
  have hrep : ∀ o v, reportable o = some v → o = .panicked v ∧ v ≠ .nil ∧ v ≠ .str (asc "STOP!") := by
    intro o v h
    cases o with
    | panicked w =>
      simp only [reportable] at h
      split at h
      · rename_i hw
        injection h with h
        subst h
        exact ⟨rfl, hw⟩
      · cases h
    | returned => cases h
    | goexit => cases h
  refine ⟨hn, ?_, ?_⟩
  · intro i v h
    obtain ⟨r, h1, h2⟩ := (hr i v).mp h
    refine ⟨r, h1, ?_⟩
    unfold Routine.outcome
    cases hp : r.phase with
    | running => rw [hp] at h2; exact h2.elim
    | ended o => rw [hp] at h2; exact h2.elim
    | recovered o =>
      rw [hp] at h2
      obtain ⟨e, h3⟩ := hrep o v h2
      subst e
      exact ⟨rfl, h3⟩
    | accounted o =>
      rw [hp] at h2
      obtain ⟨e, h3⟩ := hrep o v h2
      subst e
      exact ⟨rfl, h3⟩
  · intro i r v h1 h2 h3 h4
    refine (hr i v).mpr ⟨r, h1, ?_⟩
    rw [h2]
    simp [reportable, h3, h4, stopSignal]

/-- C44: whatever the outcome, a finished goroutine can always be accounted for, which counts
its place down by one and leaves every other goroutine as it was. -/
theorem finished_accounted (xs : List Step) (s : Exec) (hrun : run Exec.init xs = some s) (i : Nat) (k : Bytes) (o : Outcome)
    (hi : s.routines[i]? = some ⟨k, .ended o⟩) :
    ∃ s', run s [.recover i, .account i] = some s' ∧ s'.routines = s.routines.set i ⟨k, .accounted o⟩ ∧
      s'.active k = s.active k - 1 ∧ (∀ x, x ≠ k → s'.active x = s.active x) ∧ 0 < s.active k := by
  have hlt := getElem?_lt hi
  refine ⟨{ s with
    active := fun x => if x = k then s.active x - 1 else s.active x
    routines := s.routines.set i ⟨k, .accounted o⟩
    reports := match reportable o with
      | some v => s.reports ++ [(i, v)]
      | none => s.reports }, ?_, rfl, by simp, ?_, ?_⟩
  · simp only [run, step, hi, Option.bind_some, List.getElem?_set, if_true, if_pos hlt, List.set_set]
  · intro x hx; simp [hx]
  · rw [(inv_run xs _ _ inv_init hrun).counts]
    have : 0 < owing k s.routines := by
      unfold owing
      rw [List.countP_pos_iff]
      exact ⟨_, List.mem_of_getElem? hi, by simp⟩
    omega

/-- Two goroutines, one panicking, one stopped by the signal: the caller returns only after
both. -/
example : (run Exec.init [.go (asc "a.go:1"), .go (asc "a.go:1"), .stopAndWait 0, .tick 0, .check 0,
    .finish 1 (.panicked (.other 7)), .recover 1, .account 1, .tick 0, .check 0,
    .finish 0 (.panicked (.str (asc "STOP!"))), .recover 0, .tick 0, .check 0, .account 0, .tick 0, .check 0]).map
      (fun s => (s.waiters 0, s.reports, s.active (asc "a.go:1"))) = some (.done, [(1, .other 7)], 0) := by decide +kernel

/-- C43: the context given to the handlers is cancelled by `Stop` or `StopAndWait`, and by nothing else. -/
theorem cancelled_iff (xs : List Step) (s : Exec) (hrun : run Exec.init xs = some s) :
    s.cancelled = true ↔ .stop ∈ xs ∨ ∃ w, .stopAndWait w ∈ xs := by
  have gen : ∀ (xs : List Step) (s0 s : Exec), run s0 xs = some s →
      (s.cancelled = true ↔ s0.cancelled = true ∨ .stop ∈ xs ∨ ∃ w, .stopAndWait w ∈ xs) := by
    intro xs
    induction xs with
    | nil =>
      intro s0 s h
      simp only [run, Option.some.injEq] at h
      subst h
      simp
    | cons x xs ih =>
      intro s0 s h
      simp only [run, Option.bind_eq_some_iff] at h
      obtain ⟨s1, h1, h2⟩ := h
      have hs1 : s1.cancelled = true ↔ s0.cancelled = true ∨ x = .stop ∨ ∃ w, x = .stopAndWait w := by
        cases x <;> simp only [step] at h1 <;> (repeat' split at h1) <;> cases h1 <;> simp
      rw [ih s1 s h2, hs1]
      simp only [List.mem_cons]
      constructor
      · rintro ((h | h | ⟨w, h⟩) | h | ⟨w, h⟩)
        · exact .inl h
        · exact .inr (.inl (.inl h.symm))
        · exact .inr (.inr ⟨w, .inl h.symm⟩)
        · exact .inr (.inl (.inr h))
        · exact .inr (.inr ⟨w, .inr h⟩)
      · rintro (h | (h | h) | ⟨w, h | h⟩)
        · exact .inl (.inl h)
        · exact .inl (.inr (.inl h.symm))
        · exact .inr (.inl h)
        · exact .inl (.inr (.inr ⟨w, h.symm⟩))
        · exact .inr (.inr ⟨w, h⟩)
  have := gen xs Exec.init s hrun
  simpa [Exec.init] using this

example : (run Exec.init [.go (asc "a:1"), .stopAndWait 0, .tick 0]).map Exec.cancelled = some true := by decide +kernel

end Verif.Concurrent
