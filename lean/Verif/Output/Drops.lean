import Verif.Jsonfmt.IntLemmas

/-!
# C157: dropped messages are reported with their number

Models of the reports written when a queue is full: by the asynchronous writer without `OnMessageDropped`
(countlog/output/async/async.go 41-50 and countlog/loglog/loglog.go 10-13), whose counter is a plain variable, and by the queue of the web viewer
(witch/logger.go 29-35), whose counter is atomic.  Any number of goroutines log at the same time.
-/

namespace Verif.Output.Drops

open Verif.Spec Verif.Jsonfmt

/-! ### The asynchronous writer -/

/-- Where a goroutine in the function at async.go 44-49 is: not in it; having read the counter for the increment at 45; having stored it;
having found that a report is due at 46. -/
inductive Pc where
  | idle
  | loaded (v : Nat)
  | stored
  | due
  deriving DecidableEq, Repr

/-- The variable `droppedCount` (async.go 43), the goroutines, and what was written to standard error.  `drops` only counts the calls.
Simplified: fewer than 2^63 messages are dropped, so that the counter does not overflow; memory is sequentially consistent, although the
race leaves the Go program even more freedom. -/
structure State where
  count : Nat
  pc : Nat → Pc
  out : List Bytes
  drops : Nat

/-- The start (async.go 43). -/
def init : State where
  count := 0
  pc := fun _ => .idle
  out := []
  drops := 0

/-- The steps of goroutine `p` (async.go 45-47). -/
inductive Step where
  /-- The function is called, and `droppedCount++` reads the counter, async.go 44-45. -/
  | call (p : Nat)
  /-- `droppedCount++` stores it, async.go 45. -/
  | store (p : Nat)
  /-- The condition reads it, async.go 46. -/
  | check (p : Nat)
  /-- The report reads it and is written, async.go 47. -/
  | report (p : Nat)
  deriving DecidableEq, Repr

/-- `loglog.Error` of the error made at async.go 47: loglog.go 11.  `%v` of an `int` that is not negative is its decimal. -/
def asyncText (k : Nat) : Bytes :=
  asc "countlog encountered error: " ++ (asc "countlog async writer congestion, dropped " ++ natDec k ++ asc " messages so far") ++ asc "\n"

/-- Moving one goroutine (async.go 44-49). -/
def State.at (s : State) (p : Nat) (x : Pc) : State := { s with pc := fun q => if q = p then x else s.pc q }

/-- One step; `none` if it cannot take place (async.go 44-49). -/
def step (s : State) : Step → Option State
  | .call p => if s.pc p = .idle then some { s.at p (.loaded s.count) with drops := s.drops + 1 } else none
  | .store p =>
    match s.pc p with
    | .loaded v => some { s.at p .stored with count := v + 1 }
    | _ => none
  | .check p =>
    if s.pc p = .stored then some (if s.count % 1000 = 1 then s.at p .due else s.at p .idle) else none
  | .report p => if s.pc p = .due then some { s.at p .idle with out := s.out ++ [asyncText s.count] } else none

/-- A sequence of steps (async.go 44-49). -/
def run (s : State) : List Step → Option State
  | [] => some s
  | x :: xs => (step s x).bind fun s => run s xs

/-! ### The viewer -/

/-- The counter (logger.go 17), the numbers of goroutines about to report, and what was written to standard error.  `drops` only counts
the calls of `Write` that found the queue full. -/
structure Viewer where
  count : UInt64
  due : Nat → Option UInt64
  out : List Bytes
  drops : Nat

/-- The start (logger.go 20-24). -/
def Viewer.init : Viewer where
  count := 0
  due := fun _ => none
  out := []
  drops := 0

/-- The steps (logger.go 29-35). -/
inductive VStep where
  /-- The queue is full: the counter is increased in one step, and the result looked at, logger.go 30-31. -/
  | drop (p : Nat)
  /-- The report is written, logger.go 32-34. -/
  | report (p : Nat)
  deriving DecidableEq, Repr

/-- The text at logger.go 32-33. -/
def viewerText (k : UInt64) : Bytes :=
  asc "witch event queue overflow, dropped " ++ natDec k.toNat ++ asc " events since start\n"

/-- One step; `none` if it cannot take place (logger.go 29-35). -/
def Viewer.step (s : Viewer) : VStep → Option Viewer
  | .drop p =>
    if s.due p = none then
      let dropped := s.count + 1
      some { s with
        count := dropped
        due := fun q => if q = p then (if dropped % 10000 = 1 then some dropped else none) else s.due q
        drops := s.drops + 1 }
    else none
  | .report p =>
    match s.due p with
    | some d => some { s with due := fun q => if q = p then none else s.due q, out := s.out ++ [viewerText d] }
    | none => none

/-- A sequence of steps (logger.go 29-35). -/
def Viewer.run (s : Viewer) : List VStep → Option Viewer
  | [] => some s
  | x :: xs => (s.step x).bind fun s => Viewer.run s xs

/-! ### Specification -/

/-- A line saying that `k` were dropped. -/
def Line (pre post : Bytes) (k : Nat) (t : Bytes) : Prop := ∃ d, CanonicalDecimal d k ∧ t = pre ++ d ++ post

/-- The lines saying these numbers. -/
inductive Lines (pre post : Bytes) : List Nat → List Bytes → Prop where
  | nil : Lines pre post [] []
  | cons {k : Nat} {t : Bytes} {ks : List Nat} {ts : List Bytes} : Line pre post k t → Lines pre post ks ts → Lines pre post (k :: ks) (t :: ts)

/-- The reports after `n` drops: one for the first and for each `every` after it, saying its number. -/
def Reported (every n : Nat) (pre post : Bytes) (out : List Bytes) (ks : List Nat) : Prop :=
  Lines pre post ks out ∧ ∀ k, k ∈ ks ↔ k ≤ n ∧ ∃ j, k = every * j + 1

/-- Whenever the function is called, nobody else is in it. -/
def Alone (s : State) : List Step → Prop
  | [] => True
  | x :: xs => (∀ p, x = .call p → ∀ q, s.pc q = .idle) ∧ ∀ t, step s x = some t → Alone t xs

/-! ### Proofs -/

theorem asyncText_line (k : Nat) :
    Line (asc "countlog encountered error: countlog async writer congestion, dropped ") (asc " messages so far\n") k (asyncText k) := by
  refine ⟨natDec k, natDec_canonical k, ?_⟩
  have h1 : asc "countlog encountered error: countlog async writer congestion, dropped " =
      asc "countlog encountered error: " ++ asc "countlog async writer congestion, dropped " := by decide
  have h2 : asc " messages so far\n" = asc " messages so far" ++ asc "\n" := by decide
  rw [h1, h2, asyncText]
  simp only [List.append_assoc]

theorem lines_snoc {pre post : Bytes} {a : List Nat} {b : List Bytes} {x : Nat} {y : Bytes} (h : Lines pre post a b) (hxy : Line pre post x y) :
    Lines pre post (a ++ [x]) (b ++ [y]) := by
  induction h with
  | nil => exact .cons hxy .nil
  | cons h _ ih => exact .cons h ih

/-- The beginning of a report, for the proofs. -/
def APre : Bytes := asc "countlog encountered error: countlog async writer congestion, dropped "

/-- Its end. -/
def APost : Bytes := asc " messages so far\n"

/-- What is reported after `n` drops, in order. -/
def Told (n : Nat) (out : List Bytes) : Prop := ∃ ks, Reported 1000 n APre APost out ks ∧ ks.Pairwise (· < ·)

theorem told_more {n : Nat} {out : List Bytes} (h : Told n out) (hn : (n + 1) % 1000 ≠ 1) : Told (n + 1) out := by
  obtain ⟨ks, ⟨h1, h2⟩, h3⟩ := h
  refine ⟨ks, ⟨h1, fun k => ?_⟩, h3⟩
  rw [h2]
  constructor
  · rintro ⟨hk, j, hj⟩; exact ⟨by omega, j, hj⟩
  · rintro ⟨hk, j, hj⟩; exact ⟨by omega, j, hj⟩

theorem told_next {n : Nat} {out : List Bytes} (h : Told n out) (hn : (n + 1) % 1000 = 1) : Told (n + 1) (out ++ [asyncText (n + 1)]) := by
  obtain ⟨ks, ⟨h1, h2⟩, h3⟩ := h
  refine ⟨ks ++ [n + 1], ⟨lines_snoc h1 (asyncText_line _), fun k => ?_⟩, ?_⟩
  · rw [List.mem_append, List.mem_singleton, h2]
    constructor
    · rintro (⟨hk, j, hj⟩ | hk)
      · exact ⟨by omega, j, hj⟩
      · exact ⟨by omega, n / 1000, by omega⟩
    · rintro ⟨hk, j, hj⟩
      by_cases he : k = n + 1
      · exact .inr he
      · exact .inl ⟨by omega, j, hj⟩
  · rw [List.pairwise_append]
    refine ⟨h3, by simp, fun a ha b hb => ?_⟩
    rw [List.mem_singleton] at hb
    have := ((h2 a).mp ha).1
    omega

/-- What holds while the function is called by one goroutine at a time. -/
def AInv (s : State) : Prop :=
  ((∀ q, s.pc q = .idle) ∧ s.count = s.drops ∧ Told s.drops s.out) ∨
    ∃ p n, (∀ q, q ≠ p → s.pc q = .idle) ∧ s.drops = n + 1 ∧ Told n s.out ∧
      ((s.pc p = .loaded n ∧ s.count = n) ∨ (s.pc p = .stored ∧ s.count = n + 1) ∨ (s.pc p = .due ∧ s.count = n + 1 ∧ (n + 1) % 1000 = 1))

theorem AInv.step {s t : State} {x : Step} (h : AInv s) (hx : ∀ p, x = .call p → ∀ q, s.pc q = .idle) (hs : step s x = some t) : AInv t := by
  cases x with
  | call p =>
    have hidle := hx p rfl
    simp only [Drops.step, hidle p, if_true, Option.some.injEq] at hs
    subst hs
    rcases h with ⟨_, hc, ht⟩ | ⟨p', n, _, _, _, h | h | h⟩
    · refine .inr ⟨p, s.drops, fun q hq => by simp [State.at, hq, hidle q], rfl, ht, .inl ⟨by simp [State.at, hc], hc⟩⟩
    all_goals (have := h.1; rw [hidle] at this; cases this)
  | store p =>
    rcases h with ⟨hidle, _, _⟩ | ⟨p', n, ho, hd, ht, h⟩
    · simp [Drops.step, hidle p] at hs
    · by_cases hp : p = p'
      · subst hp
        rcases h with ⟨h1, h2⟩ | ⟨h1, h2⟩ | ⟨h1, h2, h3⟩
        · simp only [Drops.step, h1, Option.some.injEq] at hs
          subst hs
          exact .inr ⟨p, n, fun q hq => by simp [State.at, hq, ho q hq], hd, ht, .inr (.inl ⟨by simp [State.at], rfl⟩)⟩
        · simp [Drops.step, h1] at hs
        · simp [Drops.step, h1] at hs
      · simp [Drops.step, ho p hp] at hs
  | check p =>
    rcases h with ⟨hidle, _, _⟩ | ⟨p', n, ho, hd, ht, h⟩
    · simp [Drops.step, hidle p] at hs
    · by_cases hp : p = p'
      · subst hp
        rcases h with ⟨h1, h2⟩ | ⟨h1, h2⟩ | ⟨h1, h2, h3⟩
        · simp [Drops.step, h1] at hs
        · simp only [Drops.step, h1, if_true, Option.some.injEq, h2] at hs
          by_cases hm : (n + 1) % 1000 = 1
          · rw [if_pos hm] at hs
            subst hs
            exact .inr ⟨p, n, fun q hq => by simp [State.at, hq, ho q hq], hd, ht, .inr (.inr ⟨by simp [State.at], h2, hm⟩)⟩
          · rw [if_neg hm] at hs
            subst hs
            refine .inl ⟨fun q => ?_, ?_, ?_⟩
            · by_cases hq : q = p
              · simp [State.at, hq]
              · simp [State.at, hq, ho q hq]
            · show s.count = s.drops; rw [h2, hd]
            · show Told s.drops s.out; rw [hd]; exact told_more ht hm
        · simp [Drops.step, h1] at hs
      · simp [Drops.step, ho p hp] at hs
  | report p =>
    rcases h with ⟨hidle, _, _⟩ | ⟨p', n, ho, hd, ht, h⟩
    · simp [Drops.step, hidle p] at hs
    · by_cases hp : p = p'
      · subst hp
        rcases h with ⟨h1, h2⟩ | ⟨h1, h2⟩ | ⟨h1, h2, h3⟩
        · simp [Drops.step, h1] at hs
        · simp [Drops.step, h1] at hs
        · simp only [Drops.step, h1, if_true, Option.some.injEq, h2] at hs
          subst hs
          refine .inl ⟨fun q => ?_, ?_, ?_⟩
          · by_cases hq : q = p
            · simp [State.at, hq]
            · simp [State.at, hq, ho q hq]
          · show s.count = s.drops; rw [h2, hd]
          · show Told s.drops (s.out ++ _); rw [hd]; exact told_next ht h3
      · simp [Drops.step, ho p hp] at hs

theorem AInv.run {s t : State} {xs : List Step} (h : AInv s) (ha : Alone s xs) (hs : run s xs = some t) : AInv t := by
  induction xs generalizing s with
  | nil => cases hs; exact h
  | cons x xs ih =>
    rw [Drops.run] at hs
    cases hx : Drops.step s x with
    | none => rw [hx] at hs; cases hs
    | some u => rw [hx] at hs; exact ih (h.step ha.1 hx) (ha.2 u hx) hs

/-- C157, part: as long as goroutines drop messages one at a time, the asynchronous writer has reported, in order, the first dropped
message and every thousandth after it, each report saying how many were dropped.  Missing: goroutines dropping messages at the same time
(`silent`, `same_number`). -/
theorem async_reported_partial (xs : List Step) (s : State) (h : run init xs = some s) (ha : Alone init xs) (hidle : ∀ p, s.pc p = .idle) :
    ∃ ks, Reported 1000 s.drops (asc "countlog encountered error: countlog async writer congestion, dropped ") (asc " messages so far\n") s.out ks ∧
      ks.Pairwise (· < ·) := by
  have h0 : AInv init := .inl ⟨fun _ => rfl, rfl, [], ⟨.nil, fun k => ⟨fun h => (by cases h), fun h => absurd (show k ≤ 0 from h.1) (by obtain ⟨_, j, hj⟩ := h; omega)⟩⟩, .nil⟩
  rcases h0.run ha h with ⟨_, _, ht⟩ | ⟨p, n, _, _, _, h | h | h⟩
  · exact ht
  all_goals (have := h.1; rw [hidle] at this; cases this)

theorem run_append (s : State) (xs ys : List Step) : run s (xs ++ ys) = (run s xs).bind fun t => run t ys := by
  induction xs generalizing s with
  | nil => rfl
  | cons x xs ih =>
    rw [List.cons_append, run, run]
    cases step s x with
    | none => rfl
    | some t => exact ih t

/-- Two goroutines dropping a message each, the second between the increment and the condition of the first. -/
def pair : List Step := [.call 0, .store 0, .call 1, .store 1, .check 0, .check 1]

theorem pair_run (s : State) (hidle : ∀ p, s.pc p = .idle) (he : s.count % 2 = 0) :
    ∃ t, run s pair = some t ∧ (∀ p, t.pc p = .idle) ∧ t.count = s.count + 2 ∧ t.drops = s.drops + 2 ∧ t.out = s.out := by
  have h1 : ¬ (s.count + 1 + 1) % 1000 = 1 := by omega
  refine ⟨_, by simp [pair, run, step, State.at, hidle, h1]; rfl, ?_⟩
  refine ⟨fun p => ?_, rfl, rfl, rfl⟩
  by_cases hp : p = 1
  · simp [hp]
  · by_cases hp0 : p = 0
    · simp [hp0]
    · simp [hp, hp0]

/-- C157 fails: if two goroutines drop messages at the same time, none of any number of drops may be reported. -/
theorem silent (n : Nat) : ∃ xs s, run init xs = some s ∧ (∀ p, s.pc p = .idle) ∧ s.drops = 2 * n ∧ s.out = [] := by
  suffices ∃ xs s, run init xs = some s ∧ (∀ p, s.pc p = .idle) ∧ s.count = 2 * n ∧ s.drops = 2 * n ∧ s.out = [] by
    obtain ⟨xs, s, h1, h2, _, h3⟩ := this
    exact ⟨xs, s, h1, h2, h3⟩
  induction n with
  | zero => exact ⟨[], init, rfl, fun _ => rfl, rfl, rfl, rfl⟩
  | succ n ih =>
    obtain ⟨xs, s, h1, h2, h3, h4, h5⟩ := ih
    obtain ⟨t, g1, g2, g3, g4, g5⟩ := pair_run s h2 (by omega)
    exact ⟨xs ++ pair, t, by rw [run_append, h1]; exact g1, g2, by omega, by omega, by rw [g5, h5]⟩

/-- C157 fails: an increment is lost if two goroutines drop messages at the same time, and both reports say that one was dropped. -/
theorem same_number : ∃ xs s, run init xs = some s ∧ (∀ p, s.pc p = .idle) ∧ s.drops = 2 ∧
    s.out = [asc "countlog encountered error: countlog async writer congestion, dropped 1 messages so far\n",
      asc "countlog encountered error: countlog async writer congestion, dropped 1 messages so far\n"] := by
  refine ⟨[.call 0, .call 1, .store 0, .store 1, .check 0, .check 1, .report 0, .report 1], _, rfl, fun p => ?_, rfl, ?_⟩
  · by_cases hp : p = 1
    · simp [State.at, hp]
    · by_cases hp0 : p = 0
      · simp [State.at, hp0]
      · simp [State.at, hp, hp0, init]
  · decide +kernel

/-- Two goroutines dropping messages one after another: only the first is reported. -/
example : Alone init [.call 3, .store 3, .check 3, .report 3, .call 5, .store 5, .check 5] ∧ ∃ s, run init [.call 3, .store 3, .check 3, .report 3, .call 5, .store 5, .check 5] = some s ∧ s.drops = 2 ∧ s.count = 2 ∧
    s.out = [asc "countlog encountered error: countlog async writer congestion, dropped 1 messages so far\n"] := by
  refine ⟨?_, _, rfl, rfl, rfl, by decide +kernel⟩
  simp only [Alone]
  refine ⟨fun _ _ _ => rfl, fun t1 h1 => ⟨by simp, fun t2 h2 => ⟨by simp, fun t3 h3 => ⟨by simp, fun t4 h4 => ⟨fun _ _ q => ?_, fun _ _ => ⟨by simp, fun _ _ => ⟨by simp, fun _ _ => trivial⟩⟩⟩⟩⟩⟩⟩
  cases h1; cases h2; cases h3; cases h4
  by_cases hq : q = 3
  · simp [State.at, hq]
  · simp [State.at, hq, init]

/-! ### The viewer -/

theorem viewerText_line (k : UInt64) :
    Line (asc "witch event queue overflow, dropped ") (asc " events since start\n") k.toNat (viewerText k) :=
  ⟨natDec k.toNat, natDec_canonical _, rfl⟩

/-- What holds at any time: the numbers written and those about to be are, each once, those to be reported. -/
def VInv (s : Viewer) : Prop :=
  s.drops < 2 ^ 64 → s.count.toNat = s.drops ∧ ∃ ks, Lines (asc "witch event queue overflow, dropped ") (asc " events since start\n") ks s.out ∧
    ks.Nodup ∧ (∀ p d, s.due p = some d → d.toNat ∉ ks ∧ d.toNat ≤ s.drops ∧ ∃ j, d.toNat = 10000 * j + 1) ∧
    (∀ p q d, s.due p = some d → s.due q = some d → p = q) ∧
    (∀ k ∈ ks, k ≤ s.drops ∧ ∃ j, k = 10000 * j + 1) ∧ ∀ k, k ≤ s.drops → (∃ j, k = 10000 * j + 1) → k ∈ ks ∨ ∃ p d, s.due p = some d ∧ d.toNat = k

theorem VInv.step {s t : Viewer} {x : VStep} (h : VInv s) (hs : s.step x = some t) : VInv t := by
  cases x with
  | drop p =>
    by_cases hp : s.due p = none
    · simp only [Viewer.step, hp, if_true, Option.some.injEq] at hs
      subst hs
      intro hlt
      have hlt : s.drops + 1 < 2 ^ 64 := hlt
      obtain ⟨hc, ks, h1, h2, h3, h4, h5, h6⟩ := h (by omega)
      have hc' : (s.count + 1).toNat = s.drops + 1 := by
        rw [UInt64.toNat_add, hc]; exact Nat.mod_eq_of_lt hlt
      have hm : (s.count + 1) % 10000 = 1 ↔ (s.drops + 1) % 10000 = 1 := by
        rw [← UInt64.toNat_inj, UInt64.toNat_mod, hc']; rfl
      refine ⟨hc', ks, h1, h2, ?_, ?_, ?_, ?_⟩
      · intro q d hq
        by_cases hqp : q = p
        · simp only [hqp, if_true] at hq
          by_cases hd : (s.count + 1) % 10000 = 1
          · rw [if_pos hd] at hq
            cases hq
            rw [hc']
            have := hm.mp hd
            exact ⟨fun hk => by have := (h5 _ hk).1; omega, Nat.le_refl _, s.drops / 10000, by omega⟩
          · rw [if_neg hd] at hq; cases hq
        · simp only [hqp, if_false] at hq
          obtain ⟨g1, g2, g3⟩ := h3 q d hq
          exact ⟨g1, Nat.le_succ_of_le g2, g3⟩
      · have new : ∀ q d, s.due q = some d → d ≠ s.count + 1 := by
          intro q d hq he
          have := (h3 q d hq).2.1
          rw [he, hc'] at this
          omega
        intro q r d hq hr
        by_cases hqp : q = p <;> by_cases hrp : r = p
        · rw [hqp, hrp]
        · simp only [hqp, if_true] at hq
          simp only [hrp, if_false] at hr
          by_cases hd : (s.count + 1) % 10000 = 1
          · rw [if_pos hd] at hq; cases hq; exact absurd rfl (new r _ hr)
          · rw [if_neg hd] at hq; cases hq
        · simp only [hqp, if_false] at hq
          simp only [hrp, if_true] at hr
          by_cases hd : (s.count + 1) % 10000 = 1
          · rw [if_pos hd] at hr; cases hr; exact absurd rfl (new q _ hq)
          · rw [if_neg hd] at hr; cases hr
        · simp only [hqp, if_false] at hq
          simp only [hrp, if_false] at hr
          exact h4 q r d hq hr
      · intro k hk
        obtain ⟨g1, g2⟩ := h5 k hk
        exact ⟨Nat.le_succ_of_le g1, g2⟩
      · rintro k hk ⟨j, hj⟩
        have hk : k ≤ s.drops + 1 := hk
        by_cases he : k = s.drops + 1
        · refine .inr ⟨p, s.count + 1, ?_, by rw [hc', he]⟩
          show (if p = p then _ else _) = _
          rw [if_pos rfl, if_pos (hm.mpr (by omega))]
        · rcases h6 k (by omega) ⟨j, hj⟩ with g | ⟨q, d, g1, g2⟩
          · exact .inl g
          · refine .inr ⟨q, d, ?_, g2⟩
            show (if q = p then _ else _) = _
            rw [if_neg]
            · exact g1
            · rintro rfl; rw [hp] at g1; cases g1
    · simp [Viewer.step, hp] at hs
  | report p =>
    cases hp : s.due p with
    | none => simp [Viewer.step, hp] at hs
    | some d =>
      simp only [Viewer.step, hp, Option.some.injEq] at hs
      subst hs
      intro hlt
      have hlt : s.drops < 2 ^ 64 := hlt
      obtain ⟨hc, ks, h1, h2, h3, h4, h5, h6⟩ := h hlt
      refine ⟨hc, ks ++ [d.toNat], lines_snoc h1 (viewerText_line d), ?_, ?_, ?_, ?_, ?_⟩
      · rw [List.nodup_append]
        refine ⟨h2, by simp, fun a ha b hb he => ?_⟩
        rw [List.mem_singleton] at hb
        exact (h3 p d hp).1 (by rw [← hb, ← he]; exact ha)
      · intro q e hq
        by_cases hqp : q = p
        · simp [hqp] at hq
        · simp only [hqp, if_false] at hq
          obtain ⟨g1, g2⟩ := h3 q e hq
          refine ⟨fun hm => ?_, g2⟩
          rcases List.mem_append.mp hm with hm | hm
          · exact g1 hm
          · rw [List.mem_singleton] at hm
            have he : e = d := UInt64.toNat_inj.mp hm
            subst he
            exact hqp (h4 q p e hq hp)
      · intro q r e hq hr
        by_cases hqp : q = p
        · simp [hqp] at hq
        · by_cases hrp : r = p
          · simp [hrp] at hr
          · simp only [hqp, if_false] at hq
            simp only [hrp, if_false] at hr
            exact h4 q r e hq hr
      · intro k hk
        rcases List.mem_append.mp hk with hk | hk
        · exact h5 k hk
        · rw [List.mem_singleton] at hk
          rw [hk]; exact (h3 p d hp).2
      · rintro k hk ⟨j, hj⟩
        rcases h6 k hk ⟨j, hj⟩ with g | ⟨q, e, g1, g2⟩
        · exact .inl (List.mem_append_left _ g)
        · by_cases hqp : q = p
          · rw [hqp, hp] at g1; cases g1
            exact .inl (by rw [← g2]; simp)
          · refine .inr ⟨q, e, ?_, g2⟩
            show (if q = p then _ else _) = _
            rw [if_neg hqp]; exact g1

theorem VInv.run {s t : Viewer} {xs : List VStep} (h : VInv s) (hs : s.run xs = some t) : VInv t := by
  induction xs generalizing s with
  | nil => cases hs; exact h
  | cons x xs ih =>
    rw [Viewer.run] at hs
    cases hx : s.step x with
    | none => rw [hx] at hs; cases hs
    | some u => rw [hx] at hs; exact ih (h.step hx) hs

/-- C157: whatever goroutines do at the same time, once nobody is about to write a report, the viewer has reported the first dropped event and
every ten thousandth after it, each once and saying its number. -/
theorem viewer_reported (xs : List VStep) (s : Viewer) (h : Viewer.init.run xs = some s) (hdue : ∀ p, s.due p = none) (hn : s.drops < 2 ^ 64) :
    ∃ ks, Reported 10000 s.drops (asc "witch event queue overflow, dropped ") (asc " events since start\n") s.out ks ∧ ks.Nodup := by
  have h0 : VInv Viewer.init := by
    intro _
    refine ⟨rfl, [], .nil, .nil, ?_, ?_, ?_, ?_⟩
    · intro p d h; cases h
    · intro p q d h; cases h
    · intro k h; cases h
    · rintro k hk ⟨j, hj⟩; exact absurd (show k ≤ 0 from hk) (by omega)
  obtain ⟨_, ks, h1, h2, _, _, h5, h6⟩ := h0.run h hn
  refine ⟨ks, ⟨h1, fun k => ⟨h5 k, fun ⟨g1, g2⟩ => ?_⟩⟩, h2⟩
  rcases h6 k g1 g2 with g | ⟨p, d, g, _⟩
  · exact g
  · rw [hdue] at g; cases g

theorem viewer_append (s : Viewer) (xs ys : List VStep) : s.run (xs ++ ys) = (s.run xs).bind fun t => t.run ys := by
  induction xs generalizing s with
  | nil => rfl
  | cons x xs ih =>
    rw [List.cons_append, Viewer.run, Viewer.run]
    cases s.step x with
    | none => rfl
    | some t => exact ih t

theorem quiet_drops (n : Nat) (hn : n < 10000) : ∃ s, Viewer.init.run (.drop 0 :: List.replicate n (.drop 1)) = some s ∧ s.drops = n + 1 ∧
    s.count = UInt64.ofNat (n + 1) ∧ s.due 0 = some 1 ∧ (∀ p, p ≠ 0 → s.due p = none) ∧ s.out = [] := by
  induction n with
  | zero => exact ⟨_, rfl, rfl, rfl, rfl, fun p hp => by simp [Viewer.init, hp], rfl⟩
  | succ n ih =>
    obtain ⟨s, h1, h2, h3, h4, h5, h6⟩ := ih (by omega)
    have e : VStep.drop 0 :: List.replicate (n + 1) (.drop 1) = (.drop 0 :: List.replicate n (.drop 1)) ++ [.drop 1] := by
      rw [List.replicate_succ', List.cons_append]
    have hc : s.count + 1 = UInt64.ofNat (n + 1 + 1) := by rw [h3, UInt64.ofNat_add (n + 1) 1]; rfl
    have hm : ¬ (s.count + 1) % 10000 = 1 := by
      rw [hc, ← UInt64.toNat_inj, UInt64.toNat_mod, UInt64.toNat_ofNat']
      rw [Nat.mod_eq_of_lt (show n + 1 + 1 < 2 ^ 64 by omega)]
      show ¬ (n + 1 + 1) % 10000 = 1
      intro hmod
      by_cases h8 : n + 1 + 1 = 10000
      · rw [h8] at hmod; cases hmod
      · rw [Nat.mod_eq_of_lt (by omega)] at hmod; omega
    refine ⟨{ s with count := s.count + 1, due := fun q => if q = 1 then (if (s.count + 1) % 10000 = 1 then some (s.count + 1) else none) else s.due q,
                     drops := s.drops + 1 }, by rw [e, viewer_append, h1]; simp [Viewer.run, Viewer.step, h5], by simp [h2], hc, by simp [h4], fun p hp => ?_, h6⟩
    by_cases h1p : p = 1
    · simp [h1p, hm]
    · simp [h1p, h5 p hp]

/-- The order of the reports is not that of the numbers: the report of the first dropped event may come last. -/
theorem viewer_order : ∃ xs s, Viewer.init.run xs = some s ∧ (∀ p, s.due p = none) ∧ s.drops = 10001 ∧
    s.out = [asc "witch event queue overflow, dropped 10001 events since start\n", asc "witch event queue overflow, dropped 1 events since start\n"] := by
  obtain ⟨s, h1, h2, h3, h4, h5, h6⟩ := quiet_drops 9999 (by decide)
  have hm : (s.count + 1) % 10000 = 1 := by rw [h3]; decide
  have h10 : s.count + 1 = 10001 := by rw [h3]; decide
  refine ⟨(.drop 0 :: List.replicate 9999 (.drop 1)) ++ [.drop 1, .report 1, .report 0], _, by
    rw [viewer_append, h1]; simp [Viewer.run, Viewer.step, h5, h4, hm]; rfl, ?_, by simp [h2], ?_⟩
  · intro p
    by_cases hp0 : p = 0
    · simp [hp0]
    · by_cases hp1 : p = 1
      · simp [hp1]
      · simp [hp0, hp1, h5]
  · simp only [h6, h10]
    decide +kernel

/-- Two goroutines finding the queue full at the same time: one report. -/
example : ∃ s, Viewer.init.run [.drop 4, .drop 2, .report 4] = some s ∧ s.drops = 2 ∧ s.due 4 = none ∧ s.due 2 = none ∧
    s.out = [asc "witch event queue overflow, dropped 1 events since start\n"] :=
  ⟨_, rfl, rfl, rfl, rfl, by decide +kernel⟩

end Verif.Output.Drops
