import Verif.Countlog.Props

/-!
# C164: assigning another EventWriter or EventAggregator

`countlog.EventWriter` and `countlog.EventAggregator` are variables for the user to assign (countlog/spi.go:11-18), but handlers are made
from them once and kept.
-/

namespace Verif.Countlog.Sinks

/-! ### Model -/

/-- A cached handler: `oneHandler` or `statsAndOutput` (countlog/root.go:30-34, 50-55) made from the writer `w` and, if that gave a handler,
the aggregator `a`, with `nomalModeOnPanic` if `normal` and else `fallbackModeOnPanic`; or a `redirector` (93-95).  Writers and
aggregators are numbered; the rest of the site is left out. -/
inductive Hnd where
  | root (w : Nat) (a : Option Nat) (normal : Bool)
  | redirector
  deriving DecidableEq

/-- The two variables (countlog/spi.go:11-18), and `handlerCache` (countlog/countlog.go:144) with its keys that are event names and those
that are places in the source (countlog/root.go:115-118, numbered here). -/
structure St where
  writer : Nat
  aggregator : Nat
  events : List (Bytes × Hnd)
  places : List (Nat × Hnd)

/-- What happens to an event: a writer writes it, an aggregator counts it, or the failure is reported (countlog/root.go:43, 65, 67, 87). -/
inductive Act where
  | out (w : Nat)
  | stats (a : Nat)
  | complaint
  deriving DecidableEq

/-- Assigning the variables (countlog/spi.go:11-18), or a log call at a place that passes the checks of levels (countlog/countlog.go:37-127,
root.go:64); `bad w` says that the handler of writer `w` panics on this event.  Handlers of aggregators do not panic here. -/
inductive Op where
  | setWriter (w : Nat)
  | setAggregator (a : Nat)
  | log (event : Bytes) (place : Nat) (bad : Nat → Bool)

/-- `newRootHandler`, countlog/root.go:13-28; `counts a event` says that aggregator `a` gives a handler for the event. -/
def St.make (counts : Nat → Bytes → Bool) (s : St) (event : Bytes) (normal : Bool) : Hnd :=
  .root s.writer (if counts s.aggregator event then some s.aggregator else none) normal

/-- The body of `Handle`, countlog/root.go:43 and 64-67, without a panic. -/
def deliver (w : Nat) : Option Nat → List Act
  | none => [.out w]
  | some a => [.out w, .stats a]

/-- `Handle` with `fallbackModeOnPanic`, countlog/root.go:36-44, 57-68, 86-91. -/
def fallback (bad : Nat → Bool) (w : Nat) (a : Option Nat) : List Act := if bad w then [.complaint] else deliver w a

/-- A handler in fallback mode handles an event (countlog/root.go:83, 102, 111); a redirector is never where this is used. -/
def Hnd.handle (bad : Nat → Bool) : Hnd → List Act
  | .root w a _ => fallback bad w a
  | .redirector => []

/-- `getHandler` and `newHandler`, countlog/countlog.go:198-220. -/
def St.handlerOf (counts : Nat → Bytes → Bool) (s : St) (event : Bytes) : Hnd × St :=
  match s.events.lookup event with
  | some h => (h, s)
  | none => (s.make counts event true, { s with events := (event, s.make counts event true) :: s.events })

/-- `Handle` of the handlers (countlog/root.go:36-113): after a panic `nomalModeOnPanic` stores a redirector and makes a handler for this
event (74-84), and the redirector keeps one for each place (97-113). -/
def St.serve (counts : Nat → Bytes → Bool) (event : Bytes) (place : Nat) (bad : Nat → Bool) (s : St) : Hnd → List Act × St
  | .root w a true =>
    if bad w then ((s.make counts event false).handle bad, { s with events := (event, .redirector) :: s.events })
    else (deliver w a, s)
  | .root w a false => (fallback bad w a, s)
  | .redirector =>
    match s.places.lookup place with
    | some h => (h.handle bad, s)
    | none => ((s.make counts event false).handle bad, { s with places := (place, s.make counts event false) :: s.places })

/-- One operation: what happened, and the state afterwards.  For log calls `log`, countlog/countlog.go:146-166. -/
def step (counts : Nat → Bytes → Bool) (s : St) : Op → List Act × St
  | .setWriter w => ([], { s with writer := w })
  | .setAggregator a => ([], { s with aggregator := a })
  | .log event place bad => (s.handlerOf counts event).2.serve counts event place bad (s.handlerOf counts event).1

/-- At the beginning writer and aggregator are those of countlog/spi.go:11-18, here number 0. -/
def St.init : St := ⟨0, 0, [], []⟩

/-- The state after operations. -/
def after (counts : Nat → Bytes → Bool) : St → List Op → St
  | s, [] => s
  | s, op :: ops => after counts (step counts s op).2 ops

/-- What a log call does after operations from the beginning. -/
def acts (counts : Nat → Bytes → Bool) (ops : List Op) (event : Bytes) (place : Nat) (bad : Nat → Bool) : List Act :=
  (step counts (after counts .init ops) (.log event place bad)).1

/-! ### Specification -/

/-- The writer assigned last. -/
def lastWriter : Nat → List Op → Nat
  | w, [] => w
  | _, .setWriter w :: ops => lastWriter w ops
  | w, _ :: ops => lastWriter w ops

/-- The aggregator assigned last. -/
def lastAggregator : Nat → List Op → Nat
  | a, [] => a
  | _, .setAggregator a :: ops => lastAggregator a ops
  | a, _ :: ops => lastAggregator a ops

/-- The operations before the first call with this event. -/
def beforeFirst (event : Bytes) : List Op → List Op
  | [] => []
  | .log e p bad :: ops => if e = event then [] else .log e p bad :: beforeFirst event ops
  | op :: ops => op :: beforeFirst event ops

/-- The writers that wrote it. -/
def writtenBy (l : List Act) : List Nat := l.filterMap fun
  | .out w => some w
  | _ => none

/-- The aggregators that counted it. -/
def countedBy (l : List Act) : List Nat := l.filterMap fun
  | .stats a => some a
  | _ => none

/-- No call with this event panics with writer `w`. -/
def Calm (event : Bytes) (w : Nat) (ops : List Op) : Prop := ∀ p bad, .log event p bad ∈ ops → bad w = false

/-! ### Lemmas -/

theorem lookup_cons {α : Type} [BEq α] [LawfulBEq α] [DecidableEq α] (k k' : α) (h : Hnd) (l : List (α × Hnd)) :
    List.lookup k ((k', h) :: l) = if k = k' then some h else l.lookup k := by
  rw [List.lookup_cons]
  by_cases hk : k = k'
  · subst hk; simp
  · have : (k == k') = false := by simpa using hk
    rw [this, if_neg hk]

theorem after_append (counts : Nat → Bytes → Bool) : ∀ (l1 l2 : List Op) (s : St), after counts s (l1 ++ l2) = after counts (after counts s l1) l2
  | [], _, _ => rfl
  | op :: l1, l2, s => after_append counts l1 l2 (step counts s op).2

theorem handlerOf_eq (counts : Nat → Bytes → Bool) (s : St) (event : Bytes) :
    (∀ h, s.events.lookup event = some h → s.handlerOf counts event = (h, s)) ∧
    (s.events.lookup event = none → s.handlerOf counts event =
      (s.make counts event true, { s with events := (event, s.make counts event true) :: s.events })) := by
  refine ⟨fun h hl => ?_, fun hl => ?_⟩
  · unfold St.handlerOf; rw [hl]
  · unfold St.handlerOf; rw [hl]

/-- The variables are changed by assignments only. -/
theorem step_vars (counts : Nat → Bytes → Bool) (s : St) (e : Bytes) (p : Nat) (bad : Nat → Bool) :
    (step counts s (.log e p bad)).2.writer = s.writer ∧ (step counts s (.log e p bad)).2.aggregator = s.aggregator := by
  have hh : (s.handlerOf counts e).2.writer = s.writer ∧ (s.handlerOf counts e).2.aggregator = s.aggregator := by
    cases hl : s.events.lookup e with
    | none => rw [(handlerOf_eq counts s e).2 hl]; exact ⟨rfl, rfl⟩
    | some h => rw [(handlerOf_eq counts s e).1 h hl]; exact ⟨rfl, rfl⟩
  rw [step]
  generalize s.handlerOf counts e = q at hh ⊢
  obtain ⟨h, t⟩ := q
  cases h with
  | redirector =>
    simp only [St.serve]
    cases t.places.lookup p <;> exact hh
  | root w a normal =>
    cases normal with
    | false => exact hh
    | true =>
      simp only [St.serve]
      by_cases hb : bad w = true
      · rw [if_pos hb]; exact hh
      · rw [if_neg hb]; exact hh

theorem after_vars (counts : Nat → Bytes → Bool) : ∀ (ops : List Op) (s : St),
    (after counts s ops).writer = lastWriter s.writer ops ∧ (after counts s ops).aggregator = lastAggregator s.aggregator ops := by
  intro ops
  induction ops with
  | nil => intro s; exact ⟨rfl, rfl⟩
  | cons op ops ih =>
    intro s
    have h := ih (step counts s op).2
    cases op with
    | setWriter w => exact h
    | setAggregator a => exact h
    | log e p bad =>
      obtain ⟨v1, v2⟩ := step_vars counts s e p bad
      rw [v1, v2] at h
      exact h

/-- Calls with other events leave the handler of an event alone. -/
theorem step_other (counts : Nat → Bytes → Bool) (s : St) (event e : Bytes) (p : Nat) (bad : Nat → Bool) (he : e ≠ event) :
    (step counts s (.log e p bad)).2.events.lookup event = s.events.lookup event := by
  have hh : (s.handlerOf counts e).2.events.lookup event = s.events.lookup event := by
    cases hl : s.events.lookup e with
    | none =>
      rw [(handlerOf_eq counts s e).2 hl]
      show List.lookup event ((e, s.make counts e true) :: s.events) = _
      rw [lookup_cons, if_neg fun x => he x.symm]
    | some h => rw [(handlerOf_eq counts s e).1 h hl]
  rw [step]
  generalize s.handlerOf counts e = q at hh ⊢
  obtain ⟨h, t⟩ := q
  cases h with
  | redirector =>
    simp only [St.serve]
    cases t.places.lookup p <;> exact hh
  | root w a normal =>
    cases normal with
    | false => exact hh
    | true =>
      simp only [St.serve]
      by_cases hb : bad w = true
      · rw [if_pos hb]
        show List.lookup event ((e, Hnd.redirector) :: t.events) = _
        rw [lookup_cons, if_neg fun x => he x.symm]
        exact hh
      · rw [if_neg hb]; exact hh

/-- A call with an event whose handler was made from `w` and `a`. -/
theorem step_known (counts : Nat → Bytes → Bool) (s : St) (event : Bytes) (p : Nat) (bad : Nat → Bool) (w : Nat) (a : Option Nat)
    (hl : s.events.lookup event = some (.root w a true)) :
    (bad w = false → step counts s (.log event p bad) = (deliver w a, s)) ∧
    (bad w = true → (step counts s (.log event p bad)).1 = (s.make counts event false).handle bad) := by
  refine ⟨fun hb => ?_, fun hb => ?_⟩
  · rw [step, (handlerOf_eq counts s event).1 _ hl]
    simp [St.serve, hb]
  · rw [step, (handlerOf_eq counts s event).1 _ hl]
    simp [St.serve, hb]

/-- The first call with an event. -/
theorem step_new (counts : Nat → Bytes → Bool) (s : St) (event : Bytes) (p : Nat) (bad : Nat → Bool)
    (hl : s.events.lookup event = none) (hb : bad s.writer = false) :
    (step counts s (.log event p bad)).1 = deliver s.writer (if counts s.aggregator event then some s.aggregator else none) ∧
    (step counts s (.log event p bad)).2.events.lookup event =
      some (.root s.writer (if counts s.aggregator event then some s.aggregator else none) true) := by
  rw [step, (handlerOf_eq counts s event).2 hl]
  simp only [St.make, St.serve]
  rw [if_neg (by simp [hb])]
  refine ⟨rfl, ?_⟩
  show List.lookup event ((event, _) :: s.events) = _
  rw [lookup_cons, if_pos rfl]

/-- A handler stays as long as its writer does not panic. -/
theorem known_stays (counts : Nat → Bytes → Bool) (event : Bytes) (w : Nat) (a : Option Nat) : ∀ (ops : List Op) (s : St), Calm event w ops →
    s.events.lookup event = some (.root w a true) → (after counts s ops).events.lookup event = some (.root w a true) := by
  intro ops
  induction ops with
  | nil => intro s _ h; exact h
  | cons op ops ih =>
    intro s hc h
    refine ih _ (fun p bad hm => hc p bad (List.mem_cons_of_mem _ hm)) ?_
    cases op with
    | setWriter w => exact h
    | setAggregator a => exact h
    | log e p bad =>
      by_cases he : e = event
      · subst he
        rw [((step_known counts s e p bad w a h).1 (hc p bad (by simp)))]
        exact h
      · rw [step_other counts s event e p bad he]; exact h

/-- An event that was not logged has no handler. -/
theorem unknown_stays (counts : Nat → Bytes → Bool) (event : Bytes) : ∀ (ops : List Op) (s : St), (∀ p bad, .log event p bad ∉ ops) →
    s.events.lookup event = none → (after counts s ops).events.lookup event = none := by
  intro ops
  induction ops with
  | nil => intro s _ h; exact h
  | cons op ops ih =>
    intro s hc h
    refine ih _ (fun p bad hm => hc p bad (List.mem_cons_of_mem _ hm)) ?_
    cases op with
    | setWriter w => exact h
    | setAggregator a => exact h
    | log e p bad =>
      have he : e ≠ event := fun e' => hc p bad (by rw [e']; simp)
      rw [step_other counts s event e p bad he]; exact h

theorem beforeFirst_spec (event : Bytes) : ∀ ops : List Op, (∀ p bad, .log event p bad ∉ beforeFirst event ops) ∧
    (beforeFirst event ops = ops ∨ ∃ p bad rest, ops = beforeFirst event ops ++ .log event p bad :: rest) := by
  intro ops
  induction ops with
  | nil => exact ⟨by simp [beforeFirst], .inl rfl⟩
  | cons op ops ih =>
    obtain ⟨h1, h2⟩ := ih
    have add : ∀ o : Op, (∀ p bad, o ≠ .log event p bad) → (∀ p bad, .log event p bad ∉ o :: beforeFirst event ops) ∧
        (o :: beforeFirst event ops = o :: ops ∨ ∃ p bad rest, o :: ops = (o :: beforeFirst event ops) ++ .log event p bad :: rest) := by
      intro o ho
      refine ⟨fun p bad hm => ?_, ?_⟩
      · rcases List.mem_cons.mp hm with e | hm
        · exact ho p bad e.symm
        · exact h1 p bad hm
      · rcases h2 with e | ⟨p, bad, rest, e⟩
        · exact .inl (by rw [e])
        · exact .inr ⟨p, bad, rest, by rw [List.cons_append, ← e]⟩
    cases op with
    | setWriter w => exact add _ (by simp)
    | setAggregator a => exact add _ (by simp)
    | log e p bad =>
      by_cases he : e = event
      · subst he
        rw [beforeFirst, if_pos rfl]
        exact ⟨by simp, .inr ⟨p, bad, ops, rfl⟩⟩
      · rw [beforeFirst, if_neg he]
        exact add _ fun p' bad' e' => he (by injection e')

theorem writtenBy_deliver (w : Nat) (a : Option Nat) : writtenBy (deliver w a) = [w] := by cases a <;> rfl
theorem countedBy_deliver (w : Nat) (a : Option Nat) : countedBy (deliver w a) = a.toList := by cases a <;> rfl

/-! ### C164 -/

/-- Which writer and aggregator an event gets to, exactly: those assigned when an event of its name was first logged, as long as that
writer does not panic on events of this name.  What is assigned later, and what happens to other events, changes nothing. -/
theorem first_decides (counts : Nat → Bytes → Bool) (ops : List Op) (event : Bytes) (place : Nat) (bad : Nat → Bool)
    (hc : Calm event (lastWriter 0 (beforeFirst event ops)) ops) (hb : bad (lastWriter 0 (beforeFirst event ops)) = false) :
    writtenBy (acts counts ops event place bad) = [lastWriter 0 (beforeFirst event ops)] ∧
    countedBy (acts counts ops event place bad) =
      if counts (lastAggregator 0 (beforeFirst event ops)) event then [lastAggregator 0 (beforeFirst event ops)] else [] := by
  obtain ⟨h1, h2⟩ := beforeFirst_spec event ops
  have hv := after_vars counts (beforeFirst event ops) .init
  have hu := unknown_stays counts event (beforeFirst event ops) .init h1 rfl
  simp only [St.init] at hv
  have fin : ∀ (w a : Nat), writtenBy (deliver w (if counts a event then some a else none)) = [w] ∧
      countedBy (deliver w (if counts a event then some a else none)) = if counts a event then [a] else [] := by
    intro w a
    rw [writtenBy_deliver, countedBy_deliver]
    by_cases hca : counts a event = true <;> simp [hca]
  unfold acts
  rcases h2 with e | ⟨p, bad', rest, e⟩
  · rw [e] at hv hu hb ⊢
    have hn := (step_new counts (after counts .init ops) event place bad hu (by rw [show (after counts .init ops).writer = _ from hv.1]; exact hb)).1
    rw [hn, show (after counts .init ops).writer = _ from hv.1, show (after counts .init ops).aggregator = _ from hv.2]
    exact fin _ _
  · generalize hpre : beforeFirst event ops = pre at *
    have hb' : bad' (lastWriter 0 pre) = false := hc p bad' (by rw [e]; simp)
    have hn := (step_new counts (after counts .init pre) event p bad' hu (by rw [show (after counts .init pre).writer = _ from hv.1]; exact hb')).2
    rw [show (after counts .init pre).writer = _ from hv.1, show (after counts .init pre).aggregator = _ from hv.2] at hn
    have hk := known_stays counts event _ _ rest _ (fun p bad hm => hc p bad (by rw [e]; simp [hm])) hn
    have hs : after counts (step counts (after counts .init pre) (.log event p bad')).2 rest = after counts .init ops := by
      conv => rhs; rw [e]
      rw [after_append]
      rfl
    rw [hs] at hk
    rw [(step_known counts _ event place bad _ _ hk).1 hb]
    exact fin _ _

/-- C164, partial: if writer and aggregator are assigned before anything is logged, every event gets to those assigned last: it is written
by that writer, or its panic is reported, in every history with any panics. -/
theorem assigned_first_partial (counts : Nat → Bytes → Bool) (sets logs : List Op) (hs : ∀ e p bad, .log e p bad ∉ sets)
    (hl : ∀ op ∈ logs, ∃ e p bad, op = .log e p bad) (event : Bytes) (place : Nat) (bad : Nat → Bool) :
    (bad (lastWriter 0 sets) = false → writtenBy (acts counts (sets ++ logs) event place bad) = [lastWriter 0 sets] ∧
      ∀ a ∈ countedBy (acts counts (sets ++ logs) event place bad), a = lastAggregator 0 sets) ∧
    (bad (lastWriter 0 sets) = true → acts counts (sets ++ logs) event place bad = [.complaint]) := by
  -- all handlers are made from the two assigned last
  let Good (W A : Nat) (s : St) : Prop := s.writer = W ∧ s.aggregator = A ∧
    (∀ e h, s.events.lookup e = some h → h = .redirector ∨ ∃ a normal, h = .root W a normal ∧ ∀ x, a = some x → x = A) ∧
    (∀ p h, s.places.lookup p = some h → ∃ a normal, h = .root W a normal ∧ ∀ x, a = some x → x = A)
  have hsets : ∀ (sets : List Op) (s : St), (∀ e p bad, .log e p bad ∉ sets) → s.events = [] → s.places = [] →
      (after counts s sets).events = [] ∧ (after counts s sets).places = [] := by
    intro sets
    induction sets with
    | nil => intro s _ h1 h2; exact ⟨h1, h2⟩
    | cons op sets ih =>
      intro s h h1 h2
      refine ih _ (fun e p bad hm => h e p bad (List.mem_cons_of_mem _ hm)) ?_ ?_
      · cases op with
        | setWriter w => exact h1
        | setAggregator a => exact h1
        | log e p bad => exact absurd (by simp) (h e p bad)
      · cases op with
        | setWriter w => exact h2
        | setAggregator a => exact h2
        | log e p bad => exact absurd (by simp) (h e p bad)
  have hmake : ∀ (W A : Nat) (s : St) (e : Bytes) (normal : Bool), s.writer = W → s.aggregator = A → ∃ a, s.make counts e normal = .root W a normal ∧ ∀ x, a = some x → x = A := by
    intro W A s e normal h1 h2
    refine ⟨_, by unfold St.make; rw [h1, h2], fun x hx => ?_⟩
    by_cases hca : counts A e = true
    · rw [if_pos hca] at hx; injection hx with hx; exact hx.symm
    · rw [if_neg hca] at hx; cases hx
  have hhandle : ∀ W A (a : Option Nat) (bad : Nat → Bool), (∀ x, a = some x → x = A) →
      (bad W = false → fallback bad W a = deliver W a) ∧ (bad W = true → fallback bad W a = [.complaint]) := by
    intro W A a bad _
    exact ⟨fun hb => by simp [fallback, hb], fun hb => by simp [fallback, hb]⟩
  have hof : ∀ W A s e, Good W A s → Good W A (s.handlerOf counts e).2 ∧
      ((s.handlerOf counts e).1 = .redirector ∨ ∃ a normal, (s.handlerOf counts e).1 = .root W a normal ∧ ∀ x, a = some x → x = A) := by
    intro W A s e hg
    obtain ⟨g1, g2, g3, g4⟩ := hg
    cases hl : s.events.lookup e with
    | some h =>
      rw [(handlerOf_eq counts s e).1 h hl]
      exact ⟨⟨g1, g2, g3, g4⟩, g3 e h hl⟩
    | none =>
      rw [(handlerOf_eq counts s e).2 hl]
      obtain ⟨a, m1, m2⟩ := hmake W A s e true g1 g2
      refine ⟨⟨g1, g2, fun e' h hl' => ?_, g4⟩, .inr ⟨a, true, m1, m2⟩⟩
      rw [show ({ s with events := (e, s.make counts e true) :: s.events } : St).events = (e, s.make counts e true) :: s.events from rfl,
        lookup_cons] at hl'
      by_cases he : e' = e
      · rw [if_pos he] at hl'
        injection hl' with hl'
        exact .inr ⟨a, true, by rw [← hl', m1], m2⟩
      · rw [if_neg he] at hl'
        exact g3 e' h hl'
  have hstep : ∀ W A s e p bad, Good W A s → Good W A (step counts s (.log e p bad)).2 ∧
      ∃ a, (∀ x, a = some x → x = A) ∧ (bad W = false → (step counts s (.log e p bad)).1 = deliver W a) ∧
        (bad W = true → (step counts s (.log e p bad)).1 = [.complaint]) := by
    intro W A s e p bad hg
    obtain ⟨hg', hh⟩ := hof W A s e hg
    rw [step]
    generalize s.handlerOf counts e = q at hg' hh ⊢
    obtain ⟨h, t⟩ := q
    simp only at hg' hh
    obtain ⟨g1, g2, g3, g4⟩ := hg'
    rcases hh with rfl | ⟨a, normal, rfl, ha⟩
    · simp only [St.serve]
      cases hp : t.places.lookup p with
      | some h =>
        obtain ⟨a, normal, rfl, ha⟩ := g4 p h hp
        exact ⟨⟨g1, g2, g3, g4⟩, a, ha, (hhandle W A a bad ha).1, (hhandle W A a bad ha).2⟩
      | none =>
        obtain ⟨a, m1, m2⟩ := hmake W A t e false g1 g2
        refine ⟨⟨g1, g2, g3, fun p' h hl' => ?_⟩, a, m2, ?_, ?_⟩
        · rw [show ({ t with places := (p, t.make counts e false) :: t.places } : St).places = (p, t.make counts e false) :: t.places from rfl,
            lookup_cons] at hl'
          by_cases he : p' = p
          · rw [if_pos he] at hl'
            injection hl' with hl'
            exact ⟨a, false, by rw [← hl', m1], m2⟩
          · rw [if_neg he] at hl'
            exact g4 p' h hl'
        · simp only [m1]; exact (hhandle W A a bad m2).1
        · simp only [m1]; exact (hhandle W A a bad m2).2
    · cases normal with
      | false => exact ⟨⟨g1, g2, g3, g4⟩, a, ha, (hhandle W A a bad ha).1, (hhandle W A a bad ha).2⟩
      | true =>
        simp only [St.serve]
        cases hb : bad W with
        | false => exact ⟨⟨g1, g2, g3, g4⟩, a, ha, fun _ => rfl, fun h => by cases h⟩
        | true =>
          obtain ⟨a', m1, m2⟩ := hmake W A t e false g1 g2
          refine ⟨⟨g1, g2, fun e' h hl' => ?_, g4⟩, a', m2, (fun h => by cases h), fun _ => ?_⟩
          · simp only [if_true] at hl'
            rw [lookup_cons] at hl'
            by_cases he : e' = e
            · rw [if_pos he] at hl'
              injection hl' with hl'
              exact .inl hl'.symm
            · rw [if_neg he] at hl'
              exact g3 e' h hl'
          · simp only [if_true, m1]
            exact (hhandle W A a' bad m2).2 hb
  have hlogs : ∀ (logs : List Op) W A s, (∀ op ∈ logs, ∃ e p bad, op = .log e p bad) → Good W A s → Good W A (after counts s logs) := by
    intro logs
    induction logs with
    | nil => intro W A s _ h; exact h
    | cons op logs ih =>
      intro W A s hl hg
      obtain ⟨e, p, bad, rfl⟩ := hl op (by simp)
      exact ih W A _ (fun o ho => hl o (List.mem_cons_of_mem _ ho)) (hstep W A s e p bad hg).1
  have hv := after_vars counts sets .init
  obtain ⟨e1, e2⟩ := hsets sets .init hs rfl rfl
  have hg0 : Good (lastWriter 0 sets) (lastAggregator 0 sets) (after counts .init sets) :=
    ⟨hv.1, hv.2, by rw [e1]; simp, by rw [e2]; simp⟩
  have hg := hlogs logs _ _ _ hl hg0
  rw [← after_append] at hg
  obtain ⟨-, a, ha, d1, d2⟩ := hstep _ _ _ event place bad hg
  unfold acts
  refine ⟨fun hb => ?_, fun hb => d2 hb⟩
  rw [d1 hb, writtenBy_deliver, countedBy_deliver]
  refine ⟨rfl, fun x hx => ha x ?_⟩
  simpa using hx

/-- An event logged for the first time gets to the writer and aggregator assigned last. -/
theorem new_event (counts : Nat → Bytes → Bool) (ops : List Op) (event : Bytes) (place : Nat) (bad : Nat → Bool)
    (hn : ∀ p bad, .log event p bad ∉ ops) (hb : bad (lastWriter 0 ops) = false) :
    writtenBy (acts counts ops event place bad) = [lastWriter 0 ops] ∧
    countedBy (acts counts ops event place bad) = if counts (lastAggregator 0 ops) event then [lastAggregator 0 ops] else [] := by
  have hbf : beforeFirst event ops = ops := by
    rcases (beforeFirst_spec event ops).2 with e | ⟨p, bad', rest, e⟩
    · exact e
    · exact absurd (by rw [e]; simp) (hn p bad')
  have := first_decides counts ops event place bad (fun p bad' hm => absurd hm (hn p bad')) (by rw [hbf]; exact hb)
  rwa [hbf] at this

theorem lastWriter_ne : ∀ (ops : List Op) (w : Nat), w ≠ 0 → (∀ w, .setWriter w ∈ ops → w ≠ 0) → lastWriter w ops ≠ 0 := by
  intro ops
  induction ops with
  | nil => intro w h _; exact h
  | cons op ops ih =>
    intro w h hm
    have hm' := fun w h' => hm w (List.mem_cons_of_mem op h')
    cases op with
    | setWriter w' => exact ih w' (hm w' (by simp)) hm'
    | setAggregator a => exact ih w h hm'
    | log e p bad => exact ih w h hm'

/-- The full statement of C164 is false: once an event was logged, events of its name stay with the writer of that time, whatever is assigned
and logged afterwards. -/
theorem assigned_late (counts : Nat → Bytes → Bool) (event : Bytes) (place : Nat) (new : Nat) (hnew : new ≠ 0) (more : List Op)
    (hm : ∀ w, .setWriter w ∈ more → w ≠ 0) (hc : Calm event 0 more) :
    writtenBy (acts counts (.log event place (fun _ => false) :: .setWriter new :: more) event place fun _ => false) = [0] ∧
    lastWriter 0 (.log event place (fun _ => false) :: .setWriter new :: more) ≠ 0 := by
  have h := (first_decides counts (.log event place (fun _ => false) :: .setWriter new :: more) event place (fun _ => false) (by
    rw [beforeFirst, if_pos rfl]
    intro p bad hm
    rcases List.mem_cons.mp hm with e | hm
    · injection e with _ _ e; rw [e]
    · rcases List.mem_cons.mp hm with e | hm
      · cases e
      · exact hc p bad hm) rfl).1
  refine ⟨?_, lastWriter_ne more new hnew hm⟩
  rw [h, beforeFirst, if_pos rfl]
  rfl

/-- If the writer an event stays with panics, the event that made it panic gets to the one assigned last, unless that panics too. -/
theorem panic_moves (counts : Nat → Bytes → Bool) (ops : List Op) (event : Bytes) (place : Nat) (bad : Nat → Bool)
    (hl : ∃ p bad', .log event p bad' ∈ ops) (hc : Calm event (lastWriter 0 (beforeFirst event ops)) ops)
    (hb : bad (lastWriter 0 (beforeFirst event ops)) = true) :
    (bad (lastWriter 0 ops) = false → writtenBy (acts counts ops event place bad) = [lastWriter 0 ops]) ∧
    (bad (lastWriter 0 ops) = true → acts counts ops event place bad = [.complaint]) := by
  obtain ⟨h1, h2⟩ := beforeFirst_spec event ops
  have hv := after_vars counts (beforeFirst event ops) .init
  have hu := unknown_stays counts event (beforeFirst event ops) .init h1 rfl
  have hv' := (after_vars counts ops .init).1
  simp only [St.init] at hv hv'
  unfold acts
  rcases h2 with e | ⟨p, bad', rest, e⟩
  · obtain ⟨p, bad', hm⟩ := hl
    rw [e] at h1
    exact absurd hm (h1 p bad')
  · generalize hpre : beforeFirst event ops = pre at *
    have hb' : bad' (lastWriter 0 pre) = false := hc p bad' (by rw [e]; simp)
    have hn := (step_new counts (after counts .init pre) event p bad' hu (by rw [show (after counts .init pre).writer = _ from hv.1]; exact hb')).2
    rw [show (after counts .init pre).writer = _ from hv.1, show (after counts .init pre).aggregator = _ from hv.2] at hn
    have hk := known_stays counts event _ _ rest _ (fun p bad hm => hc p bad (by rw [e]; simp [hm])) hn
    have hs : after counts (step counts (after counts .init pre) (.log event p bad')).2 rest = after counts .init ops := by
      conv => rhs; rw [e]
      rw [after_append]
      rfl
    rw [hs] at hk
    rw [(step_known counts _ event place bad _ _ hk).2 hb]
    simp only [St.make, Hnd.handle, fallback, show (after counts .init ops).writer = _ from hv']
    exact ⟨fun h => by rw [if_neg (by simp [h]), writtenBy_deliver], fun h => by rw [if_pos h]⟩

/-! ### Cases -/

/-- Logging, assigning both, logging two events. -/
def sample : List Op :=
  [.log (asc "a") 1 fun _ => false, .setWriter 1, .setAggregator 2, .log (asc "b") 2 fun _ => false, .setWriter 3]

example : acts (fun a _ => a == 2) sample (asc "a") 1 (fun _ => false) = [.out 0] := by decide
example : acts (fun a _ => a == 2) sample (asc "b") 1 (fun _ => false) = [.out 1, .stats 2] := by decide
example : acts (fun a _ => a == 2) sample (asc "c") 1 (fun _ => false) = [.out 3, .stats 2] := by decide
example : acts (fun a _ => a == 2) sample (asc "a") 1 (fun w => w == 0) = [.out 3, .stats 2] := by decide
example : acts (fun a _ => a == 2) sample (asc "a") 1 (fun _ => true) = [.complaint] := by decide

example : writtenBy (acts (fun _ _ => false) [.log (asc "a") 1 fun _ => false, .setWriter 1, .log (asc "b") 2 fun _ => true] (asc "a") 1
    fun _ => false) = [0] :=
  (assigned_late (fun _ _ => false) (asc "a") 1 1 (by decide) [.log (asc "b") 2 fun _ => true] (by simp) (by
    intro p bad hm
    simp only [List.mem_singleton, Op.log.injEq] at hm
    exact absurd hm.1 (by decide))).1

example : writtenBy (acts (fun _ _ => true) ([.setWriter 4] ++ [.log (asc "a") 1 fun _ => true]) (asc "a") 1 fun _ => false) = [4] :=
  ((assigned_first_partial (fun _ _ => true) [.setWriter 4] [.log (asc "a") 1 fun _ => true] (by simp)
    (fun op h => ⟨_, _, _, List.mem_singleton.mp h⟩) (asc "a") 1 fun _ => false).1 rfl).1

end Verif.Countlog.Sinks
