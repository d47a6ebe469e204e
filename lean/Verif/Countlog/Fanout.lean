import Verif.Countlog.Places

/-!
# C167: writers made of several handlers

`spi.EventHandlers` (countlog/spi/spi.go:97-107) hands an event to one handler after the other.  Used as the handlers of `EventWriter`, they run
inside the root handler, which tries again after a panic (countlog/root.go:36-113).
-/

namespace Verif.Countlog.Fanout

/-! ### Model -/

/-- A cached handler, with the number of the properties it was made for (countlog/root.go:30-34, 50-55, 93-95). -/
inductive Hnd where
  | root (sample : Nat) (normal : Bool)
  | redirector
  deriving DecidableEq

/-- `handlerCache` (countlog/countlog.go:144, countlog/root.go:115-118). -/
structure St where
  events : List (Bytes × Hnd)
  places : List (Nat × Hnd)

/-- A call that passes the levels, at a place (numbered), with properties `props`; `bad h sample` says that handler `h`, when it was made for
`sample`, panics on this event (countlog/countlog.go:146-166). -/
structure Op where
  event : Bytes
  place : Nat
  props : Nat
  bad : Nat → Nat → Bool

/-- `EventHandlers.Handle`, countlog/spi/spi.go:99-103: the handlers that have handled the event, and whether one has panicked, which ends the
loop. -/
def fan (bad : Nat → Bool) : List Nat → List Nat × Bool
  | [] => ([], false)
  | h :: hs => if bad h then ([], true) else (h :: (fan bad hs).1, (fan bad hs).2)

/-- `Handle` with `fallbackModeOnPanic`, countlog/root.go:36-44, 57-68, 86-91: a panic is reported only. -/
def fallback (hs : List Nat) (op : Op) (sample : Nat) : List Nat := (fan (fun h => op.bad h sample) hs).1

/-- `getHandler` and `newHandler`, countlog/countlog.go:198-220. -/
def St.handlerOf (s : St) (op : Op) : Hnd × St :=
  match s.events.lookup op.event with
  | some h => (h, s)
  | none => (.root op.props true, { s with events := (op.event, .root op.props true) :: s.events })

/-- `Handle` of the handlers, countlog/root.go:36-113: who has handled the event, in order.  After the first panic all handlers are made again
for the properties of the event and all of them run again (74-84). -/
def St.serve (s : St) (hs : List Nat) (op : Op) : Hnd → List Nat × St
  | .root sample true =>
    if (fan (fun h => op.bad h sample) hs).2 then
      ((fan (fun h => op.bad h sample) hs).1 ++ fallback hs op op.props, { s with events := (op.event, .redirector) :: s.events })
    else ((fan (fun h => op.bad h sample) hs).1, s)
  | .root sample false => (fallback hs op sample, s)
  | .redirector =>
    match s.places.lookup op.place with
    | some (.root sample _) => (fallback hs op sample, s)
    | some .redirector => ([], s) -- never stored under a place
    | none => (fallback hs op op.props, { s with places := (op.place, .root op.props false) :: s.places })

/-- A call: who has handled the event, and the state afterwards (countlog/countlog.go:146-166). -/
def step (hs : List Nat) (s : St) (op : Op) : List Nat × St := (s.handlerOf op).2.serve hs op (s.handlerOf op).1

/-- The state after calls. -/
def after (hs : List Nat) : St → List Op → St
  | s, [] => s
  | s, op :: ops => after hs (step hs s op).2 ops

/-- Who handles the event of a call after others. -/
def got (hs : List Nat) (ops : List Op) (op : Op) : List Nat := (step hs (after hs ⟨[], []⟩ ops) op).1

/-! ### Lemmas -/

theorem fan_fine {bad : Nat → Bool} : ∀ {hs : List Nat}, (∀ h ∈ hs, bad h = false) → fan bad hs = (hs, false)
  | [], _ => rfl
  | h :: hs, hb => by
    have ih := fan_fine (hs := hs) fun x hx => hb x (List.mem_cons_of_mem _ hx)
    simp [fan, hb h (by simp), ih]

theorem fan_stops {bad : Nat → Bool} : ∀ (pre : List Nat) (h : Nat) (post : List Nat), (∀ x ∈ pre, bad x = false) → bad h = true →
    fan bad (pre ++ h :: post) = (pre, true)
  | [], h, post, _, hb => by simp [fan, hb]
  | x :: pre, h, post, hp, hb => by
    have ih := fan_stops pre h post (fun y hy => hp y (List.mem_cons_of_mem _ hy)) hb
    simp [fan, hp x (by simp), ih]

theorem fan_prefix (bad : Nat → Bool) : ∀ hs : List Nat, (fan bad hs).1 <+: hs
  | [] => List.prefix_rfl
  | h :: hs => by
    unfold fan
    by_cases hb : bad h = true
    · rw [if_pos hb]; exact List.nil_prefix
    · rw [if_neg hb]
      exact (List.prefix_cons_inj h).2 (fan_prefix bad hs)

theorem fan_before {bad : Nat → Bool} (pre : List Nat) (h : Nat) (post : List Nat) (hb : bad h = true) :
    ∀ x ∈ (fan bad (pre ++ h :: post)).1, x ∈ pre := by
  induction pre with
  | nil => intro x hx; simp [fan, hb] at hx
  | cons y pre ih =>
    intro x hx
    simp only [List.cons_append, fan] at hx
    by_cases hy : bad y = true
    · rw [if_pos hy] at hx; cases hx
    · rw [if_neg hy] at hx
      rcases List.mem_cons.1 hx with rfl | hx
      · simp
      · exact List.mem_cons_of_mem _ (ih x hx)

theorem handlerOf_some (s : St) (op : Op) (h : Hnd) (hl : s.events.lookup op.event = some h) : s.handlerOf op = (h, s) := by
  unfold St.handlerOf; rw [hl]

theorem handlerOf_none (s : St) (op : Op) (hl : s.events.lookup op.event = none) :
    s.handlerOf op = (.root op.props true, { s with events := (op.event, .root op.props true) :: s.events }) := by
  unfold St.handlerOf; rw [hl]

theorem lookup_cons {α : Type} [BEq α] [LawfulBEq α] [DecidableEq α] (k k' : α) (h : Hnd) (l : List (α × Hnd)) :
    List.lookup k ((k', h) :: l) = if k = k' then some h else l.lookup k := by
  rw [List.lookup_cons]
  by_cases hk : k = k'
  · subst hk; simp
  · have : (k == k') = false := by simpa using hk
    rw [this, if_neg hk]

/-- Under places there are handlers in fallback mode, under names there are none. -/
def Ok (s : St) : Prop := (∀ e n, s.events.lookup e ≠ some (.root n false)) ∧ ∀ k h, s.places.lookup k = some h → ∃ n, h = .root n false

theorem Ok.event {s : St} (h : Ok s) (e : Bytes) (x : Hnd) (hx : ∀ n, x ≠ .root n false) : Ok { s with events := (e, x) :: s.events } := by
  refine ⟨fun e' n hh => ?_, h.2⟩
  rw [lookup_cons] at hh
  by_cases he : e' = e
  · rw [if_pos he] at hh; injection hh with hh; exact hx n hh
  · rw [if_neg he] at hh; exact h.1 e' n hh

theorem Ok.place {s : St} (h : Ok s) (k n : Nat) : Ok { s with places := (k, .root n false) :: s.places } := by
  refine ⟨h.1, fun k' x hh => ?_⟩
  rw [lookup_cons] at hh
  by_cases he : k' = k
  · rw [if_pos he] at hh; injection hh with hh; exact ⟨n, hh.symm⟩
  · rw [if_neg he] at hh; exact h.2 k' x hh

/-- How a call can go: the first time for the name or later, in normal mode, in fallback mode. -/
theorem step_cases (hs : List Nat) (s : St) (op : Op) (h : Ok s) : Ok (step hs s op).2 ∧
    ((∃ sample, s.events.lookup op.event ≠ some .redirector ∧ (fan (fun x => op.bad x sample) hs).2 = true ∧
        (step hs s op).1 = (fan (fun x => op.bad x sample) hs).1 ++ fallback hs op op.props ∧
        (step hs s op).2.events.lookup op.event = some .redirector) ∨
      ∃ sample, (step hs s op).1 = (fan (fun x => op.bad x sample) hs).1) := by
  have hh : Ok (s.handlerOf op).2 ∧ (∀ n, (s.handlerOf op).1 ≠ .root n false) ∧
      (∀ n b, (s.handlerOf op).1 = .root n b → s.events.lookup op.event ≠ some .redirector) := by
    cases hl : s.events.lookup op.event with
    | some x =>
      rw [handlerOf_some s op x hl]
      exact ⟨h, fun n hx => h.1 op.event n (by rw [hl]; exact congrArg some hx), fun n b hx hy => by
        injection hy with hy; simp only at hx; rw [hx] at hy; cases hy⟩
    | none =>
      rw [handlerOf_none s op hl]
      exact ⟨h.event _ _ (fun n hx => (by injection hx with _ hx; cases hx)), fun n hx => (by injection hx with _ hx; cases hx),
        fun n b _ hy => (by cases hy)⟩
  rw [step]
  generalize s.handlerOf op = q at hh ⊢
  obtain ⟨x, t⟩ := q
  simp only at hh ⊢
  obtain ⟨hok, hroot, hred⟩ := hh
  cases x with
  | root sample normal =>
    cases normal with
    | false => exact absurd rfl (hroot sample)
    | true =>
      simp only [St.serve]
      by_cases hb : (fan (fun h => op.bad h sample) hs).2 = true
      · rw [if_pos hb]
        exact ⟨hok.event _ _ (fun n hx => (by cases hx)), .inl ⟨sample, hred _ _ rfl, hb, rfl, by rw [lookup_cons, if_pos rfl]⟩⟩
      · rw [if_neg hb]
        exact ⟨hok, .inr ⟨sample, rfl⟩⟩
  | redirector =>
    simp only [St.serve]
    cases hl : t.places.lookup op.place with
    | none => exact ⟨hok.place _ _, .inr ⟨op.props, rfl⟩⟩
    | some g =>
      obtain ⟨n, rfl⟩ := hok.2 _ _ hl
      exact ⟨hok, .inr ⟨n, rfl⟩⟩

theorem ok_init : Ok ⟨[], []⟩ := ⟨fun e n h => (by cases h), fun k h hh => (by cases hh)⟩

theorem after_ok (hs : List Nat) : ∀ (ops : List Op) (s : St), Ok s → Ok (after hs s ops)
  | [], _, h => h
  | op :: ops, _, h => after_ok hs ops _ (step_cases hs _ op h).1

theorem got_cases (hs : List Nat) (ops : List Op) (op : Op) :
    (∃ sample, (after hs ⟨[], []⟩ ops).events.lookup op.event ≠ some .redirector ∧ (fan (fun x => op.bad x sample) hs).2 = true ∧
        got hs ops op = (fan (fun x => op.bad x sample) hs).1 ++ (fan (fun x => op.bad x op.props) hs).1 ∧
        (step hs (after hs ⟨[], []⟩ ops) op).2.events.lookup op.event = some .redirector) ∨
      ∃ sample, got hs ops op = (fan (fun x => op.bad x sample) hs).1 :=
  (step_cases hs _ op (after_ok hs ops _ ok_init)).2

/-! ### C167 -/

/-- C167, partial: an event on which no handler panics is handled by all of them, once each and in their order, whatever events and panics
there were before. -/
theorem all_once_partial (hs : List Nat) (ops : List Op) (op : Op) (hb : ∀ h ∈ hs, ∀ sample, op.bad h sample = false) : got hs ops op = hs := by
  have hf : ∀ sample, fan (fun x => op.bad x sample) hs = (hs, false) := fun sample => fan_fine fun h hh => hb h hh sample
  rcases got_cases hs ops op with ⟨sample, -, h, -⟩ | ⟨sample, h⟩
  · rw [hf] at h; cases h
  · rw [h, hf]

/-- The full statement is false: handlers behind one that panics on an event do not get it, at any time. -/
theorem behind_silenced (pre : List Nat) (h : Nat) (post : List Nat) (ops : List Op) (op : Op) (hb : ∀ sample, op.bad h sample = true) :
    ∀ x ∈ got (pre ++ h :: post) ops op, x ∈ pre := by
  have hf : ∀ sample, ∀ x ∈ (fan (fun x => op.bad x sample) (pre ++ h :: post)).1, x ∈ pre := fun sample => fan_before pre h post (hb sample)
  rcases got_cases (pre ++ h :: post) ops op with ⟨sample, -, -, e, -⟩ | ⟨sample, e⟩
  · rw [e]
    intro x hx
    rcases List.mem_append.1 hx with hx | hx
    · exact hf _ x hx
    · exact hf _ x hx
  · rw [e]; exact hf _

/-- The full statement is false: the first event of a name, if a handler panics on it, is handled twice by those before. -/
theorem before_again (pre : List Nat) (h : Nat) (post : List Nat) (event : Bytes) (place props : Nat) (bad : Nat → Nat → Bool)
    (hp : ∀ x ∈ pre, bad x props = false) (hb : bad h props = true) : got (pre ++ h :: post) [] ⟨event, place, props, bad⟩ = pre ++ pre := by
  have hf := fan_stops (bad := fun x => bad x props) pre h post hp hb
  simp [got, after, step, St.handlerOf, St.serve, fallback, hf]

theorem count_fan (bad : Nat → Bool) {hs : List Nat} (hn : hs.Nodup) (x : Nat) : (fan bad hs).1.count x ≤ 1 :=
  List.nodup_iff_count.1 (List.Nodup.sublist (fan_prefix bad hs).sublist hn) x

/-- No handler handles an event more than twice. -/
theorem at_most_twice (hs : List Nat) (hn : hs.Nodup) (ops : List Op) (op : Op) (x : Nat) : (got hs ops op).count x ≤ 2 := by
  rcases got_cases hs ops op with ⟨sample, -, -, e, -⟩ | ⟨sample, e⟩
  · rw [e, List.count_append]
    have h1 := count_fan (fun x => op.bad x sample) hn x
    have h2 := count_fan (fun x => op.bad x op.props) hn x
    omega
  · rw [e]
    have := count_fan (fun x => op.bad x sample) hn x
    omega

theorem redirector_stays (hs : List Nat) (e : Bytes) : ∀ (ops : List Op) (s : St), s.events.lookup e = some .redirector →
    (after hs s ops).events.lookup e = some .redirector := by
  intro ops
  induction ops with
  | nil => intro s h; exact h
  | cons op ops ih =>
    intro s h
    refine ih _ ?_
    by_cases he : op.event = e
    · rw [← he] at h
      rw [step, handlerOf_some s op _ h, ← he]
      simp only [St.serve]
      cases s.places.lookup op.place with
      | none => exact h
      | some g => cases g <;> exact h
    · have hh : (s.handlerOf op).2.events.lookup e = some .redirector := by
        cases hl : s.events.lookup op.event with
        | some x => rw [handlerOf_some s op x hl]; exact h
        | none => rw [handlerOf_none s op hl]; show List.lookup e (_ :: _) = _; rw [lookup_cons, if_neg fun x => he x.symm]; exact h
      rw [step]
      generalize s.handlerOf op = q at hh ⊢
      obtain ⟨x, t⟩ := q
      simp only at hh ⊢
      cases x with
      | root sample normal =>
        cases normal with
        | false => exact hh
        | true =>
          simp only [St.serve]
          by_cases hb : (fan (fun h => op.bad h sample) hs).2 = true
          · rw [if_pos hb]; show List.lookup e (_ :: _) = _; rw [lookup_cons, if_neg fun x => he x.symm]; exact hh
          · rw [if_neg hb]; exact hh
      | redirector =>
        simp only [St.serve]
        cases t.places.lookup op.place with
        | none => exact hh
        | some g => cases g <;> exact hh

theorem after_append (hs : List Nat) : ∀ (l1 l2 : List Op) (s : St), after hs s (l1 ++ l2) = after hs (after hs s l1) l2
  | [], _, _ => rfl
  | op :: l1, l2, s => after_append hs l1 l2 (step hs s op).2

/-- This happens once for an event name: after an event that was handled twice by someone, no event of the name is. -/
theorem twice_once (hs : List Nat) (hn : hs.Nodup) (ops : List Op) (op : Op) (more : List Op) (op' : Op) (he : op'.event = op.event) (x y : Nat)
    (h2 : (got hs ops op).count x = 2) : (got hs (ops ++ op :: more) op').count y ≤ 1 := by
  have hr : (step hs (after hs ⟨[], []⟩ ops) op).2.events.lookup op.event = some .redirector := by
    rcases got_cases hs ops op with ⟨sample, -, -, -, e⟩ | ⟨sample, e⟩
    · exact e
    · rw [e] at h2
      have := count_fan (fun x => op.bad x sample) hn x
      omega
  have hr' := redirector_stays hs op.event more _ hr
  have e1 : after hs (step hs (after hs ⟨[], []⟩ ops) op).2 more = after hs ⟨[], []⟩ (ops ++ op :: more) := by rw [after_append]; rfl
  rw [e1, ← he] at hr'
  rcases got_cases hs (ops ++ op :: more) op' with ⟨sample, h, -⟩ | ⟨sample, e⟩
  · exact absurd hr' h
  · rw [e]; exact count_fan _ hn y

/-! ### Examples -/

/-- Three handlers; the second, made for properties numbered 0, panics on an event with others. -/
def odd : Op := ⟨asc "event!a", 7, 1, fun h sample => h == 2 && sample == 0⟩

/-- The handlers run as `all_once_partial` says, then the first of them twice, then all once again. -/
example : got [1, 2, 3] [] ⟨asc "event!a", 7, 0, fun _ _ => false⟩ = [1, 2, 3] ∧
    got [1, 2, 3] [⟨asc "event!a", 7, 0, fun _ _ => false⟩] odd = [1, 1, 2, 3] ∧
    got [1, 2, 3] [⟨asc "event!a", 7, 0, fun _ _ => false⟩, odd] odd = [1, 2, 3] := by decide +kernel

/-- `twice_once` applies to this history. -/
example : (got [1, 2, 3] ([⟨asc "event!a", 7, 0, fun _ _ => false⟩] ++ odd :: []) odd).count 1 ≤ 1 :=
  twice_once [1, 2, 3] (by decide) _ odd [] odd rfl 1 1 (by decide +kernel)

/-- `behind_silenced`: the third handler gets nothing of an event on which the second always panics; the first gets it twice the first time. -/
example : got [1, 2, 3] [] ⟨asc "event!b", 7, 0, fun h _ => h == 2⟩ = [1, 1] ∧
    got [1, 2, 3] [⟨asc "event!b", 7, 0, fun h _ => h == 2⟩] ⟨asc "event!b", 7, 0, fun h _ => h == 2⟩ = [1] := by decide +kernel

end Verif.Countlog.Fanout
