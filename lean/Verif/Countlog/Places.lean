import Verif.Countlog.Props

/-!
# C165: the place shown in a log line

All formats can show the function, file and line of the log site their formatter was made for (countlog/spi/spi.go:76-78).  Handlers are
made for the first call with an event name and kept.
-/

namespace Verif.Countlog.Places

/-! ### Model -/

/-- A place in the source as `runtime.Caller` and `runtime.FuncForPC` tell it (countlog/countlog.go:207, 210, 213-214). -/
structure Place where
  func : Bytes
  file : Bytes
  line : Nat
  deriving DecidableEq

/-- `spi.LogSite`, countlog/spi/spi.go:58-66: the place, and the properties (numbered) the formatter was made for. -/
structure Site where
  place : Place
  sample : Nat
  deriving DecidableEq

/-- A cached handler (countlog/root.go:30-34, 50-55, with `nomalModeOnPanic` if `normal`; 93-95). -/
inductive Hnd where
  | root (site : Site) (normal : Bool)
  | redirector (site : Site)
  deriving DecidableEq

/-- `handlerCache` (countlog/countlog.go:144) with its two kinds of keys (countlog/root.go:115-118). -/
structure St where
  events : List (Bytes × Hnd)
  places : List ((Bytes × Nat) × Hnd)

/-- How a program comes to log: a log function (countlog/countlog.go:37-127, context.go:37-130), or `LogPanic` (countlog.go:129-142), which
calls one. -/
inductive Via where
  | direct
  | logPanic
  deriving DecidableEq

/-- A call from a place that passes the checks of levels, with properties `props`; `bad site` says that the handler made for the site
panics on this event (countlog/countlog.go:146-166). -/
structure Op where
  event : Bytes
  via : Via
  user : Place
  props : Nat
  bad : Site → Bool

/-- A function of package countlog on the stack; which line it is at does not matter (countlog/countlog.go). -/
def own (name : Bytes) : Place := ⟨name, asc "countlog.go", 0⟩

/-- The stack above the log function (countlog/countlog.go:129-142). -/
def outer : Via → Place → List Place
  | .direct, user => [user]
  | .logPanic, user => [own (asc "countlog.LogPanic"), user]

/-- `runtime.Caller(4)` in `newHandler`, countlog/countlog.go:207: the stack there is `newHandler`, `getHandler`, `log`, the log function, and
what is above it. -/
def callerOfNew (via : Via) (user : Place) : Option Place :=
  ([own (asc "countlog.newHandler"), own (asc "countlog.getHandler"), own (asc "countlog.log"), own (asc "countlog.Info")] ++ outer via user)[4]?

/-- `runtime.Caller(3)` in `redirector.Handle`, countlog/root.go:98: `Handle`, `log`, the log function, and what is above it. -/
def callerOfRedirector (via : Via) (user : Place) : Option Place :=
  ([own (asc "countlog.Handle"), own (asc "countlog.log"), own (asc "countlog.Info")] ++ outer via user)[3]?

/-- `Handle` with `fallbackModeOnPanic`, countlog/root.go:36-44, 57-68, 86-91: the site shown, or nothing if the failure is reported. -/
def fallback (bad : Site → Bool) (site : Site) : Option Site := if bad site then none else some site

/-- `getHandler` and `newHandler`, countlog/countlog.go:198-220. -/
def St.handlerOf (s : St) (op : Op) : Hnd × St :=
  match s.events.lookup op.event with
  | some h => (h, s)
  | none =>
    let h := Hnd.root ⟨(callerOfNew op.via op.user).getD ⟨[], [], 0⟩, op.props⟩ true
    (h, { s with events := (op.event, h) :: s.events })

/-- `Handle` of the handlers, countlog/root.go:36-113: after a panic the site has an unknown file and line but its function (79-83), and the
redirector sets file and line only (105-109). -/
def St.serve (s : St) (op : Op) : Hnd → Option Site × St
  | .root site true =>
    if op.bad site then
      (fallback op.bad ⟨⟨site.place.func, asc "unknown", 0⟩, op.props⟩, { s with events := (op.event, .redirector site) :: s.events })
    else (some site, s)
  | .root site false => (fallback op.bad site, s)
  | .redirector site =>
    let at_ := (callerOfRedirector op.via op.user).getD ⟨[], [], 0⟩
    match s.places.lookup (at_.file, at_.line) with
    | some (.root site' _) => (fallback op.bad site', s)
    | some (.redirector _) => (none, s) -- never stored under such keys
    | none =>
      let site' : Site := ⟨⟨site.place.func, at_.file, at_.line⟩, op.props⟩
      (fallback op.bad site', { s with places := ((at_.file, at_.line), .root site' false) :: s.places })

/-- A call: the site shown, and the state afterwards (countlog/countlog.go:146-166). -/
def step (s : St) (op : Op) : Option Site × St := (s.handlerOf op).2.serve op (s.handlerOf op).1

/-- The state after calls. -/
def after : St → List Op → St
  | s, [] => s
  | s, op :: ops => after (step s op).2 ops

/-- The place shown for a call after others, if the event is written. -/
def shown (ops : List Op) (op : Op) : Option Place := (step (after ⟨[], []⟩ ops) op).1.map Site.place

/-! ### Lemmas -/

theorem lookup_cons {α : Type} [BEq α] [LawfulBEq α] [DecidableEq α] (k k' : α) (h : Hnd) (l : List (α × Hnd)) :
    List.lookup k ((k', h) :: l) = if k = k' then some h else l.lookup k := by
  rw [List.lookup_cons]
  by_cases hk : k = k'
  · subst hk; simp
  · have : (k == k') = false := by simpa using hk
    rw [this, if_neg hk]

theorem after_append : ∀ (l1 l2 : List Op) (s : St), after s (l1 ++ l2) = after (after s l1) l2
  | [], _, _ => rfl
  | op :: l1, l2, s => after_append l1 l2 (step s op).2

theorem caller_direct (user : Place) : callerOfNew .direct user = some user ∧ callerOfRedirector .direct user = some user := ⟨rfl, rfl⟩

theorem handlerOf_some (s : St) (op : Op) (h : Hnd) (hl : s.events.lookup op.event = some h) : s.handlerOf op = (h, s) := by
  unfold St.handlerOf; rw [hl]

theorem handlerOf_none (s : St) (op : Op) (hl : s.events.lookup op.event = none) : s.handlerOf op =
    (.root ⟨(callerOfNew op.via op.user).getD ⟨[], [], 0⟩, op.props⟩ true,
      { s with events := (op.event, .root ⟨(callerOfNew op.via op.user).getD ⟨[], [], 0⟩, op.props⟩ true) :: s.events }) := by
  unfold St.handlerOf; rw [hl]

theorem lookup_push (s : St) (k e : Bytes) (h : Hnd) : ({ s with events := (k, h) :: s.events } : St).events.lookup e =
    if e = k then some h else s.events.lookup e := lookup_cons e k h s.events

/-- An invariant of the cache: what is stored under event names has `E`, what is stored under places has `P`. -/
def Keeps (E : Bytes → Hnd → Prop) (P : Bytes × Nat → Hnd → Prop) (s : St) : Prop :=
  (∀ e h, s.events.lookup e = some h → E e h) ∧ ∀ k h, s.places.lookup k = some h → P k h

theorem Keeps.event {E : Bytes → Hnd → Prop} {P : Bytes × Nat → Hnd → Prop} {s : St} (h : Keeps E P s) {e : Bytes} {x : Hnd} (hx : E e x) :
    Keeps E P { s with events := (e, x) :: s.events } := by
  refine ⟨fun e' y hy => ?_, h.2⟩
  rw [lookup_push] at hy
  by_cases he : e' = e
  · rw [if_pos he] at hy
    injection hy with hy
    rw [he, ← hy]; exact hx
  · rw [if_neg he] at hy
    exact h.1 e' y hy

theorem Keeps.place {E : Bytes → Hnd → Prop} {P : Bytes × Nat → Hnd → Prop} {s : St} (h : Keeps E P s) {k : Bytes × Nat} {x : Hnd}
    (hx : P k x) : Keeps E P { s with places := (k, x) :: s.places } := by
  refine ⟨h.1, fun k' y hy => ?_⟩
  rw [show ({ s with places := (k, x) :: s.places } : St).places.lookup k' = List.lookup k' ((k, x) :: s.places) from rfl, lookup_cons] at hy
  by_cases he : k' = k
  · rw [if_pos he] at hy
    injection hy with hy
    rw [he, ← hy]; exact hx
  · rw [if_neg he] at hy
    exact h.2 k' y hy

/-- Handlers under a place have its file and line. -/
def AtPlace (k : Bytes × Nat) (h : Hnd) : Prop := ∃ site, h = .root site false ∧ site.place.file = k.1 ∧ site.place.line = k.2

/-- The general step: what calls keep, and what they show. -/
theorem step_keeps {E : Bytes → Hnd → Prop} {P : Bytes × Nat → Hnd → Prop} {s : St} {op : Op} {Q : Site → Prop} (h : Keeps E P s)
    (hnew : E op.event (.root ⟨(callerOfNew op.via op.user).getD ⟨[], [], 0⟩, op.props⟩ true))
    (hroot : ∀ site, E op.event (.root site true) → Q site)
    (hfall : ∀ site, E op.event (.root site false) → Q site)
    (hbad : ∀ site, E op.event (.root site true) → op.bad site = true → E op.event (.redirector site) ∧
      Q ⟨⟨site.place.func, asc "unknown", 0⟩, op.props⟩)
    (hplace : ∀ site site' n, E op.event (.redirector site') →
      P (((callerOfRedirector op.via op.user).getD ⟨[], [], 0⟩).file, ((callerOfRedirector op.via op.user).getD ⟨[], [], 0⟩).line) (.root site n) → Q site)
    (hmade : ∀ site, E op.event (.redirector site) →
      P (((callerOfRedirector op.via op.user).getD ⟨[], [], 0⟩).file, ((callerOfRedirector op.via op.user).getD ⟨[], [], 0⟩).line)
        (.root ⟨⟨site.place.func, ((callerOfRedirector op.via op.user).getD ⟨[], [], 0⟩).file,
          ((callerOfRedirector op.via op.user).getD ⟨[], [], 0⟩).line⟩, op.props⟩ false)) :
    Keeps E P (step s op).2 ∧ ∀ site, (step s op).1 = some site → Q site := by
  have hh : Keeps E P (s.handlerOf op).2 ∧ E op.event (s.handlerOf op).1 := by
    cases hl : s.events.lookup op.event with
    | some x => rw [handlerOf_some s op x hl]; exact ⟨h, h.1 _ _ hl⟩
    | none => rw [handlerOf_none s op hl]; exact ⟨h.event hnew, hnew⟩
  have hfb : ∀ site x, fallback op.bad site = some x → x = site := by
    intro site x hx
    unfold fallback at hx
    by_cases hb : op.bad site = true
    · rw [if_pos hb] at hx; cases hx
    · rw [if_neg hb] at hx; injection hx with hx; exact hx.symm
  rw [step]
  generalize s.handlerOf op = q at hh ⊢
  obtain ⟨x, t⟩ := q
  simp only at hh ⊢
  obtain ⟨hk, he⟩ := hh
  cases x with
  | root site normal =>
    cases normal with
    | true =>
      simp only [St.serve]
      cases hb : op.bad site with
      | false => exact ⟨hk, fun y hy => by simp only [Bool.false_eq_true, if_false, Option.some.injEq] at hy; rw [← hy]; exact hroot site he⟩
      | true =>
        obtain ⟨r1, r2⟩ := hbad site he hb
        simp only [if_true]
        exact ⟨hk.event r1, fun y hy => by rw [hfb _ _ hy]; exact r2⟩
    | false => exact ⟨hk, fun y hy => by rw [hfb _ _ hy]; exact hfall site he⟩
  | redirector site =>
    simp only [St.serve]
    have hmd := hmade site he
    have hpl := fun site'' n => hplace site'' site n he
    generalize (callerOfRedirector op.via op.user).getD ⟨[], [], 0⟩ = at_ at *
    cases hl : t.places.lookup (at_.file, at_.line) with
    | none => exact ⟨hk.place hmd, fun y hy => by rw [hfb _ _ hy]; exact hpl _ _ hmd⟩
    | some g =>
      cases g with
      | root site' n => exact ⟨hk, fun y hy => by rw [hfb _ _ hy]; exact hpl _ _ (hk.2 _ _ hl)⟩
      | redirector site' => exact ⟨hk, fun y hy => by cases hy⟩

/-! ### C165 -/

/-- Every event name is logged at one place, by log functions themselves, and lines have one function. -/
structure OnePlace (at_ : Bytes → Place) (ops : List Op) : Prop where
  direct : ∀ op ∈ ops, op.via = .direct
  one : ∀ op ∈ ops, op.user = at_ op.event
  line : ∀ op ∈ ops, ∀ op' ∈ ops, op.user.file = op'.user.file → op.user.line = op'.user.line → op.user.func = op'.user.func

/-- C165, partial: if every event name is logged at one place only, every line shows the place of its call, whatever panics there were; or,
for an event on which its own handler has just panicked, an unknown file with the function. -/
theorem one_place_partial (at_ : Bytes → Place) (ops : List Op) (op : Op) (h : OnePlace at_ (ops ++ [op])) (p : Place)
    (hp : shown ops op = some p) : p = op.user ∨ (p = ⟨op.user.func, asc "unknown", 0⟩ ∧ ∃ n, op.bad ⟨op.user, n⟩ = true) := by
  let Seen (e : Bytes) : Prop := ∃ o ∈ ops ++ [op], o.event = e
  let E (e : Bytes) (x : Hnd) : Prop := Seen e ∧ ∃ n, x = .root ⟨at_ e, n⟩ true ∨ x = .redirector ⟨at_ e, n⟩
  let P (k : Bytes × Nat) (x : Hnd) : Prop := ∃ o ∈ ops ++ [op], (o.user.file, o.user.line) = k ∧ ∃ n, x = .root ⟨o.user, n⟩ false
  have hone : ∀ o ∈ ops ++ [op], ∀ s, Keeps E P s → Keeps E P (step s o).2 ∧ ∀ site, (step s o).1 = some site →
      site.place = o.user ∨ (site.place = ⟨o.user.func, asc "unknown", 0⟩ ∧ ∃ n, o.bad ⟨o.user, n⟩ = true) := by
    intro o ho s hs
    have hu := h.one o ho
    have hseen : Seen o.event := ⟨o, ho, rfl⟩
    have hc1 : (callerOfNew o.via o.user).getD ⟨[], [], 0⟩ = o.user := by rw [h.direct o ho]; rfl
    have hc2 : (callerOfRedirector o.via o.user).getD ⟨[], [], 0⟩ = o.user := by rw [h.direct o ho]; rfl
    refine step_keeps (E := E) (P := P) hs ?_ ?_ ?_ ?_ ?_ ?_
    · rw [hc1, hu]; exact ⟨hseen, o.props, .inl rfl⟩
    · rintro site ⟨-, n, hx | hx⟩
      · injection hx with hx; rw [hx]; exact .inl hu.symm
      · cases hx
    · rintro site ⟨-, n, hx | hx⟩
      · injection hx with _ hx; cases hx
      · cases hx
    · rintro site ⟨-, n, hx | hx⟩ hb
      · injection hx with hx
        subst hx
        rw [← hu] at hb
        exact ⟨⟨hseen, n, .inr rfl⟩, .inr ⟨by simp only [← hu], n, hb⟩⟩
      · cases hx
    · rintro site site' n - ⟨o', ho', hk, m, hx⟩
      injection hx with hx
      rw [hx]
      rw [hc2] at hk
      injection hk with k1 k2
      refine .inl ?_
      have hf := h.line o' ho' o ho k1 k2
      show o'.user = o.user
      cases hq : o'.user
      cases hq' : o.user
      rw [hq, hq'] at k1 k2 hf
      simp only at k1 k2 hf
      rw [k1, k2, hf]
    · rintro site ⟨-, n, hx | hx⟩
      · cases hx
      · injection hx with hx
        subst hx
        refine ⟨o, ho, by rw [hc2], o.props, ?_⟩
        rw [hc2]
        simp only [← hu]
  have hall : ∀ l, (∀ o ∈ l, o ∈ ops ++ [op]) → ∀ s, Keeps E P s → Keeps E P (after s l) := by
    intro l
    induction l with
    | nil => intro _ s hs; exact hs
    | cons o l ih => intro hl s hs; exact ih (fun o ho => hl o (List.mem_cons_of_mem _ ho)) _ (hone o (hl o (by simp)) s hs).1
  have hk := hall ops (fun o ho => List.mem_append_left _ ho) ⟨[], []⟩ ⟨fun e h hh => (by cases hh), fun k h hh => (by cases hh)⟩
  have hs := (hone op (by simp) _ hk).2
  unfold shown at hp
  cases hq : (step (after ⟨[], []⟩ ops) op).1 with
  | none => rw [hq] at hp; cases hp
  | some site =>
    rw [hq] at hp
    injection hp with hp
    rw [← hp]
    exact hs site hq

theorem step_other (s : St) (op : Op) (e : Bytes) (he : op.event ≠ e) : (step s op).2.events.lookup e = s.events.lookup e := by
  have hh : (s.handlerOf op).2.events.lookup e = s.events.lookup e := by
    cases hl : s.events.lookup op.event with
    | some x => rw [handlerOf_some s op x hl]
    | none => rw [handlerOf_none s op hl, lookup_push, if_neg fun x => he x.symm]
  rw [step]
  generalize s.handlerOf op = q at hh ⊢
  obtain ⟨x, t⟩ := q
  simp only at hh ⊢
  cases x with
  | root site normal =>
    cases normal with
    | false => exact hh
    | true =>
      simp only [St.serve]
      by_cases hb : op.bad site = true
      · rw [if_pos hb, lookup_push, if_neg fun x => he x.symm]; exact hh
      · rw [if_neg hb]; exact hh
  | redirector site =>
    simp only [St.serve]
    generalize (callerOfRedirector op.via op.user).getD ⟨[], [], 0⟩ = at_
    cases t.places.lookup (at_.file, at_.line) with
    | none => exact hh
    | some g => cases g <;> exact hh

theorem step_root (s : St) (op : Op) (site : Site) (hl : s.events.lookup op.event = some (.root site true)) (hb : op.bad site = false) :
    step s op = (some site, s) := by
  rw [step, handlerOf_some s op _ hl]
  simp [St.serve, hb]

theorem root_stays (e : Bytes) (site : Site) : ∀ (ops : List Op) (s : St), (∀ op ∈ ops, op.event = e → op.bad site = false) →
    s.events.lookup e = some (.root site true) → (after s ops).events.lookup e = some (.root site true) := by
  intro ops
  induction ops with
  | nil => intro s _ h; exact h
  | cons op ops ih =>
    intro s hc h
    refine ih _ (fun o ho => hc o (List.mem_cons_of_mem _ ho)) ?_
    by_cases he : op.event = e
    · subst he
      rw [step_root s op site h (hc op (by simp) rfl)]
      exact h
    · rw [step_other s op e he]; exact h

theorem none_stays (e : Bytes) : ∀ (ops : List Op) (s : St), (∀ op ∈ ops, op.event ≠ e) → s.events.lookup e = none →
    (after s ops).events.lookup e = none := by
  intro ops
  induction ops with
  | nil => intro s _ h; exact h
  | cons op ops ih =>
    intro s hc h
    refine ih _ (fun o ho => hc o (List.mem_cons_of_mem _ ho)) ?_
    rw [step_other s op e (hc op (by simp))]; exact h

theorem first_step (ops : List Op) (first : Op) (hn : ∀ op ∈ ops, op.event ≠ first.event) (place : Place)
    (hpl : callerOfNew first.via first.user = some place) (hb : first.bad ⟨place, first.props⟩ = false) :
    (step (after ⟨[], []⟩ ops) first).1 = some ⟨place, first.props⟩ ∧
    (step (after ⟨[], []⟩ ops) first).2.events.lookup first.event = some (.root ⟨place, first.props⟩ true) := by
  have hl := none_stays first.event ops ⟨[], []⟩ hn rfl
  rw [step, handlerOf_none _ _ hl, hpl]
  simp only [Option.getD_some, St.serve, hb, Bool.false_eq_true, if_false]
  exact ⟨trivial, by rw [lookup_push, if_pos rfl]⟩

/-- The place shown, exactly, as long as the handler of the name does not panic: that of the first call with the event name, wherever the
event was logged. -/
theorem first_place (ops : List Op) (first : Op) (more : List Op) (op : Op) (hd : first.via = .direct)
    (hn : ∀ o ∈ ops, o.event ≠ first.event) (he : op.event = first.event)
    (hb : ∀ o ∈ first :: more ++ [op], o.event = first.event → o.bad ⟨first.user, first.props⟩ = false) :
    shown (ops ++ first :: more) op = some first.user := by
  have h1 := (first_step ops first hn first.user (by rw [hd]; rfl) (hb first (by simp) rfl)).2
  have h2 := root_stays first.event _ more _ (fun o ho => hb o (by simp [ho])) h1
  have h3 : after (step (after ⟨[], []⟩ ops) first).2 more = after ⟨[], []⟩ (ops ++ first :: more) := by rw [after_append]; rfl
  rw [h3, ← he] at h2
  unfold shown
  rw [step_root _ op _ h2 (hb op (by simp) he)]
  rfl

/-- The full statement of C165 is false: an event logged at two places always shows the first. -/
theorem second_place_wrong (event : Bytes) (here there : Place) (props : Nat) (hne : here ≠ there) :
    shown [⟨event, .direct, there, props, fun _ => false⟩] ⟨event, .direct, here, props, fun _ => false⟩ = some there ∧ there ≠ here :=
  ⟨first_place [] ⟨event, .direct, there, props, fun _ => false⟩ [] ⟨event, .direct, here, props, fun _ => false⟩ rfl (by simp) rfl
    (by intro o ho _; simp at ho; rcases ho with rfl | rfl <;> rfl), hne.symm⟩

/-- The full statement of C165 is false: `LogPanic` shows itself, wherever it is called. -/
theorem logPanic_wrong (user : Place) (props : Nat) :
    (shown [] ⟨asc "event!panic", .logPanic, user, props, fun _ => false⟩).map Place.func = some (asc "countlog.LogPanic") := by
  have h := (first_step [] ⟨asc "event!panic", .logPanic, user, props, fun _ => false⟩ (by simp) (own (asc "countlog.LogPanic")) rfl rfl).1
  unfold shown
  rw [h]
  rfl

/-- Once an event has made every handler panic, later events of its name show the file and line they are logged at, wherever that is. -/
theorem right_after_panic (ops : List Op) (event : Bytes) (user : Place) (props : Nat) (more : List Op) (op : Op) (he : op.event = event)
    (hd : op.via = .direct) (p : Place) (hp : shown (ops ++ ⟨event, .direct, user, props, fun _ => true⟩ :: more) op = some p) :
    p.file = op.user.file ∧ p.line = op.user.line := by
  -- first, what is stored under places
  let E0 (_ : Bytes) (x : Hnd) : Prop := ∀ site, x ≠ .root site false
  have keep0 : ∀ o s, Keeps E0 AtPlace s → Keeps E0 AtPlace (step s o).2 := by
    intro o s hs
    refine (step_keeps (E := E0) (P := AtPlace) (Q := fun _ => True) hs ?_ (fun _ _ => trivial) (fun _ _ => trivial) ?_ (fun _ _ _ _ _ => trivial) ?_).1
    · intro site hx; injection hx with _ hx; cases hx
    · intro site _ _; exact ⟨fun site' hx => (by cases hx), trivial⟩
    · intro site _; exact ⟨_, rfl, rfl, rfl⟩
  have all0 : ∀ l s, Keeps E0 AtPlace s → Keeps E0 AtPlace (after s l) := by
    intro l
    induction l with
    | nil => intro s hs; exact hs
    | cons o l ih => intro s hs; exact ih _ (keep0 o s hs)
  have k0 := all0 ops ⟨[], []⟩ ⟨fun e h hh => (by cases hh), fun k h hh => (by cases hh)⟩
  have k1 := keep0 ⟨event, .direct, user, props, fun _ => true⟩ _ k0
  have hred : ∃ site, (step (after ⟨[], []⟩ ops) ⟨event, .direct, user, props, fun _ => true⟩).2.events.lookup event = some (.redirector site) := by
    have hE : ∀ s : St, (∀ h, s.events.lookup event = some h → ∀ site, h ≠ .root site false) →
        ∃ site, (step s ⟨event, .direct, user, props, fun _ => true⟩).2.events.lookup event = some (.redirector site) := by
      intro s hs
      cases hl : s.events.lookup event with
      | none =>
        rw [step, handlerOf_none s _ hl]
        simp only [St.serve, if_true]
        exact ⟨_, (lookup_cons event event _ _).trans (if_pos rfl)⟩
      | some x =>
        rw [step, handlerOf_some s _ x hl]
        cases x with
        | root site normal =>
          cases normal with
          | false => exact absurd rfl (hs _ hl site)
          | true =>
            simp only [St.serve, if_true]
            exact ⟨site, by rw [lookup_push, if_pos rfl]⟩
        | redirector site =>
          refine ⟨site, ?_⟩
          simp only [St.serve]
          generalize (callerOfRedirector Via.direct user).getD ⟨[], [], 0⟩ = at_
          cases s.places.lookup (at_.file, at_.line) with
          | none => exact hl
          | some g => cases g <;> exact hl
    exact hE _ (fun h hh => k0.1 event h hh)
  generalize hs1 : (step (after ⟨[], []⟩ ops) ⟨event, .direct, user, props, fun _ => true⟩).2 = s1 at k1 hred
  -- the redirector stays
  have redStays : ∀ l s, (∃ site, s.events.lookup event = some (.redirector site)) → ∃ site, (after s l).events.lookup event = some (.redirector site) := by
    intro l
    induction l with
    | nil => intro s hs; exact hs
    | cons o l ih =>
      intro s hs
      refine ih _ ?_
      by_cases hoe : o.event = event
      · obtain ⟨site, hl⟩ := hs
        refine ⟨site, ?_⟩
        rw [← hoe] at hl
        rw [step, handlerOf_some s o _ hl]
        simp only [St.serve]
        generalize (callerOfRedirector o.via o.user).getD ⟨[], [], 0⟩ = at_
        rw [hoe] at hl
        cases s.places.lookup (at_.file, at_.line) with
        | none => exact hl
        | some g => cases g <;> exact hl
      · rw [step_other s o event hoe]; exact hs
  have hafter : after s1 more = after ⟨[], []⟩ (ops ++ ⟨event, .direct, user, props, fun _ => true⟩ :: more) := by
    rw [after_append, ← hs1]; rfl
  have kfin := all0 more s1 k1
  obtain ⟨site, hr⟩ := redStays more s1 hred
  rw [hafter] at kfin hr
  unfold shown at hp
  generalize after ⟨[], []⟩ (ops ++ ⟨event, .direct, user, props, fun _ => true⟩ :: more) = s at kfin hr hp
  rw [← he] at hr
  rw [step, handlerOf_some s op _ hr] at hp
  have hc : (callerOfRedirector op.via op.user).getD ⟨[], [], 0⟩ = op.user := by rw [hd]; rfl
  simp only [St.serve, hc] at hp
  have hfb : ∀ x, (fallback op.bad x).map Site.place = some p → p = x.place := by
    intro x hx
    unfold fallback at hx
    by_cases hb : op.bad x = true
    · rw [if_pos hb] at hx; cases hx
    · rw [if_neg hb] at hx; injection hx with hx; exact hx.symm
  cases hl : s.places.lookup (op.user.file, op.user.line) with
  | none =>
    rw [hl] at hp
    rw [hfb _ hp]
    exact ⟨rfl, rfl⟩
  | some g =>
    obtain ⟨site', hg, h1, h2⟩ := kfin.2 _ _ hl
    rw [hl, hg] at hp
    rw [hfb _ hp]
    exact ⟨h1, h2⟩

/-- The function may still be wrong: after an event of one function has panicked, the same event logged by another shows the first function
with the file and line of the second. -/
theorem func_stale (event : Bytes) (first second : Place) (props : Nat) :
    shown [⟨event, .direct, first, props, fun _ => true⟩] ⟨event, .direct, second, props, fun _ => false⟩ =
      some ⟨first.func, second.file, second.line⟩ := by
  have h1 : (step ⟨[], []⟩ ⟨event, .direct, first, props, fun _ => true⟩).2 =
      ⟨(event, .redirector ⟨first, props⟩) :: [(event, .root ⟨first, props⟩ true)], []⟩ := by
    rw [step, handlerOf_none _ _ rfl]; rfl
  unfold shown
  rw [after, after, h1, step, handlerOf_some _ _ (.redirector ⟨first, props⟩) (by rw [lookup_cons, if_pos rfl])]
  rfl

/-! ### Examples -/

def main10 : Place := ⟨asc "main.main", asc "main.go", 10⟩
def main20 : Place := ⟨asc "main.main", asc "main.go", 20⟩
def work5 : Place := ⟨asc "main.work", asc "work.go", 5⟩

/-- A handler made for properties numbered 0 panics on an event with those numbered 1. -/
def strict : Op := ⟨asc "event!a", .direct, main10, 1, fun site => site.sample != 1⟩

/-- Two names at two places, with a panic in between: `one_place_partial` applies and the place is right, also after the panic. -/
example : OnePlace (fun e => if e = asc "event!a" then main10 else work5)
      [⟨asc "event!a", .direct, main10, 0, fun _ => false⟩, ⟨asc "event!b", .direct, work5, 0, fun _ => false⟩, strict, strict] ∧
    shown [⟨asc "event!a", .direct, main10, 0, fun _ => false⟩, ⟨asc "event!b", .direct, work5, 0, fun _ => false⟩, strict] strict = some main10 := by
  refine ⟨⟨?_, ?_, ?_⟩, by decide +kernel⟩
  · intro op ho; simp [strict] at ho; rcases ho with rfl | rfl | rfl <;> rfl
  · intro op ho; simp [strict] at ho; rcases ho with rfl | rfl | rfl <;> decide +kernel
  · intro op ho op' ho'
    simp [strict] at ho ho'
    rcases ho with rfl | rfl | rfl <;> rcases ho' with rfl | rfl | rfl <;> decide +kernel

/-- The line written for the event that panicked has no file. -/
example : shown [⟨asc "event!a", .direct, main10, 0, fun _ => false⟩] strict = some ⟨asc "main.main", asc "unknown", 0⟩ := by decide +kernel

/-- `first_place`: the second place is not shown. -/
example : shown [⟨asc "event!b", .direct, work5, 0, fun _ => false⟩, ⟨asc "event!a", .direct, main10, 0, fun _ => false⟩]
    ⟨asc "event!a", .direct, main20, 0, fun _ => false⟩ = some main10 :=
  first_place [⟨asc "event!b", .direct, work5, 0, fun _ => false⟩] ⟨asc "event!a", .direct, main10, 0, fun _ => false⟩ []
    ⟨asc "event!a", .direct, main20, 0, fun _ => false⟩ rfl (by intro o ho; simp at ho; subst ho; decide +kernel) rfl
    (by intro o ho _; simp at ho; rcases ho with rfl | rfl <;> rfl)

/-- `right_after_panic`: the second place is shown after a panic. -/
example : shown [⟨asc "event!a", .direct, main10, 0, fun _ => true⟩] ⟨asc "event!a", .direct, main20, 0, fun _ => false⟩ = some main20 := by
  decide +kernel

/-- `func_stale`: a place that is in no program, function `main.main` in work.go. -/
example : shown [⟨asc "event!a", .direct, main10, 0, fun _ => true⟩] ⟨asc "event!a", .direct, work5, 0, fun _ => false⟩ =
    some ⟨asc "main.main", asc "work.go", 5⟩ := func_stale _ main10 work5 0

example : main10 ≠ main20 := by decide +kernel

end Verif.Countlog.Places
