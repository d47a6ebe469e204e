import Verif.Countlog.Props

/-!
# C168: errors passed up through call functions

A function that fails hands its error to `TraceCall` and the like, and returns what these return (examples/error_logging/main.go:77-100); its caller
does the same.  Errors are values with an identity, which `==` compares.
-/

namespace Verif.Countlog.Chain

/-! ### Model -/

/-- An error value: where it is in memory, which is what `==` compares for those of errors.New, and its text (countlog/countlog.go:162-163). -/
structure Err where
  id : Nat
  text : Bytes
  deriving DecidableEq

/-- What a call function returns: nil, an error, or a panic (countlog/countlog.go:47-104, countlog/context.go:49-115). -/
inductive Back where
  | nil
  | err (e : Err)
  | panic
  deriving DecidableEq

/-- The state of the program: that of the log, and the next unused place in memory (countlog/countlog.go:144, 163). -/
structure St where
  log : State
  next : Nat

/-- A call function given an error: what is handled, what comes back, and the state.  `log`, countlog/countlog.go:146-166, makes a new error
with `errors.New` (163) if there is one. -/
def pass (s : St) (w : World) (c : Call) (e : Option Err) : (List Act × Back) × St :=
  let r := step s.log (.log w { c with err := e.map Err.text })
  match r.1.2 with
  | .nil => ((r.1.1, .nil), { s with log := r.2 })
  | .err t => ((r.1.1, .err ⟨s.next, t⟩), ⟨r.2, s.next + 1⟩)
  | .panic => ((r.1.1, .panic), { s with log := r.2 })

/-- A function on the way up: what it logs otherwise, and the call function it hands the error to (countlog/countlog.go:28-127,
countlog/context.go:37-130). -/
structure Fn where
  others : List Op
  world : World
  call : Call

/-- An error, or nil, handed from function to function, innermost first: the acts of each call function, and what the outermost function returns.
A function that gets nil goes on as well, as `TraceCall` is called in any case (examples/error_logging/main.go:77-100). -/
def climb (s : St) (e : Option Err) : List Fn → List (List Act) × Back
  | [] => ([], match e with | none => .nil | some e => .err e)
  | f :: fs =>
    let r := pass { s with log := after s.log f.others } f.world f.call e
    match r.1.2 with
    | .nil => (r.1.1 :: (climb r.2 none fs).1, (climb r.2 none fs).2)
    | .err e' => (r.1.1 :: (climb r.2 (some e') fs).1, (climb r.2 (some e') fs).2)
    | .panic => ([r.1.1], .panic)

/-! ### Specification -/

/-- The text of an error that went through functions with these messages, innermost first. -/
def told (cause : Bytes) (messages : List Bytes) : Bytes :=
  ((messages.reverse.map (· ++ [58, 32])).flatten) ++ cause

/-- The events that are handled, written or counted, in an act. -/
def eventOf : Act → Option Event
  | .out _ ev => some ev
  | .stats _ ev => some ev
  | .loglog => none

/-! ### Proofs -/

/-- The events of a handler body are the event itself. -/
theorem body_events (w : World) (cfg : Levels) (both : Bool) (site : Site) (ev : Event) :
    ∀ a ∈ (body w cfg both site ev).1, ∀ x, eventOf a = some x → x = ev := by
  intro a ha x hx
  unfold body at ha
  split at ha
  · split at ha
    · simp at ha
    · simp only at ha
      split at ha <;> split at ha <;> simp at ha
      all_goals first
        | (subst ha; simp [eventOf] at hx; exact hx.symm)
        | (rcases ha with rfl | rfl <;> simp [eventOf] at hx <;> exact hx.symm)
  · split at ha
    · simp at ha
    · simp at ha
      subst ha
      simp [eventOf] at hx
      exact hx.symm

theorem fallback_events (w : World) (cfg : Levels) (both : Bool) (site : Site) (ev : Event) :
    ∀ a ∈ handleFallback w cfg both site ev, ∀ x, eventOf a = some x → x = ev := by
  intro a ha x hx
  unfold handleFallback at ha
  simp only at ha
  split at ha
  · rcases List.mem_append.mp ha with h | h
    · exact body_events w cfg both site ev a h x hx
    · simp at h; subst h; simp [eventOf] at hx
  · exact body_events w cfg both site ev a ha x hx

theorem root_events (w : World) (cfg : Levels) (cache : Cache) (ev : Event) (both : Bool) (site : Site) (mode : Mode) :
    ∀ a ∈ (handleRoot w cfg cache ev both site mode).acts, ∀ x, eventOf a = some x → x = ev := by
  intro a ha x hx
  cases mode with
  | fallback => exact fallback_events w cfg both site ev a ha x hx
  | normal =>
    simp only [handleRoot] at ha
    split at ha
    · split at ha
      · rcases List.mem_append.mp ha with h | h
        · exact body_events _ _ _ _ _ a h x hx
        · exact fallback_events _ _ _ _ _ a h x hx
      · rcases List.mem_append.mp ha with h | h
        · exact body_events _ _ _ _ _ a h x hx
        · exact fallback_events _ _ _ _ _ a h x hx
      · exact body_events _ _ _ _ _ a ha x hx
    · exact body_events _ _ _ _ _ a ha x hx

theorem handle_events (w : World) (cfg : Levels) (cache : Cache) (file : Bytes) (line : Nat) (ev : Event) (h : Handler) :
    ∀ a ∈ (handle w cfg cache file line ev h).acts, ∀ x, eventOf a = some x → x = ev := by
  intro a ha x hx
  cases h with
  | one site mode => exact root_events _ _ _ _ _ _ _ a ha x hx
  | both site mode => exact root_events _ _ _ _ _ _ _ a ha x hx
  | redirector site =>
    simp only [handle] at ha
    split at ha
    · exact root_events _ _ _ _ _ _ _ a ha x hx
    · exact root_events _ _ _ _ _ _ _ a ha x hx
    · simp at ha
    · split at ha
      · exact root_events _ _ _ _ _ _ _ a ha x hx
      · exact root_events _ _ _ _ _ _ _ a ha x hx
      · simp at ha

/-- The result and the events of a call function, exactly. -/
theorem step_call (s : State) (w : World) (c : Call) (hc : c.api.isCall = true) (hr : (step s (.log w c)).1.2 ≠ .panic) :
    ((step s (.log w c)).1.2 = match c.err with | none => .nil | some m => .err (c.text.getD [] ++ asc ": " ++ m)) ∧
    (c.err ≠ none → c.text ≠ none) ∧
    (∀ a ∈ (step s (.log w c)).1.1, ∀ x, eventOf a = some x → x.err = c.err ∧ x.props = c.props) := by
  simp only [step, call] at hr ⊢
  cases hen : entry s.cfg c.suppressed c.err.isSome c.api with
  | none =>
    have : c.err = none := by
      cases he : c.err with
      | none => rfl
      | some m =>
        rw [he] at hen
        cases ha : c.api <;> simp [ha, Api.isCall] at hc <;> simp [ha, entry] at hen
    simp [this]
  | some p =>
    rw [hen] at hr
    simp only [log, hc, if_true] at hr ⊢
    cases hg : getHandler w s.cache c.event p.2 c.file c.line c.props with
    | mk o cache' =>
      rw [hg] at hr
      cases o with
      | none => simp at hr
      | some h =>
        simp only at hr ⊢
        have hev := handle_events w s.cfg cache' c.file c.line ⟨p.1, c.props, c.err⟩ h
        by_cases hx : (handle w s.cfg cache' c.file c.line ⟨p.1, c.props, c.err⟩ h).escaped = true
        · simp [hx] at hr
        · rw [if_neg hx] at hr ⊢
          cases he : c.err with
          | none =>
            rw [he] at hev
            refine ⟨rfl, fun h => absurd rfl h, fun a ha x hxe => ?_⟩
            rw [hev a ha x hxe]
            exact ⟨rfl, rfl⟩
          | some m =>
            rw [he] at hr hev
            cases ht : c.text with
            | none => simp [ht] at hr
            | some t =>
              refine ⟨rfl, fun _ => by simp, fun a ha x hxe => ?_⟩
              rw [hev a ha x hxe]
              exact ⟨rfl, rfl⟩

theorem told_cons (cause m : Bytes) (ms : List Bytes) : told (m ++ asc ": " ++ cause) ms = told cause (m :: ms) := by
  have : asc ": " = [58, 32] := by decide
  simp [told, this, List.append_assoc]

/-- C168, part: an error handed up through call functions, whatever else the functions log, tells the message of each function, the outermost
first, and then the cause; and nothing ends in between.  Missing: that it can be told from other errors (`not_the_cause`). -/
theorem steps_told_partial : ∀ (fs : List Fn) (s : St) (e : Err), (∀ f ∈ fs, f.call.api.isCall = true) →
    (climb s (some e) fs).2 ≠ .panic →
    ∃ e', (climb s (some e) fs).2 = .err e' ∧ e'.text = told e.text (fs.map fun f => f.call.text.getD []) ∧ ∀ f ∈ fs, f.call.text ≠ none
  | [], s, e, _, _ => ⟨e, rfl, by simp [told], by simp⟩
  | f :: fs, s, e, hf, hp => by
    have hc := hf f (List.mem_cons_self ..)
    have hcs : ∀ g ∈ fs, g.call.api.isCall = true := fun g hg => hf g (List.mem_cons_of_mem _ hg)
    simp only [climb, pass, Option.map_some] at hp ⊢
    have hs := step_call (after s.log f.others) f.world { f.call with err := some e.text } hc
    cases hr : (step (after s.log f.others) (.log f.world { f.call with err := some e.text })).1.2 with
    | panic => rw [hr] at hp; exact absurd rfl hp
    | nil =>
      obtain ⟨h1, -⟩ := hs (by rw [hr]; simp)
      rw [hr] at h1; cases h1
    | err t =>
      obtain ⟨h1, h2, -⟩ := hs (by rw [hr]; simp)
      rw [hr] at h1 hp
      simp only [Ret.err.injEq] at h1
      simp only at hp ⊢
      obtain ⟨e', he, ht, hn⟩ := steps_told_partial fs _ _ hcs hp
      refine ⟨e', he, ?_, ?_⟩
      · rw [ht, h1, List.map_cons, told_cons]
      · intro g hg
        rcases List.mem_cons.mp hg with rfl | hg
        · exact h2 (by simp)
        · exact hn g hg

/-- C168: what is logged on the way up by the `i`-th function tells the messages of the functions below and the cause. -/
theorem logged_below : ∀ (fs : List Fn) (s : St) (e : Err), (∀ f ∈ fs, f.call.api.isCall = true) →
    (climb s (some e) fs).2 ≠ .panic → (climb s (some e) fs).1.length = fs.length ∧
    ∀ i acts, (climb s (some e) fs).1[i]? = some acts → ∀ a ∈ acts, ∀ x, eventOf a = some x →
      x.err = some (told e.text ((fs.take i).map fun f => f.call.text.getD []))
  | [], s, e, _, _ => ⟨rfl, by simp [climb]⟩
  | f :: fs, s, e, hf, hp => by
    have hc := hf f (List.mem_cons_self ..)
    have hcs : ∀ g ∈ fs, g.call.api.isCall = true := fun g hg => hf g (List.mem_cons_of_mem _ hg)
    simp only [climb, pass, Option.map_some] at hp ⊢
    have hs := step_call (after s.log f.others) f.world { f.call with err := some e.text } hc
    cases hr : (step (after s.log f.others) (.log f.world { f.call with err := some e.text })).1.2 with
    | panic => rw [hr] at hp; exact absurd rfl hp
    | nil =>
      obtain ⟨h1, -⟩ := hs (by rw [hr]; simp)
      rw [hr] at h1; cases h1
    | err t =>
      obtain ⟨h1, -, h3⟩ := hs (by rw [hr]; simp)
      rw [hr] at h1 hp
      simp only [Ret.err.injEq] at h1
      simp only at hp ⊢
      obtain ⟨hl, hi⟩ := logged_below fs _ _ hcs hp
      refine ⟨by simp [hl], ?_⟩
      intro i acts hacts a ha x hx
      cases i with
      | zero =>
        simp only [List.getElem?_cons_zero, Option.some.injEq] at hacts
        subst hacts
        rw [(h3 a ha x hx).1]
        simp [told]
      | succ i =>
        rw [List.getElem?_cons_succ] at hacts
        rw [hi i acts hacts a ha x hx, h1, List.take_succ_cons, List.map_cons, told_cons]

/-- C168: without a failure nothing is returned, however many functions there are and whatever is logged. -/
theorem success_nil : ∀ (fs : List Fn) (s : St), (∀ f ∈ fs, f.call.api.isCall = true) → (climb s none fs).2 ≠ .panic → (climb s none fs).2 = .nil
  | [], s, _, _ => rfl
  | f :: fs, s, hf, hp => by
    have hc := hf f (List.mem_cons_self ..)
    have hcs : ∀ g ∈ fs, g.call.api.isCall = true := fun g hg => hf g (List.mem_cons_of_mem _ hg)
    simp only [climb, pass, Option.map_none] at hp ⊢
    have hs := step_call (after s.log f.others) f.world { f.call with err := none } hc
    cases hr : (step (after s.log f.others) (.log f.world { f.call with err := none })).1.2 with
    | panic => rw [hr] at hp; exact absurd rfl hp
    | err t =>
      obtain ⟨h1, -⟩ := hs (by rw [hr]; simp)
      rw [hr] at h1; cases h1
    | nil =>
      rw [hr] at hp
      simp only at hp ⊢
      exact success_nil fs _ hcs hp

/-! ### Disagreements -/

theorem climb_ids : ∀ (fs : List Fn) (s : St) (e e' : Err), e.id < s.next → (∀ f ∈ fs, f.call.api.isCall = true) →
    (climb s (some e) fs).2 = .err e' → fs = [] ∨ s.next ≤ e'.id
  | [], s, e, e', _, _, _ => Or.inl rfl
  | f :: fs, s, e, e', hid, hf, hb => by
    have hc := hf f (List.mem_cons_self ..)
    have hcs : ∀ g ∈ fs, g.call.api.isCall = true := fun g hg => hf g (List.mem_cons_of_mem _ hg)
    right
    simp only [climb, pass, Option.map_some] at hb
    have hs := step_call (after s.log f.others) f.world { f.call with err := some e.text } hc
    cases hr : (step (after s.log f.others) (.log f.world { f.call with err := some e.text })).1.2 with
    | panic => rw [hr] at hb; cases hb
    | nil =>
      obtain ⟨h1, -⟩ := hs (by rw [hr]; simp)
      rw [hr] at h1; cases h1
    | err t =>
      rw [hr] at hb
      simp only at hb
      rcases climb_ids fs _ _ _ (by simp) hcs hb with h | h
      · subst h
        simp only [climb, Back.err.injEq] at hb
        rw [← hb]
        exact Nat.le_refl _
      · simp only at h
        omega

/-- C168 fails: what comes out of one or more call functions is never the error that went in, nor any other known one, so that comparing it with
io.EOF and the like always fails. -/
theorem not_the_cause (fs : List Fn) (hfs : fs ≠ []) (s : St) (e known e' : Err) (he : e.id < s.next) (hk : known.id < s.next)
    (hf : ∀ f ∈ fs, f.call.api.isCall = true) (hb : (climb s (some e) fs).2 = .err e') : e' ≠ known := by
  rcases climb_ids fs s e e' he hf hb with h | h
  · exact absurd h hfs
  · intro heq
    subst heq
    omega

/-- C168 fails: the text does not tell the steps apart from a cause that contains the same text. -/
theorem same_text : told (asc "EOF") [asc "read"] = told (asc "read: EOF") [] := by decide

/-! ### A case -/

/-- `open` fails inside `load`, which fails inside `main`; `main` also logs something else and changes the level before. -/
def sampleFns : List Fn :=
  [⟨[], calm, { sampleCall with text := some (asc "open x") }⟩,
   ⟨[.setMinLevel 60, .log calm { sampleCall with api := .info, event := asc "event!other" }], aggregating,
    { sampleCall with event := asc "event!load", text := some (asc "load"), api := .logAccess }⟩]

example : (climb ⟨State.init, 8⟩ (some ⟨7, asc "EOF"⟩) sampleFns).2 = .err ⟨9, asc "load: open x: EOF"⟩ ∧
    told (asc "EOF") [asc "open x", asc "load"] = asc "load: open x: EOF" := by decide

example : ∃ e', (climb ⟨State.init, 8⟩ (some ⟨7, asc "EOF"⟩) sampleFns).2 = .err e' ∧ e'.text = asc "load: open x: EOF" := by
  obtain ⟨e', h, ht, -⟩ := steps_told_partial sampleFns ⟨State.init, 8⟩ ⟨7, asc "EOF"⟩ (by decide) (by decide)
  exact ⟨e', h, by rw [ht]; decide⟩

/-- The hypotheses of `logged_below` and `not_the_cause` hold in this case: the second function counts an event that tells of the first. -/
example : ((climb ⟨State.init, 8⟩ (some ⟨7, asc "EOF"⟩) sampleFns).1.map fun acts => acts.filterMap fun a => (eventOf a).bind Event.err) =
    [[asc "EOF"], [asc "open x: EOF"]] := by decide

example : (climb ⟨State.init, 8⟩ (some ⟨7, asc "EOF"⟩) sampleFns).2 ≠ .err ⟨7, asc "EOF"⟩ := by
  intro h
  exact not_the_cause sampleFns (by decide) ⟨State.init, 8⟩ ⟨7, asc "EOF"⟩ ⟨7, asc "EOF"⟩ _ (by decide) (by decide) (by decide) h rfl

example : (climb ⟨State.init, 8⟩ none sampleFns).2 = .nil := success_nil sampleFns _ (by decide) (by decide)

end Verif.Countlog.Chain
