import Verif.Countlog.Model

/-!
# C25, C26, C27, C70, C71: levels, wrapped calls, panicking handlers
-/

namespace Verif.Countlog

/-! ### Invariant of the handler cache -/

def Handler.site : Handler → Site
  | .one s _ => s
  | .both s _ => s
  | .redirector s => s

/-- Handlers stored under an event name are for that event; those stored under a place are
root handlers in fallback mode. -/
structure Inv (cache : Cache) : Prop where
  event : ∀ e h, cache.lookup (.event e) = some h → h.site.event = e
  place : ∀ f l h, cache.lookup (.place f l) = some h → ∃ s, h = .one s .fallback ∨ h = .both s .fallback

theorem lookup_cons_key (k k' : Key) (h : Handler) (cache : Cache) :
    List.lookup k ((k', h) :: cache) = if k = k' then some h else cache.lookup k := by
  rw [List.lookup_cons]
  by_cases hk : k = k'
  · subst hk; simp
  · have : (k == k') = false := by simpa using hk
    rw [this, if_neg hk]

theorem newRoot_cases (w : World) (site : Site) (mode : Mode) (h : Handler) (hn : newRootHandler w site mode = some h) :
    (h = .one site mode ∧ w.statsOf site = .nil) ∨ (h = .both site mode ∧ w.statsOf site = .handler) := by
  unfold newRootHandler at hn
  cases hs : w.statsOf site with
  | panics => rw [hs] at hn; simp at hn
  | nil =>
    rw [hs] at hn
    by_cases hw : w.writerPanics site = true
    · simp [hw] at hn
    · simp [hw] at hn; exact Or.inl ⟨hn.symm, rfl⟩
  | handler =>
    rw [hs] at hn
    by_cases hw : w.writerPanics site = true
    · simp [hw] at hn
    · simp [hw] at hn; exact Or.inr ⟨hn.symm, rfl⟩

theorem Inv.add_event {cache : Cache} (hi : Inv cache) (e : Bytes) (h : Handler) (hs : h.site.event = e) :
    Inv ((.event e, h) :: cache) := by
  constructor
  · intro e' h' hl
    rw [lookup_cons_key] at hl
    by_cases he : Key.event e' = Key.event e
    · rw [if_pos he] at hl
      injection hl with hl; injection he with he
      subst hl; subst he; exact hs
    · rw [if_neg he] at hl; exact hi.event e' h' hl
  · intro f l h' hl
    rw [lookup_cons_key, if_neg (by simp)] at hl
    exact hi.place f l h' hl

theorem Inv.add_place {cache : Cache} (hi : Inv cache) (f : Bytes) (l : Nat) (h : Handler)
    (hs : ∃ s, h = .one s .fallback ∨ h = .both s .fallback) : Inv ((.place f l, h) :: cache) := by
  constructor
  · intro e' h' hl
    rw [lookup_cons_key, if_neg (by simp)] at hl
    exact hi.event e' h' hl
  · intro f' l' h' hl
    rw [lookup_cons_key] at hl
    by_cases he : Key.place f' l' = Key.place f l
    · rw [if_pos he] at hl
      injection hl with hl
      subst hl; exact hs
    · rw [if_neg he] at hl; exact hi.place f' l' h' hl

theorem handleRoot_fallback_cache (w : World) (cfg : Levels) (cache : Cache) (ev : Event) (both : Bool) (site : Site) :
    (handleRoot w cfg cache ev both site .fallback).cache = cache := rfl

theorem handleRoot_normal (w : World) (cfg : Levels) (cache : Cache) (ev : Event) (both : Bool) (site : Site) :
    ((body w cfg both site ev).2 = false → handleRoot w cfg cache ev both site .normal =
      ⟨(body w cfg both site ev).1, false, cache⟩) ∧
    ((body w cfg both site ev).2 = true →
      let newSite : Site := { site with file := asc "unknown", line := 0, sample := ev.props }
      let cache' : Cache := (Key.event site.event, Handler.redirector site) :: cache
      handleRoot w cfg cache ev both site .normal =
        match newRootHandler w newSite .fallback with
        | some (.one _ _) => ⟨(body w cfg both site ev).1 ++ handleFallback w cfg false newSite ev, false, cache'⟩
        | some (.both _ _) => ⟨(body w cfg both site ev).1 ++ handleFallback w cfg true newSite ev, false, cache'⟩
        | _ => ⟨(body w cfg both site ev).1, true, cache'⟩) := by
  constructor
  · intro h
    simp only [handleRoot]
    rw [if_neg (by simp [h])]
  · intro h
    simp only [handleRoot]
    rw [if_pos h]
    cases hn : newRootHandler w { site with file := asc "unknown", line := 0, sample := ev.props } .fallback with
    | none => rfl
    | some g =>
      rcases newRoot_cases _ _ _ _ hn with ⟨rfl, -⟩ | ⟨rfl, -⟩ <;> rfl

theorem handleRoot_inv (w : World) (cfg : Levels) (cache : Cache) (ev : Event) (both : Bool) (site : Site) (mode : Mode)
    (hi : Inv cache) : Inv (handleRoot w cfg cache ev both site mode).cache := by
  cases mode with
  | fallback => exact hi
  | normal =>
    obtain ⟨h1, h2⟩ := handleRoot_normal w cfg cache ev both site
    cases hb : (body w cfg both site ev).2 with
    | false => rw [h1 hb]; exact hi
    | true =>
      rw [h2 hb]
      have := hi.add_event site.event (.redirector site) rfl
      split <;> exact this

theorem handle_inv (w : World) (cfg : Levels) (cache : Cache) (file : Bytes) (line : Nat) (ev : Event) (h : Handler)
    (hi : Inv cache) : Inv (handle w cfg cache file line ev h).cache := by
  cases h with
  | one s m => exact handleRoot_inv _ _ _ _ _ _ _ hi
  | both s m => exact handleRoot_inv _ _ _ _ _ _ _ hi
  | redirector s =>
    simp only [handle]
    cases hl : cache.lookup (.place file line) with
    | some g =>
      cases g with
      | one s m => exact handleRoot_inv _ _ _ _ _ _ _ hi
      | both s m => exact handleRoot_inv _ _ _ _ _ _ _ hi
      | redirector s => exact hi
    | none =>
      simp only
      cases hn : newRootHandler w { s with file := file, line := line, sample := ev.props } .fallback with
      | none => exact hi
      | some g =>
        rcases newRoot_cases _ _ _ _ hn with ⟨rfl, -⟩ | ⟨rfl, -⟩
        · exact handleRoot_inv _ _ _ _ _ _ _ (hi.add_place _ _ _ ⟨_, Or.inl rfl⟩)
        · exact handleRoot_inv _ _ _ _ _ _ _ (hi.add_place _ _ _ ⟨_, Or.inr rfl⟩)

theorem getHandler_inv (w : World) (cache : Cache) (event : Bytes) (call : Bool) (file : Bytes) (line : Nat) (props : Props)
    (hi : Inv cache) : Inv (getHandler w cache event call file line props).2 ∧
      ∀ h, (getHandler w cache event call file line props).1 = some h → h.site.event = event := by
  unfold getHandler
  cases hl : cache.lookup (.event event) with
  | some h =>
    refine ⟨hi, ?_⟩
    intro h' hh
    simp only [Option.some.injEq] at hh
    subst hh
    exact hi.event event h hl
  | none =>
    simp only
    cases hn : newRootHandler w ⟨event, call, file, line, props⟩ .normal with
    | none => exact ⟨hi, by simp⟩
    | some g =>
      have hs : g.site.event = event := by
        rcases newRoot_cases _ _ _ _ hn with ⟨rfl, -⟩ | ⟨rfl, -⟩ <;> rfl
      refine ⟨hi.add_event _ _ hs, ?_⟩
      intro h' hh
      simp only [Option.some.injEq] at hh
      subst hh; exact hs

theorem log_cache (w : World) (cfg : Levels) (cache : Cache) (c : Call) (level : Int) (call : Bool) (err : Option Bytes) :
    (log w cfg cache c level call err).2 =
      match getHandler w cache c.event call c.file c.line c.props with
      | (none, cache) => cache
      | (some h, cache) => (handle w cfg cache c.file c.line ⟨level, c.props, err⟩ h).cache := by
  unfold log
  cases hg : getHandler w cache c.event call c.file c.line c.props with
  | mk o cache' =>
    cases o with
    | none => rfl
    | some h =>
      simp only
      by_cases he : (handle w cfg cache' c.file c.line ⟨level, c.props, err⟩ h).escaped = true
      · rw [if_pos he]
      · rw [if_neg he]
        cases err with
        | none => rfl
        | some msg => cases c.text <;> rfl

theorem step_inv (s : State) (op : Op) (hi : Inv s.cache) : Inv (step s op).2.cache := by
  cases op with
  | setMinLevel level => exact hi
  | log w c =>
    simp only [step, call]
    cases entry s.cfg c.suppressed c.err.isSome c.api with
    | none => exact hi
    | some p =>
      simp only
      rw [log_cache]
      have hg := getHandler_inv w s.cache c.event p.2 c.file c.line c.props hi
      cases hgh : getHandler w s.cache c.event p.2 c.file c.line c.props with
      | mk o cache' =>
        rw [hgh] at hg
        cases o with
        | none => exact hg.1
        | some h => exact handle_inv _ _ _ _ _ _ _ hg.1

theorem after_inv : ∀ (ops : List Op) (s : State), Inv s.cache → Inv (after s ops).cache := by
  intro ops
  induction ops with
  | nil => intro s h; exact h
  | cons op ops ih => intro s h; exact ih _ (step_inv s op h)

theorem init_inv : Inv State.init.cache := ⟨by simp [State.init], by simp [State.init]⟩

/-! ### Levels -/

/-- The minimum level in force after a run: the last one set, else Trace. -/
def lastMin : Int → List Op → Int
  | m, [] => m
  | _, .setMinLevel level :: ops => lastMin level ops
  | m, .log _ _ :: ops => lastMin m ops

theorem after_cfg : ∀ (ops : List Op) (s : State), s.cfg.minCallLevel = s.cfg.minLevel + 5 →
    (after s ops).cfg.minLevel = lastMin s.cfg.minLevel ops ∧
    (after s ops).cfg.minCallLevel = lastMin s.cfg.minLevel ops + 5 := by
  intro ops
  induction ops with
  | nil => intro s h; exact ⟨rfl, h⟩
  | cons op ops ih =>
    intro s h
    cases op with
    | setMinLevel level => exact ih _ rfl
    | log w c => exact ih _ h

theorem init_cfg (ops : List Op) : (after State.init ops).cfg.minLevel = lastMin 10 ops ∧
    (after State.init ops).cfg.minCallLevel = lastMin 10 ops + 5 := after_cfg ops State.init rfl

/-- The level a log function logs at. -/
def Api.levelOf (failed : Bool) : Api → Int
  | .trace => 10
  | .debug => 20
  | .info => 30
  | .warn => 40
  | .error => 50
  | .fatal => 60
  | .log level => level
  | .traceCall => if failed then 40 else 10
  | .debugCall => if failed then 40 else 20
  | .infoCall => if failed then 40 else 30
  | .logAccess => if failed then 50 else 30

/-- What should be logged, with minimum level `min`: Warn, Error, Fatal and failed calls
always, the rest from the minimum level on (and, for `Trace` on a context, from the
level below which the context suppresses). -/
def wanted (min suppressed : Int) (failed : Bool) (api : Api) : Prop :=
  match api with
  | .warn | .error | .fatal => True
  | .trace => min ≤ 10 ∧ suppressed ≤ 10
  | .traceCall | .debugCall | .infoCall | .logAccess => failed = true ∨ min ≤ api.levelOf failed
  | _ => min ≤ api.levelOf failed

theorem entry_iff (cfg : Levels) (suppressed : Int) (failed : Bool) (api : Api) :
    (wanted cfg.minLevel suppressed failed api → entry cfg suppressed failed api = some (api.levelOf failed, api.isCall)) ∧
    (¬ wanted cfg.minLevel suppressed failed api → entry cfg suppressed failed api = none) := by
  have pick : ∀ (l : Int) (o : Option (Int × Bool)), (cfg.minLevel ≤ l → (if l < cfg.minLevel then none else o) = o) ∧
      (¬ cfg.minLevel ≤ l → (if l < cfg.minLevel then none else o) = none) :=
    fun l o => ⟨fun h => if_neg (by omega), fun h => if_pos (by omega)⟩
  cases api with
  | trace =>
    simp only [wanted, entry, Api.levelOf, Api.isCall]
    have h10 : levelTrace = 10 := rfl
    refine ⟨fun h => ?_, fun h => ?_⟩
    · rw [if_neg (by omega), if_neg (by omega)]; rfl
    · by_cases h1 : levelTrace < cfg.minLevel
      · rw [if_pos h1]
      · rw [if_neg h1, if_pos (by omega)]
  | debug => exact pick _ _
  | info => exact pick _ _
  | warn => exact ⟨fun _ => rfl, fun h => absurd trivial h⟩
  | error => exact ⟨fun _ => rfl, fun h => absurd trivial h⟩
  | fatal => exact ⟨fun _ => rfl, fun h => absurd trivial h⟩
  | log level => exact pick _ _
  | traceCall =>
    cases failed
    · have hl : levelTrace = 10 := rfl
      simp [wanted, entry, Api.levelOf, Api.isCall]; omega
    · simp [wanted, entry, Api.levelOf, Api.isCall, levelWarn]
  | debugCall =>
    cases failed
    · have hl : levelDebug = 20 := rfl
      simp [wanted, entry, Api.levelOf, Api.isCall]; omega
    · simp [wanted, entry, Api.levelOf, Api.isCall, levelWarn]
  | infoCall =>
    cases failed
    · have hl : levelInfo = 30 := rfl
      simp [wanted, entry, Api.levelOf, Api.isCall]; omega
    · simp [wanted, entry, Api.levelOf, Api.isCall, levelWarn]
  | logAccess =>
    cases failed
    · have hl : levelInfo = 30 := rfl
      simp [wanted, entry, Api.levelOf, Api.isCall]; omega
    · simp [wanted, entry, Api.levelOf, Api.isCall, levelError]

/-- C25: `ShouldLog` tells, after any history, whether an event logged with `Log` at that
level is passed to the handlers. -/
theorem shouldLog_iff (ops : List Op) (level suppressed : Int) (failed : Bool) :
    (shouldLog (after State.init ops).cfg level = true ↔ lastMin 10 ops ≤ level) ∧
    (shouldLog (after State.init ops).cfg level = true ↔
      (entry (after State.init ops).cfg suppressed failed (.log level)).isSome = true) := by
  have hcfg := (init_cfg ops).1
  have he := entry_iff (after State.init ops).cfg suppressed failed (.log level)
  simp only [wanted, Api.levelOf] at he
  rw [hcfg] at he
  unfold shouldLog
  rw [hcfg]
  refine ⟨by simp, ?_⟩
  by_cases h : lastMin 10 ops ≤ level
  · rw [he.1 h]; simp [h]
  · rw [he.2 h]; simp [h]

example : shouldLog (after State.init [.setMinLevel 30]).cfg 30 = true ∧
    shouldLog (after State.init [.setMinLevel 30]).cfg 29 = false := by decide

/-! ### Nothing panics during the call -/

/-- During this call neither the sinks nor their handlers panic. -/
structure Quiet (w : World) : Prop where
  stats : ∀ s, w.statsOf s ≠ .panics
  writer : ∀ s, w.writerPanics s = false
  out : ∀ s e, w.outPanics s e = false
  statsHandler : ∀ s e, w.statsPanics s e = false

/-- What a root handler does when nothing panics. -/
def quietActs (cfg : Levels) (both : Bool) (site : Site) (ev : Event) : List Act :=
  if both then (if cfg.minCallLevel ≤ ev.level then [Act.out site ev] else []) ++ [.stats site ev]
  else [.out site ev]

theorem body_quiet {w : World} (hq : Quiet w) (cfg : Levels) (both : Bool) (site : Site) (ev : Event) :
    body w cfg both site ev = (quietActs cfg both site ev, false) := by
  cases both <;> simp [body, quietActs, hq.out, hq.statsHandler]

theorem handleRoot_quiet {w : World} (hq : Quiet w) (cfg : Levels) (cache : Cache) (ev : Event) (both : Bool) (site : Site)
    (mode : Mode) : handleRoot w cfg cache ev both site mode = ⟨quietActs cfg both site ev, false, cache⟩ := by
  cases mode with
  | fallback => simp [handleRoot, handleFallback, body_quiet hq]
  | normal => simp [handleRoot, body_quiet hq]

theorem newRoot_quiet {w : World} (hq : Quiet w) (site : Site) (mode : Mode) :
    ∃ both, newRootHandler w site mode = some (if both then .both site mode else .one site mode) ∧
      (both = true ↔ w.statsOf site = .handler) := by
  unfold newRootHandler
  have := hq.stats site
  cases hs : w.statsOf site with
  | panics => exact absurd hs this
  | nil => exact ⟨false, by simp [hq.writer], by simp⟩
  | handler => exact ⟨true, by simp [hq.writer], by simp⟩

theorem handle_quiet {w : World} (hq : Quiet w) (cfg : Levels) (cache : Cache) (hi : Inv cache) (file : Bytes) (line : Nat)
    (ev : Event) (h : Handler) :
    (handle w cfg cache file line ev h).escaped = false ∧
    ∃ both site, (handle w cfg cache file line ev h).acts = quietActs cfg both site ev ∧
      (both = true → (∃ m, h = .both site m) ∨ (∃ m, cache.lookup (.place file line) = some (.both site m)) ∨
        (site.event = h.site.event ∧ w.statsOf site = .handler)) := by
  cases h with
  | one s m =>
    simp only [handle, handleRoot_quiet hq]
    exact ⟨trivial, false, s, rfl, by simp⟩
  | both s m =>
    simp only [handle, handleRoot_quiet hq]
    exact ⟨trivial, true, s, rfl, fun _ => Or.inl ⟨m, rfl⟩⟩
  | redirector s =>
    simp only [handle]
    cases hl : cache.lookup (.place file line) with
    | some g =>
      obtain ⟨t, rfl | rfl⟩ := hi.place _ _ _ hl
      · simp only [handleRoot_quiet hq]
        exact ⟨trivial, false, t, rfl, by simp⟩
      · simp only [handleRoot_quiet hq]
        exact ⟨trivial, true, t, rfl, fun _ => Or.inr (Or.inl ⟨_, rfl⟩)⟩
    | none =>
      simp only
      obtain ⟨both, hn, hb⟩ := newRoot_quiet hq { s with file := file, line := line, sample := ev.props } .fallback
      rw [hn]
      cases both with
      | false =>
        simp only [Bool.false_eq_true, if_false, handleRoot_quiet hq]
        exact ⟨trivial, false, _, rfl, by simp⟩
      | true =>
        simp only [if_true, handleRoot_quiet hq]
        exact ⟨trivial, true, _, rfl, fun _ => Or.inr (Or.inr ⟨rfl, hb.mp rfl⟩)⟩

/-! ### C27 -/

/-- The sinks can be asked for handlers without panicking during this call. -/
structure SinksOk (w : World) : Prop where
  stats : ∀ s, w.statsOf s ≠ .panics
  writer : ∀ s, w.writerPanics s = false

theorem newRoot_ok {w : World} (hw : SinksOk w) (site : Site) (mode : Mode) : ∃ h, newRootHandler w site mode = some h := by
  unfold newRootHandler
  have := hw.stats site
  cases hs : w.statsOf site with
  | panics => exact absurd hs this
  | nil => exact ⟨_, by simp [hw.writer]; rfl⟩
  | handler => exact ⟨_, by simp [hw.writer]; rfl⟩

theorem handleRoot_ok {w : World} (hw : SinksOk w) (cfg : Levels) (cache : Cache) (ev : Event) (both : Bool) (site : Site)
    (mode : Mode) : (handleRoot w cfg cache ev both site mode).escaped = false := by
  cases mode with
  | fallback => rfl
  | normal =>
    obtain ⟨h1, h2⟩ := handleRoot_normal w cfg cache ev both site
    cases hb : (body w cfg both site ev).2 with
    | false => rw [h1 hb]
    | true =>
      rw [h2 hb]
      obtain ⟨h, hn⟩ := newRoot_ok hw { site with file := asc "unknown", line := 0, sample := ev.props } .fallback
      rw [hn]
      rcases newRoot_cases _ _ _ _ hn with ⟨rfl, -⟩ | ⟨rfl, -⟩ <;> rfl

theorem handle_ok {w : World} (hw : SinksOk w) (cfg : Levels) (cache : Cache) (hi : Inv cache) (file : Bytes) (line : Nat)
    (ev : Event) (h : Handler) : (handle w cfg cache file line ev h).escaped = false := by
  cases h with
  | one s m => exact handleRoot_ok hw ..
  | both s m => exact handleRoot_ok hw ..
  | redirector s =>
    simp only [handle]
    cases hl : cache.lookup (.place file line) with
    | some g =>
      obtain ⟨t, rfl | rfl⟩ := hi.place _ _ _ hl
      · exact handleRoot_ok hw ..
      · exact handleRoot_ok hw ..
    | none =>
      simp only
      obtain ⟨g, hn⟩ := newRoot_ok hw { s with file := file, line := line, sample := ev.props } .fallback
      rw [hn]
      rcases newRoot_cases _ _ _ _ hn with ⟨rfl, -⟩ | ⟨rfl, -⟩ <;> exact handleRoot_ok hw ..

theorem getHandler_ok {w : World} (hw : SinksOk w) (cache : Cache) (event : Bytes) (call : Bool) (file : Bytes) (line : Nat)
    (props : Props) : ∃ h cache', getHandler w cache event call file line props = (some h, cache') := by
  unfold getHandler
  cases cache.lookup (.event event) with
  | some h => exact ⟨h, cache, rfl⟩
  | none =>
    simp only
    obtain ⟨g, hn⟩ := newRoot_ok hw ⟨event, call, file, line, props⟩ .normal
    rw [hn]
    exact ⟨_, _, rfl⟩

/-- C27, partial: whatever happened before, and however the handlers of the sinks panic
during this call, no panic reaches the caller, provided the sinks can be asked for
handlers and the message of a failed call can be formatted. -/
theorem no_panic_escapes_partial (ops : List Op) (w : World) (hw : SinksOk w) (c : Call)
    (ht : c.api.isCall = true → c.err.isSome = true → c.text.isSome = true) :
    (step (after State.init ops) (.log w c)).1.2 ≠ .panic := by
  have hi := after_inv ops _ init_inv
  generalize after State.init ops = s at hi
  simp only [step, call]
  cases entry s.cfg c.suppressed c.err.isSome c.api with
  | none => simp
  | some p =>
    simp only [log]
    have hg := getHandler_inv w s.cache c.event p.2 c.file c.line c.props hi
    obtain ⟨h, cache', hgh⟩ := getHandler_ok hw s.cache c.event p.2 c.file c.line c.props
    rw [hgh] at hg ⊢
    simp only
    rw [if_neg (by rw [handle_ok hw _ _ hg.1]; simp)]
    by_cases hc : c.api.isCall = true
    · simp only [hc, if_true]
      cases he : c.err with
      | none => simp
      | some msg =>
        have := ht hc (by simp [he])
        obtain ⟨t, hte⟩ := Option.isSome_iff_exists.mp this
        simp [hte]
    · simp [hc]

/-- The event was handled to the end by a handler, or a report went to the internal log. -/
def HandledOrReported (cfg : Levels) (ev : Event) (acts : List Act) : Prop :=
  Act.loglog ∈ acts ∨ ∃ pre both site, acts = pre ++ quietActs cfg both site ev

theorem body_done (w : World) (cfg : Levels) (both : Bool) (site : Site) (ev : Event)
    (h : (body w cfg both site ev).2 = false) : (body w cfg both site ev).1 = quietActs cfg both site ev := by
  revert h
  cases both with
  | false => by_cases h : w.outPanics site ev = true <;> simp [body, quietActs, h]
  | true =>
    by_cases hl : cfg.minCallLevel ≤ ev.level <;> by_cases h : w.outPanics site ev = true <;>
      by_cases hs : w.statsPanics site ev = true <;> simp [body, quietActs, h, hs, hl]

theorem fallback_handled (w : World) (cfg : Levels) (both : Bool) (site : Site) (ev : Event) (pre : List Act) :
    HandledOrReported cfg ev (pre ++ handleFallback w cfg both site ev) := by
  unfold handleFallback HandledOrReported
  cases h : (body w cfg both site ev).2 with
  | true => left; simp [h]
  | false => right; exact ⟨pre, both, site, by simp [h, body_done w cfg both site ev h]⟩

theorem handleRoot_handled {w : World} (hw : SinksOk w) (cfg : Levels) (cache : Cache) (ev : Event) (both : Bool)
    (site : Site) (mode : Mode) : HandledOrReported cfg ev (handleRoot w cfg cache ev both site mode).acts := by
  cases mode with
  | fallback => exact fallback_handled w cfg both site ev []
  | normal =>
    obtain ⟨h1, h2⟩ := handleRoot_normal w cfg cache ev both site
    cases hb : (body w cfg both site ev).2 with
    | false => rw [h1 hb]; right; exact ⟨[], both, site, by simp [body_done w cfg both site ev hb]⟩
    | true =>
      rw [h2 hb]
      obtain ⟨h, hn⟩ := newRoot_ok hw { site with file := asc "unknown", line := 0, sample := ev.props } .fallback
      rw [hn]
      rcases newRoot_cases _ _ _ _ hn with ⟨rfl, -⟩ | ⟨rfl, -⟩
      · exact fallback_handled w cfg false _ ev _
      · exact fallback_handled w cfg true _ ev _

theorem handle_handled {w : World} (hw : SinksOk w) (cfg : Levels) (cache : Cache) (hi : Inv cache) (file : Bytes)
    (line : Nat) (ev : Event) (h : Handler) : HandledOrReported cfg ev (handle w cfg cache file line ev h).acts := by
  cases h with
  | one s m => exact handleRoot_handled hw ..
  | both s m => exact handleRoot_handled hw ..
  | redirector s =>
    simp only [handle]
    cases hl : cache.lookup (.place file line) with
    | some g =>
      obtain ⟨t, rfl | rfl⟩ := hi.place _ _ _ hl
      · exact handleRoot_handled hw ..
      · exact handleRoot_handled hw ..
    | none =>
      simp only
      obtain ⟨g, hn⟩ := newRoot_ok hw { s with file := file, line := line, sample := ev.props } .fallback
      rw [hn]
      rcases newRoot_cases _ _ _ _ hn with ⟨rfl, -⟩ | ⟨rfl, -⟩ <;> exact handleRoot_handled hw ..

/-- C27: no event is lost silently.  Whatever happened before, and however the handlers
panic during this call, an event that is to be logged is handled to the end by some
handler, or the panic is reported in the internal log. -/
theorem never_lost_silently (ops : List Op) (w : World) (hw : SinksOk w) (c : Call)
    (hwant : wanted (lastMin 10 ops) c.suppressed c.err.isSome c.api) :
    HandledOrReported (after State.init ops).cfg
      ⟨c.api.levelOf c.err.isSome, c.props, if c.api.isCall then c.err else none⟩
      (step (after State.init ops) (.log w c)).1.1 := by
  have hi := after_inv ops _ init_inv
  have hcfg := (init_cfg ops).1
  generalize after State.init ops = s at hi hcfg
  have he := (entry_iff s.cfg c.suppressed c.err.isSome c.api).1 (by rw [hcfg]; exact hwant)
  simp only [step, call, he, log]
  have hg := getHandler_inv w s.cache c.event c.api.isCall c.file c.line c.props hi
  obtain ⟨h, cache', hgh⟩ := getHandler_ok hw s.cache c.event c.api.isCall c.file c.line c.props
  rw [hgh] at hg ⊢
  simp only
  have hh := handle_handled hw s.cfg cache' hg.1 c.file c.line
    ⟨c.api.levelOf c.err.isSome, c.props, if c.api.isCall then c.err else none⟩ h
  have hesc := handle_ok hw s.cfg cache' hg.1 c.file c.line
    ⟨c.api.levelOf c.err.isSome, c.props, if c.api.isCall then c.err else none⟩ h
  revert hh hesc
  generalize (if c.api.isCall then c.err else none) = err
  intro hh hesc
  rw [if_neg (by rw [hesc]; simp)]
  cases err with
  | none => exact hh
  | some msg => cases c.text <;> exact hh

/-- A world in which nothing is aggregated and nothing panics. -/
def calm : World := ⟨fun _ => .nil, fun _ => false, fun _ _ => false, fun _ _ => false⟩

/-- A world in which every handler panics on every event. -/
def stormy : World := ⟨fun _ => .handler, fun _ => false, fun _ _ => true, fun _ _ => true⟩

def sampleCall : Call :=
  { api := .infoCall, suppressed := 0, event := asc "query {id}", file := asc "a.go", line := 7, props := 1,
    err := some (asc "timeout"), text := some (asc "query 5") }

example : SinksOk stormy := ⟨by simp [stormy], by simp [stormy]⟩
example : run State.init [.log stormy sampleCall, .log stormy sampleCall, .log calm { sampleCall with props := 2 }] =
    [([.loglog], .err (asc "query 5: timeout")), ([.loglog], .err (asc "query 5: timeout")),
     ([.stats ⟨asc "query {id}", true, asc "a.go", 7, 1⟩ ⟨40, 2, some (asc "timeout")⟩].map id |>
        (Act.out ⟨asc "query {id}", true, asc "a.go", 7, 1⟩ ⟨40, 2, some (asc "timeout")⟩ :: ·),
      .err (asc "query 5: timeout"))] := by decide

/-- C27: whatever happened before (panics included), an event logged while nothing panics
is handled: it is written, or counted with its output below the call level. -/
theorem later_events_handled (ops : List Op) (w : World) (hq : Quiet w) (c : Call)
    (hw : wanted (lastMin 10 ops) c.suppressed c.err.isSome c.api) :
    ∃ both site, (step (after State.init ops) (.log w c)).1.1 =
      quietActs (after State.init ops).cfg both site
        ⟨c.api.levelOf c.err.isSome, c.props, if c.api.isCall then c.err else none⟩ := by
  have hi := after_inv ops _ init_inv
  have hcfg := (init_cfg ops).1
  generalize after State.init ops = s at hi hcfg
  have he := (entry_iff s.cfg c.suppressed c.err.isSome c.api).1 (by rw [hcfg]; exact hw)
  simp only [step, call, he, log]
  have hg := getHandler_inv w s.cache c.event c.api.isCall c.file c.line c.props hi
  obtain ⟨h, cache', hgh⟩ := getHandler_ok ⟨hq.stats, hq.writer⟩ s.cache c.event c.api.isCall c.file c.line c.props
  rw [hgh] at hg ⊢
  simp only
  obtain ⟨h1, both, site, h2, -⟩ := handle_quiet hq s.cfg cache' hg.1 c.file c.line
    ⟨c.api.levelOf c.err.isSome, c.props, if c.api.isCall then c.err else none⟩ h
  refine ⟨both, site, ?_⟩
  rw [if_neg (by simp [h1]), ← h2]
  cases (if c.api.isCall then c.err else none) with
  | none => rfl
  | some msg => cases c.text <;> rfl

/-- C27: when the handler of an event panics for the first time, the event is handled once
more by a handler made for its own properties; if that one works the event is written. -/
theorem panicking_event_written (w : World) (hw : SinksOk w) (cfg : Levels) (cache : Cache) (file : Bytes) (line : Nat)
    (ev : Event) (site : Site) (hp : w.outPanics site ev = true)
    (hok : ∀ s, s.sample = ev.props → w.outPanics s ev = false)
    (hone : ∀ s, w.statsOf s = .nil) :
    ∃ s, s.event = site.event ∧ (handle w cfg cache file line ev (.one site .normal)).acts = [.out s ev] ∧
      (handle w cfg cache file line ev (.one site .normal)).cache.lookup (.event site.event) = some (.redirector site) := by
  have hb : body w cfg false site ev = ([], true) := by simp [body, hp]
  obtain ⟨-, h2⟩ := handleRoot_normal w cfg cache ev false site
  simp only [handle]
  rw [h2 (by rw [hb])]
  have hn : newRootHandler w { site with file := asc "unknown", line := 0, sample := ev.props } .fallback =
      some (.one { site with file := asc "unknown", line := 0, sample := ev.props } .fallback) := by
    simp [newRootHandler, hone, hw.writer]
  rw [hn]
  refine ⟨{ site with file := asc "unknown", line := 0, sample := ev.props }, rfl, ?_, ?_⟩
  · have hok2 := hok { site with file := asc "unknown", line := 0, sample := ev.props } rfl
    simp [handleFallback, body, hok2, hp]
  · simp

/-- The handler made for the first properties panics on other properties: the second event
is written all the same. -/
def picky : World := ⟨fun _ => .nil, fun _ => false, fun s e => s.sample != e.props, fun _ _ => false⟩

example : run State.init [.log picky { sampleCall with api := .info, err := none },
      .log picky { sampleCall with api := .info, err := none, props := 2 }] =
    [([.out ⟨asc "query {id}", false, asc "a.go", 7, 1⟩ ⟨30, 1, none⟩], .nil),
     ([.out ⟨asc "query {id}", false, asc "unknown", 0, 2⟩ ⟨30, 2, none⟩], .nil)] := by decide

/-- C27 fails: a panic while the output sink makes a handler reaches the caller (for instance
in `Info("{user} logged in")` without a property `user`, see C22). -/
theorem handler_creation_panics :
    (step State.init (.log { calm with writerPanics := fun _ => true } { sampleCall with api := .info })).1.2 = .panic := by
  decide

/-- C27, C26 fail: so does a panic while the message of a failed call is formatted. -/
theorem message_panics : (step State.init (.log calm { sampleCall with text := none })).1.2 = .panic := by decide

/-! ### C25 -/

/-- No aggregator handles events of this name. -/
def NoStats (e : Bytes) : Op → Prop
  | .setMinLevel _ => True
  | .log w _ => ∀ s, s.event = e → w.statsOf s ≠ .handler

/-- Calls at this place in the source log this event. -/
def PlaceLogs (e file : Bytes) (line : Nat) : Op → Prop
  | .setMinLevel _ => True
  | .log _ c => c.file = file → c.line = line → c.event = e

/-- No handler reached by this event at this place aggregates. -/
structure PlainInv (e file : Bytes) (line : Nat) (cache : Cache) : Prop where
  event : ∀ s m, cache.lookup (.event e) ≠ some (.both s m)
  place : ∀ s m, cache.lookup (.place file line) ≠ some (.both s m)

theorem handleRoot_lookup (w : World) (cfg : Levels) (cache : Cache) (ev : Event) (both : Bool) (site : Site) (mode : Mode)
    (k : Key) : (handleRoot w cfg cache ev both site mode).cache.lookup k = cache.lookup k ∨
      ((handleRoot w cfg cache ev both site mode).cache.lookup k = some (.redirector site) ∧ k = .event site.event) := by
  cases mode with
  | fallback => exact Or.inl rfl
  | normal =>
    obtain ⟨h1, h2⟩ := handleRoot_normal w cfg cache ev both site
    cases hb : (body w cfg both site ev).2 with
    | false => rw [h1 hb]; exact Or.inl rfl
    | true =>
      rw [h2 hb]
      have : ((Key.event site.event, Handler.redirector site) :: cache).lookup k = cache.lookup k ∨
          (((Key.event site.event, Handler.redirector site) :: cache).lookup k = some (.redirector site) ∧
            k = .event site.event) := by
        rw [lookup_cons_key]
        by_cases hk : k = .event site.event
        · rw [if_pos hk]; exact Or.inr ⟨rfl, hk⟩
        · rw [if_neg hk]; exact Or.inl rfl
      split <;> exact this

theorem step_plain (e file : Bytes) (line : Nat) (s : State) (op : Op) (hi : Inv s.cache) (hp : PlainInv e file line s.cache)
    (hn : NoStats e op) (hl : PlaceLogs e file line op) : PlainInv e file line (step s op).2.cache := by
  cases op with
  | setMinLevel level => exact hp
  | log w c =>
    simp only [step, call]
    cases entry s.cfg c.suppressed c.err.isSome c.api with
    | none => exact hp
    | some p =>
      simp only
      rw [log_cache]
      -- the handler used, and the cache with it
      have hg : ∀ o cache', getHandler w s.cache c.event p.2 c.file c.line c.props = (o, cache') →
          PlainInv e file line cache' ∧ ∀ h, o = some h → h.site.event = c.event := by
        intro o cache' hgh
        have h0 := getHandler_inv w s.cache c.event p.2 c.file c.line c.props hi
        rw [hgh] at h0
        refine ⟨?_, h0.2⟩
        unfold getHandler at hgh
        cases hlk : s.cache.lookup (.event c.event) with
        | some h => rw [hlk] at hgh; simp at hgh; rw [← hgh.2]; exact hp
        | none =>
          rw [hlk] at hgh
          simp only at hgh
          cases hnr : newRootHandler w ⟨c.event, p.2, c.file, c.line, c.props⟩ .normal with
          | none => rw [hnr] at hgh; simp at hgh; rw [← hgh.2]; exact hp
          | some g =>
            rw [hnr] at hgh
            simp only [Prod.mk.injEq] at hgh
            rw [← hgh.2]
            constructor
            · intro t m
              rw [lookup_cons_key]
              by_cases hk : Key.event e = Key.event c.event
              · rw [if_pos hk]
                injection hk with hk
                rcases newRoot_cases _ _ _ _ hnr with ⟨rfl, -⟩ | ⟨rfl, h2⟩
                · simp
                · exact absurd h2 (hn _ hk.symm)
              · rw [if_neg hk]; exact hp.event t m
            · intro t m
              rw [lookup_cons_key, if_neg (by simp)]
              exact hp.place t m
      cases hgh : getHandler w s.cache c.event p.2 c.file c.line c.props with
      | mk o cache' =>
        obtain ⟨hpc, hev⟩ := hg o cache' hgh
        cases o with
        | none => exact hpc
        | some h =>
          simp only
          have root : ∀ (cache : Cache) both site mode, PlainInv e file line cache →
              PlainInv e file line (handleRoot w s.cfg cache ⟨p.1, c.props, if c.api.isCall then c.err else none⟩ both site mode).cache := by
            intro cache both site mode hpi
            constructor
            · intro t m
              rcases handleRoot_lookup w s.cfg cache ⟨p.1, c.props, if c.api.isCall then c.err else none⟩ both site mode (.event e) with h | ⟨h, -⟩
              · rw [h]; exact hpi.event t m
              · rw [h]; simp
            · intro t m
              rcases handleRoot_lookup w s.cfg cache ⟨p.1, c.props, if c.api.isCall then c.err else none⟩ both site mode (.place file line) with h | ⟨h, -⟩
              · rw [h]; exact hpi.place t m
              · rw [h]; simp
          cases h with
          | one t m => exact root _ _ _ _ hpc
          | both t m => exact root _ _ _ _ hpc
          | redirector t =>
            simp only [handle]
            cases hlk : cache'.lookup (.place c.file c.line) with
            | some g =>
              cases g with
              | one t m => exact root _ _ _ _ hpc
              | both t m => exact root _ _ _ _ hpc
              | redirector t => exact hpc
            | none =>
              simp only
              cases hnr : newRootHandler w { t with file := c.file, line := c.line, sample := c.props } .fallback with
              | none => exact hpc
              | some g =>
                have add : PlainInv e file line ((Key.place c.file c.line, g) :: cache') := by
                  constructor
                  · intro u m
                    rw [lookup_cons_key, if_neg (by simp)]
                    exact hpc.event u m
                  · intro u m
                    rw [lookup_cons_key]
                    by_cases hk : Key.place file line = Key.place c.file c.line
                    · rw [if_pos hk]
                      injection hk with hk1 hk2
                      rcases newRoot_cases _ _ _ _ hnr with ⟨rfl, -⟩ | ⟨rfl, h2⟩
                      · simp
                      · exfalso
                        have h3 : c.event = e := hl hk1.symm hk2.symm
                        exact hn _ (by have := hev _ rfl; simp only [Handler.site] at this; simp [this, h3]) h2
                    · rw [if_neg hk]; exact hpc.place u m
                rcases newRoot_cases _ _ _ _ hnr with ⟨rfl, -⟩ | ⟨rfl, -⟩ <;> exact root _ _ _ _ add

theorem after_plain (e file : Bytes) (line : Nat) : ∀ (ops : List Op) (s : State), Inv s.cache →
    PlainInv e file line s.cache → (∀ op ∈ ops, NoStats e op) → (∀ op ∈ ops, PlaceLogs e file line op) →
    PlainInv e file line (after s ops).cache := by
  intro ops
  induction ops with
  | nil => intro s _ h _ _; exact h
  | cons op ops ih =>
    intro s hi hp hn hl
    exact ih _ (step_inv s op hi) (step_plain e file line s op hi hp (hn op (by simp)) (hl op (by simp)))
      (fun o ho => hn o (by simp [ho])) (fun o ho => hl o (by simp [ho]))

/-- C25 (and the delivery part of C26), partial: for events that are not aggregated, in every
history of level settings, log calls and panics: while nothing panics, an event is
written exactly once if it is wanted at the last minimum level set, with its level,
properties and error, and nothing is written otherwise. -/
theorem delivered_iff_partial (ops : List Op) (w : World) (hq : Quiet w) (c : Call)
    (hn : ∀ op ∈ ops ++ [.log w c], NoStats c.event op)
    (hl : ∀ op ∈ ops, PlaceLogs c.event c.file c.line op) :
    (wanted (lastMin 10 ops) c.suppressed c.err.isSome c.api →
      ∃ site, (step (after State.init ops) (.log w c)).1.1 =
        [.out site ⟨c.api.levelOf c.err.isSome, c.props, if c.api.isCall then c.err else none⟩]) ∧
    (¬ wanted (lastMin 10 ops) c.suppressed c.err.isSome c.api →
      (step (after State.init ops) (.log w c)).1 = ([], .nil)) := by
  have hi := after_inv ops _ init_inv
  have hp := after_plain c.event c.file c.line ops State.init init_inv ⟨by simp [State.init], by simp [State.init]⟩
    (fun o ho => hn o (by simp [ho])) hl
  have hw := hn (.log w c) (by simp)
  have hcfg := (init_cfg ops).1
  generalize after State.init ops = s at hi hp hcfg
  obtain ⟨he1, he2⟩ := entry_iff s.cfg c.suppressed c.err.isSome c.api
  rw [hcfg] at he1 he2
  refine ⟨fun hwant => ?_, fun hwant => by simp only [step, call, he2 hwant]⟩
  simp only [step, call, he1 hwant, log]
  have hg := getHandler_inv w s.cache c.event c.api.isCall c.file c.line c.props hi
  obtain ⟨h, cache', hgh⟩ := getHandler_ok ⟨hq.stats, hq.writer⟩ s.cache c.event c.api.isCall c.file c.line c.props
  have hpl : (∀ t m, h ≠ .both t m) ∧ cache'.lookup (.place c.file c.line) = s.cache.lookup (.place c.file c.line) := by
    unfold getHandler at hgh
    cases hlk : s.cache.lookup (.event c.event) with
    | some g =>
      rw [hlk] at hgh
      simp only [Prod.mk.injEq, Option.some.injEq] at hgh
      refine ⟨?_, by rw [hgh.2]⟩
      rintro t m rfl
      exact hp.event t m (by rw [hlk, hgh.1])
    | none =>
      rw [hlk] at hgh
      simp only at hgh
      cases hnr : newRootHandler w ⟨c.event, c.api.isCall, c.file, c.line, c.props⟩ .normal with
      | none => rw [hnr] at hgh; simp at hgh
      | some g =>
        rw [hnr] at hgh
        simp only [Prod.mk.injEq, Option.some.injEq] at hgh
        refine ⟨?_, ?_⟩
        · rintro t m rfl
          rcases newRoot_cases _ _ _ _ hnr with ⟨h3, -⟩ | ⟨-, h2⟩
          · rw [hgh.1] at h3; simp at h3
          · exact hw _ rfl h2
        · rw [← hgh.2, lookup_cons_key, if_neg (by simp)]
  rw [hgh] at hg ⊢
  simp only
  obtain ⟨h1, both, site, h2, h3⟩ := handle_quiet hq s.cfg cache' hg.1 c.file c.line
    ⟨c.api.levelOf c.err.isSome, c.props, if c.api.isCall then c.err else none⟩ h
  have hb : both = false := by
    cases both with
    | false => rfl
    | true =>
      exfalso
      rcases h3 rfl with ⟨m, hm⟩ | ⟨m, hm⟩ | ⟨hm1, hm2⟩
      · exact hpl.1 _ _ hm
      · rw [hpl.2] at hm; exact hp.place _ _ hm
      · exact hw _ (by rw [hm1]; exact hg.2 h rfl) hm2
  subst hb
  refine ⟨site, ?_⟩
  rw [if_neg (by simp [h1])]
  have : quietActs s.cfg false site ⟨c.api.levelOf c.err.isSome, c.props, if c.api.isCall then c.err else none⟩ =
      [.out site ⟨c.api.levelOf c.err.isSome, c.props, if c.api.isCall then c.err else none⟩] := rfl
  rw [← this, ← h2]
  cases (if c.api.isCall then c.err else none) with
  | none => rfl
  | some msg => cases c.text <;> rfl

example : run State.init [.setMinLevel 25, .log calm { sampleCall with api := .debug, err := none },
      .log calm { sampleCall with api := .info, err := none }, .setMinLevel 1000, .log calm sampleCall] =
    [([], .nil), ([], .nil), ([.out ⟨asc "query {id}", false, asc "a.go", 7, 1⟩ ⟨30, 1, none⟩], .nil), ([], .nil),
     ([.out ⟨asc "query {id}", false, asc "a.go", 7, 1⟩ ⟨40, 1, some (asc "timeout")⟩],
      .err (asc "query 5: timeout"))] := by decide

/-- The default aggregator (no collector) makes a handler for calls and for events with an
`agg` property (stats/stats.go:28-45): this world does so for every site. -/
def aggregating : World := { calm with statsOf := fun _ => .handler }

/-- C25 fails for aggregated events: an Info event at minimum level Info is not written. -/
theorem aggregated_info_not_written :
    (run State.init [.setMinLevel levelInfo, .log aggregating { sampleCall with api := .info, err := none }])[1]? =
      some ([.stats ⟨asc "query {id}", false, asc "a.go", 7, 1⟩ ⟨30, 1, none⟩], .nil) := by decide

/-- C25 fails for aggregated events: nor is a Warn event at minimum level Warn. -/
theorem aggregated_warn_not_written :
    (run State.init [.setMinLevel levelWarn, .log aggregating { sampleCall with api := .warn, err := none }])[1]? =
      some ([.stats ⟨asc "query {id}", false, asc "a.go", 7, 1⟩ ⟨40, 1, none⟩], .nil) := by decide

/-- C26 fails: with the default aggregator and minimum level Warn, failed calls are not
written. -/
theorem failed_call_not_written :
    (run State.init [.setMinLevel levelWarn, .log aggregating sampleCall])[1]? =
      some ([.stats ⟨asc "query {id}", true, asc "a.go", 7, 1⟩ ⟨40, 1, some (asc "timeout")⟩],
        .err (asc "query 5: timeout")) := by decide

/-! ### C26 -/

/-- C26, partial: in every history, a call function that returns gives nil exactly when it
was given nil, and otherwise an error that ends with the given one's text; a failure is
passed to the handlers at level Warn or above whatever the minimum level. -/
theorem call_result_partial (s : State) (w : World) (c : Call) (hc : c.api.isCall = true)
    (hr : (step s (.log w c)).1.2 ≠ .panic) :
    ((step s (.log w c)).1.2 = .nil ↔ c.err = none) ∧
    (∀ msg, c.err = some msg → ∃ text, (step s (.log w c)).1.2 = .err (text ++ asc ": " ++ msg)) ∧
    (∀ msg, c.err = some msg → ∃ level, levelWarn ≤ level ∧ entry s.cfg c.suppressed true c.api = some (level, true)) := by
  simp only [step, call] at hr ⊢
  have hentry : ∀ msg, c.err = some msg → ∃ level, levelWarn ≤ level ∧ entry s.cfg c.suppressed true c.api = some (level, true) := by
    intro msg _
    cases ha : c.api <;> simp [ha, Api.isCall] at hc <;> simp [entry, levelWarn, levelError]
  refine ⟨?_, ?_, hentry⟩
  · cases he : c.err with
    | none =>
      simp only [he, Option.isSome_none] at hr ⊢
      cases hen : entry s.cfg c.suppressed false c.api with
      | none => simp
      | some p =>
        rw [hen] at hr
        simp only [log, hc, if_true] at hr ⊢
        cases hg : getHandler w s.cache c.event p.2 c.file c.line c.props with
        | mk o cache' =>
          rw [hg] at hr
          cases o with
          | none => simp at hr
          | some h =>
            simp only at hr ⊢
            by_cases hx : (handle w s.cfg cache' c.file c.line ⟨p.1, c.props, none⟩ h).escaped = true
            · simp [hx] at hr
            · simp [hx]
    | some msg =>
      obtain ⟨level, -, hen⟩ := hentry msg he
      simp only [he, Option.isSome_some, hen, log, hc, if_true] at hr ⊢
      cases hg : getHandler w s.cache c.event true c.file c.line c.props with
      | mk o cache' =>
        rw [hg] at hr
        cases o with
        | none => simp at hr
        | some h =>
          simp only at hr ⊢
          by_cases hx : (handle w s.cfg cache' c.file c.line ⟨level, c.props, some msg⟩ h).escaped = true
          · simp [hx] at hr
          · rw [if_neg hx] at hr ⊢
            cases ht : c.text with
            | none => simp [ht] at hr
            | some t => simp
  · intro msg he
    obtain ⟨level, -, hen⟩ := hentry msg he
    simp only [he, Option.isSome_some, hen, log, hc, if_true] at hr ⊢
    cases hg : getHandler w s.cache c.event true c.file c.line c.props with
    | mk o cache' =>
      rw [hg] at hr
      cases o with
      | none => simp at hr
      | some h =>
        simp only at hr ⊢
        by_cases hx : (handle w s.cfg cache' c.file c.line ⟨level, c.props, some msg⟩ h).escaped = true
        · simp [hx] at hr
        · rw [if_neg hx] at hr ⊢
          cases ht : c.text with
          | none => simp [ht] at hr
          | some t => exact ⟨t, by simp⟩

example : (step State.init (.log calm sampleCall)).1.2 = .err (asc "query 5: timeout") := by decide
example : (step State.init (.log calm { sampleCall with err := none })).1.2 = .nil := by decide

/-! ### C70 -/

/-- How often an event is written in a call. -/
def writes (acts : List Act) : Nat := acts.countP (fun a => match a with | .out _ _ => true | _ => false)

/-- C70, partial: an event is written at most once in a call in which no stats handler
panics, however output handlers panic. -/
theorem written_once_partial (w : World) (hs : ∀ s e, w.statsPanics s e = false) (cfg : Levels) (cache : Cache) (file : Bytes)
    (line : Nat) (ev : Event) (h : Handler) : writes (handle w cfg cache file line ev h).acts ≤ 1 := by
  have hbody : ∀ both site, writes (body w cfg both site ev).1 ≤ 1 ∧ ((body w cfg both site ev).2 = true → (body w cfg both site ev).1 = []) := by
    intro both site
    cases both with
    | false => by_cases ho : w.outPanics site ev = true <;> simp [body, ho, writes]
    | true =>
      by_cases ho : cfg.minCallLevel ≤ ev.level ∧ w.outPanics site ev = true
      · simp [body, ho, writes]
      · by_cases hc : cfg.minCallLevel ≤ ev.level
        · have : w.outPanics site ev = false := by simpa [hc] using ho
          simp [body, hc, this, hs, writes]
        · simp [body, hc, hs, writes]
  have hfall : ∀ both site, writes (handleFallback w cfg both site ev) ≤ 1 := by
    intro both site
    obtain ⟨h1, h2⟩ := hbody both site
    unfold handleFallback
    by_cases hb : (body w cfg both site ev).2 = true
    · simp only [hb, if_true, h2 hb]; simp [writes]
    · simp only [hb]; simpa using h1
  have hroot : ∀ cache both site mode, writes (handleRoot w cfg cache ev both site mode).acts ≤ 1 := by
    intro cache both site mode
    cases mode with
    | fallback => exact hfall both site
    | normal =>
      obtain ⟨h1, h2⟩ := handleRoot_normal w cfg cache ev both site
      obtain ⟨h3, h4⟩ := hbody both site
      cases hb : (body w cfg both site ev).2 with
      | false => rw [h1 hb]; exact h3
      | true =>
        rw [h2 hb, h4 hb]
        simp only [List.nil_append]
        split
        · exact hfall _ _
        · exact hfall _ _
        · simp [writes]
  cases h with
  | one s m => exact hroot _ _ _ _
  | both s m => exact hroot _ _ _ _
  | redirector s =>
    simp only [handle]
    split
    · exact hroot _ _ _ _
    · exact hroot _ _ _ _
    · simp [writes]
    · split
      · exact hroot _ _ _ _
      · exact hroot _ _ _ _
      · simp [writes]

/-- C70 fails: when the stats handler panics after the event was written, the event is
written a second time. -/
theorem written_twice :
    writes (step State.init (.log { aggregating with statsPanics := fun _ _ => true } sampleCall)).1.1 = 2 := by decide

/-! ### C71 -/

/-- C71 fails: once two events logged from the same place (a wrapper function) have
panicked, the second one is formatted by the handler made for the first. -/
theorem handled_as_other_event :
    let a := { sampleCall with api := .info, err := none }
    let b := { a with event := asc "other" }
    (run State.init [.log stormy a, .log stormy b, .log calm a, .log calm b])[3]? =
      some ([.out ⟨asc "query {id}", false, asc "a.go", 7, 1⟩ ⟨30, 1, none⟩], .nil) := by decide

end Verif.Countlog
