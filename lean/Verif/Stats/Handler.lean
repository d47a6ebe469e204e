import Verif.Countlog.Props
import Verif.Stats.Dims

/-!
# C120, C121: which events are counted, and what that does to the log
(countlog/stats/stats.go, countlog/stats/counter.go, countlog/root.go)
-/

namespace Verif.Stats

open Verif.Countlog

/-- What `HandlerOf` gives (stats.go:28-59): nil, the `DummyEventHandler` that does nothing
(spi.go:109-114), a `countEvent` with this extractor, or a panic. -/
inductive Made where
  | nil
  | dummy
  | counter (x : Extractor)
  | panics
  deriving DecidableEq

/-- `createHandler`, stats.go:41-59; `collector`: one is set.  The window is that of
`Verif.Stats.Window`, every counter has its own. -/
def createHandler (collector : Bool) (agg : Bytes) (sample : List Val) : Made :=
  if collector then
    match newDimensionExtractor sample with
    | none => .panics
    | some (x, _) => if agg = asc "counter" then .counter x else .nil
  else .dummy

/-- The loop of `HandlerOf`, stats.go:33-37; `all` is the whole sample. -/
def findAgg (collector : Bool) (all : List Val) : List Val → Made
  | [] => .nil
  | .other :: _ => .panics
  | [.str key] => if key = asc "agg" then .panics else .nil
  | .str key :: v :: sample =>
    if key = asc "agg" then
      match v.string? with
      | none => .panics
      | some agg => createHandler collector agg all
    else findAgg collector all sample

/-- `HandlerOf`, stats.go:28-39, for a site with this `Agg` and `Sample`. -/
def handlerOf (collector : Bool) (agg : Bytes) (sample : List Val) : Made :=
  if agg ≠ [] then createHandler collector agg sample else findAgg collector sample sample

/-- The aggregator of a program (stats.go:7-26) and the values of the property lists that the
model of countlog leaves opaque. -/
structure Setup where
  collector : Bool
  sampleOf : Props → List Val

/-- The `Agg` of a site, countlog.go:206-212: "call" or nothing (42-104). -/
def aggOf (site : Site) : Bytes := if site.call then asc "call" else []

/-- `EventAggregator.HandlerOf(site)`, stats.go:28-39. -/
def Setup.made (u : Setup) (site : Site) : Made := handlerOf u.collector (aggOf site) (u.sampleOf site.sample)

/-- What the aggregator does in countlog (root.go:13-28 and 57-68); `countEvent.Handle`,
counter.go:11-17, panics where the extractor does.  Simplified: the writer never panics. -/
def Setup.world (u : Setup) : World where
  statsOf site :=
    match u.made site with
    | .nil => .nil
    | .dummy => .handler
    | .counter _ => .handler
    | .panics => .panics
  writerPanics _ := false
  outPanics _ _ := false
  statsPanics site ev :=
    match u.made site with
    | .counter x => (x.key (u.sampleOf ev.props)).isNone
    | _ => false

/-! ### Specification -/

/-- An act that adds one to a counter. -/
def Setup.counts (u : Setup) : Act → Bool
  | .stats site _ =>
    match u.made site with
    | .counter _ => true
    | _ => false
  | _ => false

/-- An act that writes to the log. -/
def writes : Act → Bool
  | .out _ _ => true
  | _ => false

/-- The first property called agg. -/
def firstAgg (l : List (Bytes × Val)) : Option Val := (l.find? fun p => p.1 = asc "agg").map Prod.snd

/-- Call sites: the properties of calls with one event name have the same names in the same
order, the same dim list, and strings where the aggregator wants strings. -/
structure Tidy (u : Setup) (pairs : Call → List (Bytes × Val)) (c : Call) : Prop where
  sample : u.sampleOf c.props = properties (pairs c)
  strings : ∀ p ∈ pairs c, p.1 = asc "agg" ∨ p.1 = asc "dim" ∨ p.1 ∈ dims (pairs c) → ∃ s, p.2 = .str s

/-- Calls with one event name are alike. -/
def Alike (pairs : Call → List (Bytes × Val)) (c d : Call) : Prop :=
  c.event = d.event → SameNames (pairs c) (pairs d) ∧ dims (pairs c) = dims (pairs d)

instance (min suppressed : Int) (failed : Bool) (api : Api) : Decidable (wanted min suppressed failed api) := by
  unfold wanted
  split <;> infer_instance

/-- The first call of a run, started with minimum level `min`, that logs event `e`. -/
def firstCall (e : Bytes) (min : Int) : List Op → Option Call
  | [] => none
  | .setMinLevel level :: ops => firstCall e level ops
  | .log _ c :: ops =>
    if wanted min c.suppressed c.err.isSome c.api ∧ c.event = e then some c else firstCall e min ops

/-- The calls of a run, all with the same aggregator, are tidy and alike. -/
structure TidyRun (u : Setup) (pairs : Call → List (Bytes × Val)) (ops : List Op) : Prop where
  world : ∀ w c, Op.log w c ∈ ops → w = u.world
  tidy : ∀ w c, Op.log w c ∈ ops → Tidy u pairs c
  alike : ∀ w c w' d, Op.log w c ∈ ops → Op.log w' d ∈ ops → Alike pairs c d

/-- The run of a program that sets levels and logs, with this aggregator. -/
def program (u : Setup) : List (Int ⊕ Call) → List Op
  | [] => []
  | .inl level :: calls => .setMinLevel level :: program u calls
  | .inr c :: calls => .log u.world c :: program u calls

/-- The call asks for a counter. -/
def asksCounter (pairs : Call → List (Bytes × Val)) (c : Call) : Prop :=
  c.api.isCall = false ∧ firstAgg (pairs c) = some (.str (asc "counter"))

/-- The call asks for no aggregation at all. -/
def asksNothing (pairs : Call → List (Bytes × Val)) (c : Call) : Prop :=
  c.api.isCall = false ∧ firstAgg (pairs c) = none

/-! ### Proofs -/

theorem findAgg_properties (collector : Bool) (all : List Val) (l : List (Bytes × Val))
    (h : ∀ p ∈ l, p.1 = asc "agg" → ∃ s, p.2 = .str s) :
    findAgg collector all (properties l) =
      match firstAgg l with
      | some (.str s) => createHandler collector s all
      | _ => .nil := by
  induction l with
  | nil => rfl
  | cons p l ih =>
    obtain ⟨k, v⟩ := p
    have hp : properties ((k, v) :: l) = .str k :: v :: properties l := rfl
    rw [hp, findAgg]
    by_cases hk : k = asc "agg"
    · rw [if_pos hk]
      obtain ⟨s, hs⟩ := h (k, v) (by simp) hk
      simp only at hs
      subst hs
      simp [firstAgg, hk, Val.string?]
    · rw [if_neg hk, ih (fun p hp => h p (List.mem_cons_of_mem _ hp))]
      simp [firstAgg, hk]

/-- The site `newHandler` makes for a call (countlog.go:206-217). -/
def siteOf (c : Call) : Site := ⟨c.event, c.api.isCall, c.file, c.line, c.props⟩

theorem made_tidy {u : Setup} {pairs : Call → List (Bytes × Val)} {c : Call} (h : Tidy u pairs c) :
    ∃ x n, newDimensionExtractor (properties (pairs c)) = some (x, n) ∧
      (u.collector = true → (asksCounter pairs c → u.made (siteOf c) = .counter x) ∧
        (¬ asksCounter pairs c → u.made (siteOf c) = .nil)) ∧
      (u.collector = false → (asksNothing pairs c → u.made (siteOf c) = .nil) ∧
        (¬ asksNothing pairs c → u.made (siteOf c) = .dummy)) := by
  obtain ⟨x, n, h1, -, -⟩ := key_of_event (pairs c) (pairs c) (fun p hp hd => h.strings p hp (Or.inr (Or.inl hd))) rfl
    (fun p hp hd => h.strings p hp (Or.inr (Or.inr hd)))
  have hc : ∀ agg, createHandler u.collector agg (properties (pairs c)) =
      if u.collector then (if agg = asc "counter" then .counter x else .nil) else .dummy := by
    intro agg; rw [createHandler, h1]
  refine ⟨x, n, h1, ?_, ?_⟩
  all_goals
    intro hcol
    rw [hcol] at hc
    unfold Setup.made handlerOf aggOf siteOf
    simp only [h.sample, hcol, asksCounter, asksNothing]
    cases hcall : c.api.isCall with
    | true =>
      simp only [if_true]
      rw [if_pos (by decide), hc]
      refine ⟨?_, ?_⟩
      · simp
      · intro _; rfl
    | false =>
      simp only [Bool.false_eq_true, if_false]
      rw [if_neg (by simp), findAgg_properties _ _ _ (fun p hp hd => h.strings p hp (Or.inl hd))]
      cases hf : firstAgg (pairs c) with
      | none => simp
      | some v =>
        have hv : ∃ s, v = .str s := by
          unfold firstAgg at hf
          simp only [Option.map_eq_some_iff] at hf
          obtain ⟨p, hp, rfl⟩ := hf
          have := List.find?_some hp
          exact h.strings p (List.mem_of_find?_eq_some hp) (Or.inl (by simpa using this))
        obtain ⟨s, rfl⟩ := hv
        simp only [hc]
        by_cases hs : s = asc "counter"
        · simp [hs]
        · simp [hs]

/-- Tidy calls of one event: the counter made for one does not panic on the other. -/
theorem stats_calm {u : Setup} {pairs : Call → List (Bytes × Val)} {c d : Call} (hc : Tidy u pairs c) (hd : Tidy u pairs d)
    (ha : Alike pairs d c) (he : d.event = c.event) (level : Int) (err : Option Bytes) :
    u.world.statsPanics (siteOf c) ⟨level, d.props, err⟩ = false := by
  obtain ⟨hn, hdims⟩ := ha he
  obtain ⟨x, n, h1, h2, -⟩ := key_of_event (pairs c) (pairs d) (fun p hp hd => hc.strings p hp (Or.inr (Or.inl hd))) hn
    (fun p hp hm => hd.strings p hp (Or.inr (Or.inr (by rw [hdims]; exact hm))))
  obtain ⟨x', n', h1', hm, hm'⟩ := made_tidy hc
  rw [h1] at h1'
  simp only [Option.some.injEq, Prod.mk.injEq] at h1'
  obtain ⟨rfl, -⟩ := h1'
  simp only [Setup.world]
  cases hcol : u.collector with
  | true =>
    by_cases hask : asksCounter pairs c
    · rw [(hm hcol).1 hask]; simp [hd.sample, h2]
    · rw [(hm hcol).2 hask]
  | false =>
    by_cases hask : asksNothing pairs c
    · rw [(hm' hcol).1 hask]
    · rw [(hm' hcol).2 hask]

/-- The handler in the cache for an event first logged by `c`. -/
def rootOf (u : Setup) (c : Call) : Handler :=
  if u.made (siteOf c) = .nil then .one (siteOf c) .normal else .both (siteOf c) .normal

/-- Does the root handler for `c` have a stats handler. -/
def hasStats (u : Setup) (c : Call) : Bool := decide (u.made (siteOf c) ≠ .nil)

theorem newRoot_tidy {u : Setup} {pairs : Call → List (Bytes × Val)} {c : Call} (h : Tidy u pairs c) :
    newRootHandler u.world (siteOf c) .normal = some (rootOf u c) := by
  obtain ⟨x, n, -, hm, hm'⟩ := made_tidy h
  unfold newRootHandler rootOf
  simp only [Setup.world]
  cases hcol : u.collector with
  | true =>
    by_cases hask : asksCounter pairs c
    · rw [(hm hcol).1 hask]; simp
    · rw [(hm hcol).2 hask]; simp
  | false =>
    by_cases hask : asksNothing pairs c
    · rw [(hm' hcol).1 hask]; simp
    · rw [(hm' hcol).2 hask]; simp

theorem handle_tidy {u : Setup} {pairs : Call → List (Bytes × Val)} {c d : Call} (hc : Tidy u pairs c) (hd : Tidy u pairs d)
    (ha : Alike pairs d c) (he : d.event = c.event) (cfg : Levels) (cache : Cache) (level : Int) (err : Option Bytes) :
    handle u.world cfg cache d.file d.line ⟨level, d.props, err⟩ (rootOf u c) =
      ⟨quietActs cfg (hasStats u c) (siteOf c) ⟨level, d.props, err⟩, false, cache⟩ := by
  have hs := stats_calm hc hd ha he level err
  have ho : u.world.outPanics (siteOf c) ⟨level, d.props, err⟩ = false := rfl
  unfold rootOf hasStats
  by_cases hn : u.made (siteOf c) = .nil
  · rw [if_pos hn]
    simp [handle, handleRoot, body, quietActs, ho, hn]
  · rw [if_neg hn]
    simp [handle, handleRoot, body, quietActs, ho, hs, hn]

/-- The cache holds the handlers of the events seen, made for their first calls. -/
def CacheOf (u : Setup) (seen : Bytes → Option Call) (cache : Cache) : Prop :=
  ∀ e, cache.lookup (.event e) = (seen e).map (rootOf u)

theorem log_tidy {u : Setup} {pairs : Call → List (Bytes × Val)} {seen : Bytes → Option Call} {cache : Cache} {d : Call}
    (hi : CacheOf u seen cache) (hseen : ∀ e c, seen e = some c → c.event = e ∧ Tidy u pairs c ∧ Alike pairs d c)
    (hd : Tidy u pairs d) (cfg : Levels) (level : Int) (err : Option Bytes) :
    (log u.world cfg cache d level d.api.isCall err).1.1 =
      quietActs cfg (hasStats u ((seen d.event).getD d)) (siteOf ((seen d.event).getD d)) ⟨level, d.props, err⟩ ∧
    CacheOf u (fun e => (seen e).or (if e = d.event then some d else none))
      (log u.world cfg cache d level d.api.isCall err).2 := by
  have key : ∃ cache', getHandler u.world cache d.event d.api.isCall d.file d.line d.props =
      (some (rootOf u ((seen d.event).getD d)), cache') ∧
      CacheOf u (fun e => (seen e).or (if e = d.event then some d else none)) cache' := by
    unfold getHandler
    rw [hi d.event]
    cases hs : seen d.event with
    | some c =>
      refine ⟨cache, rfl, fun e => ?_⟩
      rw [hi e]
      by_cases he : e = d.event
      · subst he; simp [hs]
      · simp [he]
    | none =>
      simp only [Option.map_none, Option.getD_none]
      have := newRoot_tidy hd
      unfold siteOf at this
      rw [this]
      refine ⟨_, rfl, fun e => ?_⟩
      rw [lookup_cons_key]
      by_cases he : e = d.event
      · subst he; simp [hs]
      · rw [if_neg (by simp [he]), hi e]; simp [he]
  obtain ⟨cache', hg, hc'⟩ := key
  have hh : handle u.world cfg cache' d.file d.line ⟨level, d.props, err⟩ (rootOf u ((seen d.event).getD d)) =
      ⟨quietActs cfg (hasStats u ((seen d.event).getD d)) (siteOf ((seen d.event).getD d)) ⟨level, d.props, err⟩, false, cache'⟩ := by
    cases hs : seen d.event with
    | some c =>
      obtain ⟨h1, h2, h3⟩ := hseen _ _ hs
      exact handle_tidy h2 hd h3 h1.symm cfg cache' level err
    | none => exact handle_tidy hd hd (fun _ => ⟨rfl, rfl⟩) rfl cfg cache' level err
  unfold log
  rw [hg]
  simp only [hh]
  cases err with
  | none => exact ⟨rfl, hc'⟩
  | some msg => cases d.text <;> exact ⟨rfl, hc'⟩

theorem firstCall_event {e : Bytes} : ∀ (ops : List Op) (min : Int) (c : Call), firstCall e min ops = some c →
    c.event = e ∧ ∃ w, Op.log w c ∈ ops := by
  intro ops
  induction ops with
  | nil => intro min c h; simp [firstCall] at h
  | cons op ops ih =>
    intro min c h
    cases op with
    | setMinLevel level =>
      obtain ⟨h1, w, h2⟩ := ih level c h
      exact ⟨h1, w, List.mem_cons_of_mem _ h2⟩
    | log w d =>
      rw [firstCall] at h
      by_cases hw : wanted min d.suppressed d.err.isSome d.api ∧ d.event = e
      · rw [if_pos hw] at h
        injection h with h
        subst h
        exact ⟨hw.2, w, List.mem_cons_self ..⟩
      · rw [if_neg hw] at h
        obtain ⟨h1, w', h2⟩ := ih min c h
        exact ⟨h1, w', List.mem_cons_of_mem _ h2⟩

theorem after_tidy {u : Setup} {pairs : Call → List (Bytes × Val)} : ∀ (ops : List Op) (s : State) (seen : Bytes → Option Call),
    TidyRun u pairs ops → CacheOf u seen s.cache →
    (∀ e c, seen e = some c → c.event = e ∧ Tidy u pairs c ∧ ∀ w d, Op.log w d ∈ ops → Alike pairs d c) →
    CacheOf u (fun e => (seen e).or (firstCall e s.cfg.minLevel ops)) (after s ops).cache := by
  intro ops
  induction ops with
  | nil =>
    intro s seen _ hi _ e
    simp only [firstCall, Option.or_none]
    exact hi e
  | cons op ops ih =>
    intro s seen ht hi hseen
    have ht' : TidyRun u pairs ops := ⟨fun w c h => ht.world w c (List.mem_cons_of_mem _ h),
      fun w c h => ht.tidy w c (List.mem_cons_of_mem _ h),
      fun w c w' d h h' => ht.alike w c w' d (List.mem_cons_of_mem _ h) (List.mem_cons_of_mem _ h')⟩
    cases op with
    | setMinLevel level =>
      exact ih _ seen ht' hi (fun e c h => ⟨(hseen e c h).1, (hseen e c h).2.1,
        fun w d hd => (hseen e c h).2.2 w d (List.mem_cons_of_mem _ hd)⟩)
    | log w d =>
      have hw : w = u.world := ht.world w d (List.mem_cons_self ..)
      subst hw
      have hd := ht.tidy _ d (List.mem_cons_self ..)
      obtain ⟨he1, he2⟩ := entry_iff s.cfg d.suppressed d.err.isSome d.api
      by_cases hwant : wanted s.cfg.minLevel d.suppressed d.err.isSome d.api
      · have hst : (step s (.log u.world d)).2 = { s with
            cache := (log u.world s.cfg s.cache d (d.api.levelOf d.err.isSome) d.api.isCall
              (if d.api.isCall then d.err else none)).2 } := by
          simp only [step, call, he1 hwant]
        have hl := (log_tidy hi (fun e c h => ⟨(hseen e c h).1, (hseen e c h).2.1,
          (hseen e c h).2.2 _ d (List.mem_cons_self ..)⟩) hd s.cfg (d.api.levelOf d.err.isSome)
          (if d.api.isCall then d.err else none)).2
        have := ih (step s (.log u.world d)).2 _ ht' (by rw [hst]; exact hl) (by
          intro e c h
          cases hs : seen e with
          | some c' =>
            simp only [hs, Option.some_or, Option.some.injEq] at h
            subst h
            exact ⟨(hseen e _ hs).1, (hseen e _ hs).2.1, fun w d hd => (hseen e _ hs).2.2 w d (List.mem_cons_of_mem _ hd)⟩
          | none =>
            simp only [hs, Option.none_or] at h
            by_cases he : e = d.event
            · rw [if_pos he] at h
              injection h with h
              subst h
              exact ⟨he.symm, hd, fun w d' hd' => ht.alike _ _ _ _ (List.mem_cons_of_mem _ hd') (List.mem_cons_self ..)⟩
            · rw [if_neg he] at h; simp at h)
        intro e
        have he := this e
        show ((after (step s (.log u.world d)).2 ops).cache).lookup _ = _
        have hfc : firstCall e s.cfg.minLevel (Op.log u.world d :: ops) =
            if wanted s.cfg.minLevel d.suppressed d.err.isSome d.api ∧ d.event = e then some d
            else firstCall e s.cfg.minLevel ops := rfl
        simp only [he, hfc]
        have hcfg : (step s (.log u.world d)).2.cfg = s.cfg := by rw [hst]
        rw [hcfg]
        congr 1
        by_cases hev : e = d.event
        · subst hev; simp [hwant]
        · have : ¬ d.event = e := fun h => hev h.symm
          simp [hev, this]
      · have hst : (step s (.log u.world d)).2 = s := by
          simp only [step, call, he2 hwant]
        show CacheOf u _ (after (step s (.log u.world d)).2 ops).cache
        rw [hst]
        have := ih s seen ht' hi (fun e c h => ⟨(hseen e c h).1, (hseen e c h).2.1,
          fun w d hd => (hseen e c h).2.2 w d (List.mem_cons_of_mem _ hd)⟩)
        intro e
        have hfc : firstCall e s.cfg.minLevel (Op.log u.world d :: ops) =
            if wanted s.cfg.minLevel d.suppressed d.err.isSome d.api ∧ d.event = e then some d
            else firstCall e s.cfg.minLevel ops := rfl
        simp only [this e, hfc]
        rw [if_neg (fun h => hwant h.1)]

/-- What a call does in a tidy run: it is handled the way its event name was handled first. -/
theorem step_tidy {u : Setup} {pairs : Call → List (Bytes × Val)} {ops : List Op} {d : Call}
    (ht : TidyRun u pairs (ops ++ [.log u.world d])) (hwant : wanted (lastMin 10 ops) d.suppressed d.err.isSome d.api) :
    let first := (firstCall d.event 10 ops).getD d
    (step (after State.init ops) (.log u.world d)).1.1 =
      quietActs (after State.init ops).cfg (hasStats u first) (siteOf first)
        ⟨d.api.levelOf d.err.isSome, d.props, if d.api.isCall then d.err else none⟩ ∧ Tidy u pairs first := by
  intro first
  have ht' : TidyRun u pairs ops := ⟨fun w c h => ht.world w c (List.mem_append_left _ h),
    fun w c h => ht.tidy w c (List.mem_append_left _ h),
    fun w c w' d h h' => ht.alike w c w' d (List.mem_append_left _ h) (List.mem_append_left _ h')⟩
  have hi := after_tidy ops State.init (fun _ => none) ht' (fun e => by simp [State.init]) (by simp)
  simp only [Option.none_or] at hi
  have hm : State.init.cfg.minLevel = 10 := rfl
  rw [hm] at hi
  have hd : Tidy u pairs d := ht.tidy u.world d (by simp)
  have hseen : ∀ e c, firstCall e 10 ops = some c → c.event = e ∧ Tidy u pairs c ∧ Alike pairs d c := by
    intro e c h
    obtain ⟨h1, w, h2⟩ := firstCall_event ops 10 c h
    exact ⟨h1, ht'.tidy w c h2, ht.alike _ _ w _ (by simp : Op.log u.world d ∈ _) (List.mem_append_left _ h2)⟩
  obtain ⟨he1, -⟩ := entry_iff (after State.init ops).cfg d.suppressed d.err.isSome d.api
  rw [(init_cfg ops).1] at he1
  have hl := log_tidy hi hseen hd (after State.init ops).cfg (d.api.levelOf d.err.isSome)
    (if d.api.isCall then d.err else none)
  refine ⟨?_, ?_⟩
  · simp only [step, call, he1 hwant]
    exact hl.1
  · show Tidy u pairs ((firstCall d.event 10 ops).getD d)
    cases hf : firstCall d.event 10 ops with
    | none => exact hd
    | some c => exact (hseen _ _ hf).2.1

theorem step_unwanted {w : World} {ops : List Op} {d : Call}
    (hwant : ¬ wanted (lastMin 10 ops) d.suppressed d.err.isSome d.api) :
    (step (after State.init ops) (.log w d)).1 = ([], .nil) := by
  obtain ⟨-, he2⟩ := entry_iff (after State.init ops).cfg d.suppressed d.err.isSome d.api
  rw [(init_cfg ops).1] at he2
  simp only [step, call, he2 hwant]

/-- C120, partial: in every run of tidy calls, a call adds one to one counter exactly when it
is wanted at the minimum level, a collector is set, and the first call that logged an
event of this name asked for a counter; otherwise it counts nothing. -/
theorem counted_iff_partial (u : Setup) (pairs : Call → List (Bytes × Val)) (ops : List Op) (d : Call)
    (ht : TidyRun u pairs (ops ++ [.log u.world d])) :
    (wanted (lastMin 10 ops) d.suppressed d.err.isSome d.api ∧ u.collector = true ∧
      asksCounter pairs ((firstCall d.event 10 ops).getD d) →
        ((step (after State.init ops) (.log u.world d)).1.1.filter u.counts).length = 1) ∧
    (¬ (wanted (lastMin 10 ops) d.suppressed d.err.isSome d.api ∧ u.collector = true ∧
      asksCounter pairs ((firstCall d.event 10 ops).getD d)) →
        (step (after State.init ops) (.log u.world d)).1.1.filter u.counts = []) := by
  by_cases hwant : wanted (lastMin 10 ops) d.suppressed d.err.isSome d.api
  · obtain ⟨h1, h2⟩ := step_tidy ht hwant
    generalize (firstCall d.event 10 ops).getD d = first at h1 h2
    rw [h1]
    obtain ⟨x, n, -, hm, hm'⟩ := made_tidy h2
    unfold quietActs hasStats
    cases hcol : u.collector with
    | true =>
      by_cases hask : asksCounter pairs first
      · have := (hm hcol).1 hask
        refine ⟨fun _ => ?_, fun h => absurd ⟨hwant, rfl, hask⟩ h⟩
        rw [this]
        simp only [ne_eq, reduceCtorEq, not_false_eq_true, decide_true, if_true]
        split <;> simp [Setup.counts, this]
      · have := (hm hcol).2 hask
        refine ⟨fun h => absurd h.2.2 hask, fun _ => ?_⟩
        simp [this, Setup.counts]
    | false =>
      refine ⟨fun h => absurd h.2.1 (by simp), fun _ => ?_⟩
      by_cases hask : asksNothing pairs first
      · simp [(hm' hcol).1 hask, Setup.counts]
      · have := (hm' hcol).2 hask
        rw [this]
        simp only [ne_eq, reduceCtorEq, not_false_eq_true, decide_true, if_true]
        split <;> simp [Setup.counts, this]
  · refine ⟨fun h => absurd h.1 hwant, fun _ => ?_⟩
    rw [step_unwanted hwant]
    rfl

theorem firstCall_program (e : Bytes) (u v : Setup) : ∀ (calls : List (Int ⊕ Call)) (m : Int),
    firstCall e m (program u calls) = firstCall e m (program v calls) := by
  intro calls
  induction calls with
  | nil => intro m; rfl
  | cons a calls ih =>
    intro m
    cases a with
    | inl level => exact ih level
    | inr c => simp only [program, firstCall]; rw [ih m]

theorem lastMin_program (u v : Setup) : ∀ (calls : List (Int ⊕ Call)) (m : Int),
    lastMin m (program u calls) = lastMin m (program v calls) := by
  intro calls
  induction calls with
  | nil => intro m; rfl
  | cons a calls ih =>
    intro m
    cases a with
    | inl level => exact ih level
    | inr c => exact ih m

/-- C121, partial: what a tidy run writes for a call is the same with and without a collector
if the event name was first logged asking for a counter or for no aggregation. -/
theorem collector_changes_no_writing_partial (u v : Setup) (hu : u.collector = true) (hv : v.collector = false)
    (pairs : Call → List (Bytes × Val)) (calls : List (Int ⊕ Call)) (d : Call)
    (htu : TidyRun u pairs (program u calls ++ [.log u.world d])) (htv : TidyRun v pairs (program v calls ++ [.log v.world d]))
    (hf : asksCounter pairs ((firstCall d.event 10 (program u calls)).getD d) ∨
      asksNothing pairs ((firstCall d.event 10 (program u calls)).getD d)) :
    (step (after State.init (program u calls)) (.log u.world d)).1.1.filter writes =
      (step (after State.init (program v calls)) (.log v.world d)).1.1.filter writes := by
  have hF := firstCall_program d.event u v calls 10
  have hL := lastMin_program u v calls 10
  by_cases hwant : wanted (lastMin 10 (program u calls)) d.suppressed d.err.isSome d.api
  · obtain ⟨h1, t1⟩ := step_tidy htu hwant
    obtain ⟨h2, t2⟩ := step_tidy htv (by rw [← hL]; exact hwant)
    rw [← hF] at h2 t2
    rw [h1, h2]
    have hc : (after State.init (program u calls)).cfg.minCallLevel = (after State.init (program v calls)).cfg.minCallLevel := by
      rw [(init_cfg _).2, (init_cfg _).2, hL]
    generalize (firstCall d.event 10 (program u calls)).getD d = first at hf t1 t2
    obtain ⟨x, n, -, hm, -⟩ := made_tidy t1
    obtain ⟨x', n', -, -, hm'⟩ := made_tidy t2
    unfold quietActs hasStats
    rw [hc]
    rcases hf with hf | hf
    · rw [(hm hu).1 hf, (hm' hv).2 (fun h => by have := h.2; rw [hf.2] at this; simp at this)]
      simp only [ne_eq, reduceCtorEq, not_false_eq_true, decide_true, if_true, List.filter_append]
    · rw [(hm hu).2 (fun h => by have := h.2; rw [hf.2] at this; simp at this), (hm' hv).1 hf]
  · rw [step_unwanted hwant, step_unwanted (by rw [← hL]; exact hwant)]

/-- C121, partial: without a collector, an event whose name was first logged by a `Call`
function is written exactly when the minimum level is at least five below its own:
TRACE_CALL for `TraceCall`, DEBUG_CALL for `DebugCall`, INFO_CALL for `InfoCall`. -/
theorem call_written_iff_partial (u : Setup) (hu : u.collector = false) (pairs : Call → List (Bytes × Val)) (ops : List Op)
    (d : Call) (ht : TidyRun u pairs (ops ++ [.log u.world d])) (hd : d.api.isCall = true) (hok : d.err = none)
    (hfirst : ((firstCall d.event 10 ops).getD d).api.isCall = true) :
    ((step (after State.init ops) (.log u.world d)).1.1.filter writes ≠ [] ↔ lastMin 10 ops ≤ d.api.levelOf false - 5) := by
  have hlev : d.err.isSome = false := by rw [hok]; rfl
  by_cases hwant : wanted (lastMin 10 ops) d.suppressed d.err.isSome d.api
  · obtain ⟨h1, t1⟩ := step_tidy ht hwant
    rw [h1]
    generalize (firstCall d.event 10 ops).getD d = first at hfirst t1
    obtain ⟨x, n, -, -, hm⟩ := made_tidy t1
    have hs : hasStats u first = true := by
      unfold hasStats
      rw [(hm hu).2 (fun h => by rw [h.1] at hfirst; simp at hfirst)]
      rfl
    unfold quietActs
    rw [hs, (init_cfg ops).2, hlev]
    simp only [if_true]
    by_cases hle : lastMin 10 ops + 5 ≤ d.api.levelOf false
    · rw [if_pos hle]
      simp [writes]
      omega
    · rw [if_neg hle]
      simp [writes]
      omega
  · rw [step_unwanted hwant]
    have : ¬ lastMin 10 ops ≤ d.api.levelOf false := by
      intro h
      apply hwant
      rw [hlev]
      revert hd h
      cases d.api <;> simp [Api.isCall, wanted]
    simp
    omega

/-! ### Concrete cases -/

/-- Property lists 1 (a counter with a dimension), 2 (none), 3 (the same, other value). -/
def loggedPairs (n : Nat) : List (Bytes × Val) :=
  if n = 1 then [(asc "agg", .str (asc "counter")), (asc "dim", .str (asc "city")), (asc "city", .str (asc "x"))]
  else if n = 3 then [(asc "agg", .str (asc "counter")), (asc "dim", .str (asc "city")), (asc "city", .str (asc "y"))]
  else []

/-- A program with or without a collector. -/
def loggedSetup (collector : Bool) : Setup := ⟨collector, fun n => properties (loggedPairs n)⟩

def loggedCall (api : Api) (event : String) (props : Nat) : Call :=
  ⟨api, 0, asc event, asc "a.go", 7, props, none, none⟩

def loggedRun (b : Bool) : List Op :=
  [.setMinLevel 30, .log (loggedSetup b).world (loggedCall .info "in" 1), .log (loggedSetup b).world (loggedCall .infoCall "do" 2)]

theorem loggedRun_tidy (b : Bool) (api : Api) :
    TidyRun (loggedSetup b) (fun c => loggedPairs c.props) (loggedRun b ++ [.log (loggedSetup b).world (loggedCall api "in" 3)]) := by
  have mem : ∀ w c, Op.log w c ∈ loggedRun b ++ [.log (loggedSetup b).world (loggedCall api "in" 3)] →
      w = (loggedSetup b).world ∧ (c = loggedCall .info "in" 1 ∨ c = loggedCall .infoCall "do" 2 ∨ c = loggedCall api "in" 3) := by
    intro w c h
    simp only [loggedRun, List.cons_append, List.nil_append, List.mem_cons, Op.log.injEq, List.not_mem_nil, or_false,
      reduceCtorEq, false_or] at h
    rcases h with ⟨rfl, rfl⟩ | ⟨rfl, rfl⟩ | ⟨rfl, rfl⟩ <;> simp
  refine ⟨fun w c h => (mem w c h).1, fun w c h => ?_, fun w c w' d h h' => ?_⟩
  · refine ⟨rfl, ?_⟩
    rcases (mem w c h).2 with rfl | rfl | rfl
    · intro p hp _
      simp [loggedPairs, loggedCall] at hp
      rcases hp with rfl | rfl | rfl <;> exact ⟨_, rfl⟩
    · intro p hp
      simp [loggedPairs, loggedCall] at hp
    · intro p hp _
      simp [loggedPairs, loggedCall] at hp
      rcases hp with rfl | rfl | rfl <;> exact ⟨_, rfl⟩
  · rcases (mem w c h).2 with rfl | rfl | rfl <;> rcases (mem w' d h').2 with rfl | rfl | rfl <;> intro he
    all_goals first
      | exact ⟨rfl, rfl⟩
      | exact absurd he (by simp only [loggedCall]; decide)
      | exact ⟨rfl, by simp only [loggedCall]; decide⟩

/-- The counter counts the second event of its name too, whichever function logs it. -/
example : ((step (after State.init (loggedRun true)) (.log (loggedSetup true).world (loggedCall .warn "in" 3))).1.1.filter
    (loggedSetup true).counts).length = 1 :=
  (counted_iff_partial _ _ _ _ (loggedRun_tidy true .warn)).1 (by
    refine ⟨trivial, rfl, ?_⟩
    have : (firstCall (asc "in") 10 (loggedRun true)).getD (loggedCall .warn "in" 3) = loggedCall .info "in" 1 := by
      simp only [loggedRun, firstCall]
      rw [if_pos (by decide)]
      rfl
    exact this ▸ ⟨rfl, by decide⟩)

/-- C120 fails: the `Call` functions ask for the aggregation "call", which the aggregator does
not know; in no tidy run is an event whose name they logged first ever counted. -/
theorem call_never_counted (u : Setup) (pairs : Call → List (Bytes × Val)) (ops : List Op) (d : Call)
    (ht : TidyRun u pairs (ops ++ [.log u.world d])) (hc : ((firstCall d.event 10 ops).getD d).api.isCall = true) :
    (step (after State.init ops) (.log u.world d)).1.1.filter u.counts = [] :=
  (counted_iff_partial u pairs ops d ht).2 (fun h => by rw [h.2.2.1] at hc; simp at hc)

/-- C120 fails: with a collector and at the level that is documented to calculate stats, a
successful `InfoCall` is not counted. -/
theorem info_call_not_counted :
    (run State.init [.setMinLevel levelInfo, .log (loggedSetup true).world (loggedCall .infoCall "do" 2)]).map
      (fun r => r.1.filter (loggedSetup true).counts) = [[], []] := by decide

/-- C120 fails: an event that asks for a counter is not counted if its name was logged before
without asking. -/
theorem counter_ignored :
    (run State.init [.log (loggedSetup true).world (loggedCall .info "in" 2),
      .log (loggedSetup true).world (loggedCall .info "in" 1)]).map (fun r => r.1.filter (loggedSetup true).counts) = [[], []] ∧
    (run State.init [.log (loggedSetup true).world (loggedCall .info "in" 1)]).map
      (fun r => (r.1.filter (loggedSetup true).counts).length) = [1] := by decide

/-- C121 fails: setting a collector makes a successful `InfoCall` at minimum level Info
appear in the log, where without one it does not (as documented: only in INFO_CALL). -/
theorem collector_changes_writing :
    (run State.init [.setMinLevel levelInfo, .log (loggedSetup true).world (loggedCall .infoCall "do" 2)]).map
      (fun r => (r.1.filter writes).length) = [0, 1] ∧
    (run State.init [.setMinLevel levelInfo, .log (loggedSetup false).world (loggedCall .infoCall "do" 2)]).map
      (fun r => (r.1.filter writes).length) = [0, 0] := by decide

/-- C121 fails: without a collector, an Info event that asks for a counter is not written at
minimum level Info. -/
theorem disabled_counter_hides :
    (run State.init [.setMinLevel levelInfo, .log (loggedSetup false).world (loggedCall .info "in" 1)]).map
      (fun r => (r.1.filter writes).length) = [0, 0] := by decide

/-- A property list that is not made of names panics in the log call once a collector is set,
and so does an agg without a value even without one. -/
theorem handlerOf_panics : handlerOf true (asc "call") [.other] = .panics ∧ handlerOf false (asc "call") [.other] = .dummy ∧
    handlerOf false [] [.str (asc "agg")] = .panics := by decide

/-- The writing of the last call of the run, with and without a collector. -/
example : (step (after State.init (loggedRun true)) (.log (loggedSetup true).world (loggedCall .warn "in" 3))).1.1.filter writes =
    (step (after State.init (loggedRun false)) (.log (loggedSetup false).world (loggedCall .warn "in" 3))).1.1.filter writes :=
  collector_changes_no_writing_partial (loggedSetup true) (loggedSetup false) rfl rfl (fun c => loggedPairs c.props)
    [.inl 30, .inr (loggedCall .info "in" 1), .inr (loggedCall .infoCall "do" 2)] (loggedCall .warn "in" 3)
    (loggedRun_tidy true .warn) (loggedRun_tidy false .warn) (Or.inl (by
      have : (firstCall (asc "in") 10 (loggedRun true)).getD (loggedCall .warn "in" 3) = loggedCall .info "in" 1 := by
        simp only [loggedRun, firstCall]
        rw [if_pos (by decide)]
        rfl
      exact this ▸ ⟨rfl, by decide⟩))

/-- An `InfoCall` is written at minimum level INFO_CALL and not above. -/
example (min : Int) : ((step (after State.init [.setMinLevel min])
    (.log (loggedSetup false).world (loggedCall .infoCall "do" 2))).1.1.filter writes ≠ [] ↔ min ≤ levelInfoCall) := by
  refine call_written_iff_partial (loggedSetup false) rfl (fun c => loggedPairs c.props) _ (loggedCall .infoCall "do" 2)
    ⟨?_, ?_, ?_⟩ rfl rfl rfl
  · intro w c h; simp at h; exact h.1
  · intro w c h
    simp at h
    rw [h.2]
    exact ⟨rfl, by simp [loggedPairs, loggedCall]⟩
  · intro w c w' d h h'
    simp at h h'
    rw [h.2, h'.2]
    exact fun _ => ⟨rfl, rfl⟩

end Verif.Stats
