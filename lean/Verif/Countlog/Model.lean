import Verif.Msgfmt.FormatModel

/-!
# Model of countlog (countlog/countlog.go, context.go, root.go, spi/spi.go)

The two sinks (`EventWriter`, `EventAggregator`) are interfaces; what they do during one
log call is given by a `World`, which may be different at every call.
-/

namespace Verif.Countlog

/-! ### Levels -/

/-- The levels, countlog/spi/spi.go:17-36; this one 17. -/
def levelTraceCall : Int := 5
/-- spi.go:20 -/
def levelTrace : Int := 10
/-- spi.go:22 -/
def levelDebugCall : Int := 15
/-- spi.go:23 -/
def levelDebug : Int := 20
/-- spi.go:24 -/
def levelInfoCall : Int := 25
/-- spi.go:27 -/
def levelInfo : Int := 30
/-- spi.go:30 -/
def levelWarn : Int := 40
/-- spi.go:33 -/
def levelError : Int := 50
/-- spi.go:36 -/
def levelFatal : Int := 60

/-- `spi.MinLevel` and `spi.MinCallLevel`, countlog/spi/spi.go:10-13 (levels as unbounded
integers). -/
structure Levels where
  minLevel : Int
  minCallLevel : Int
  deriving DecidableEq

/-- Their initial values, countlog/spi/spi.go:10 and 13. -/
def Levels.init : Levels := ⟨levelTrace, levelDebugCall⟩

/-- `SetMinLevel`, countlog/countlog.go:28-31. -/
def setMinLevel (level : Int) : Levels := ⟨level, level + 5⟩

/-- `ShouldLog`, countlog/countlog.go:33-35. -/
def shouldLog (cfg : Levels) (level : Int) : Bool := decide (cfg.minLevel ≤ level)

/-! ### Entry points -/

/-- The log functions; the methods of `Context` (context.go:37-130) take the same decisions
except `Trace` (see `entry`) and `LogAccess` (104-115), which only exists there. -/
inductive Api where
  | trace | debug | info | warn | error | fatal
  | log (level : Int)
  | traceCall | debugCall | infoCall | logAccess
  deriving DecidableEq

/-- The checks in front of `log(…)`: countlog.go:37-127 and context.go:37-130. `failed` is
`err != nil`, `suppressed` is `ctx.suppressedMinLevel` (0 without a context).  The
result is the level and whether the aggregation is "call"; `none` when `log` is not called. -/
def entry (cfg : Levels) (suppressed : Int) (failed : Bool) : Api → Option (Int × Bool)
  | .trace =>
    if levelTrace < cfg.minLevel then none
    else if levelTrace < suppressed then none
    else some (levelTrace, false)
  | .debug => if levelDebug < cfg.minLevel then none else some (levelDebug, false)
  | .info => if levelInfo < cfg.minLevel then none else some (levelInfo, false)
  | .warn => some (levelWarn, false)
  | .error => some (levelError, false)
  | .fatal => some (levelFatal, false)
  | .log level => if level < cfg.minLevel then none else some (level, false)
  | .traceCall =>
    if failed then some (levelWarn, true)
    else if levelTrace < cfg.minLevel then none else some (levelTrace, true)
  | .debugCall =>
    if failed then some (levelWarn, true)
    else if levelDebug < cfg.minLevel then none else some (levelDebug, true)
  | .infoCall =>
    if failed then some (levelWarn, true)
    else if levelInfo < cfg.minLevel then none else some (levelInfo, true)
  | .logAccess =>
    if failed then some (levelError, true)
    else if levelInfo < cfg.minLevel then none else some (levelInfo, true)

/-! ### Handlers -/

/-- Properties of an event, as far as the handlers tell them apart (opaque). -/
abbrev Props := Nat

/-- `spi.LogSite`, countlog/spi/spi.go:58-66, without context and function name. -/
structure Site where
  event : Bytes
  call : Bool
  file : Bytes
  line : Nat
  sample : Props
  deriving DecidableEq

/-- `spi.Event`, countlog/spi/spi.go:80-86, without context and time. -/
structure Event where
  level : Int
  props : Props
  err : Option Bytes
  deriving DecidableEq

/-- Result of `EventAggregator.HandlerOf(site)`: nil, a handler, or a panic (root.go:14-15). -/
inductive StatsSink where
  | nil
  | handler
  | panics
  deriving DecidableEq

/-- What the sinks and their handlers do during one log call (root.go:13-68). -/
structure World where
  /-- `EventAggregator.HandlerOf` -/
  statsOf : Site → StatsSink
  /-- `EventWriter.HandlerOf` panics -/
  writerPanics : Site → Bool
  /-- the output handler made for this site panics on this event -/
  outPanics : Site → Event → Bool
  /-- the stats handler made for this site panics on this event -/
  statsPanics : Site → Event → Bool

/-- The `panicHandler` of a root handler: `nomalModeOnPanic` or `fallbackModeOnPanic` (root.go:74-91). -/
inductive Mode where
  | normal
  | fallback
  deriving DecidableEq

/-- `oneHandler` (root.go:30-34), `statsAndOutput` (50-55), `redirector` (93-95). -/
inductive Handler where
  | one (site : Site) (mode : Mode)
  | both (site : Site) (mode : Mode)
  | redirector (site : Site)
  deriving DecidableEq

/-- Keys of `handlerCache`: event names and `accurateHandlerKey` (root.go:115-118). -/
inductive Key where
  | event (name : Bytes)
  | place (file : Bytes) (line : Nat)
  deriving DecidableEq

/-- `handlerCache`, countlog.go:144. -/
abbrev Cache := List (Key × Handler)

/-- What happens during a log call (root.go:36-91). -/
inductive Act where
  | out (site : Site) (event : Event)
  | stats (site : Site) (event : Event)
  | loglog
  deriving DecidableEq

/-- `newRootHandler`, root.go:13-28; `none` when a sink panics. -/
def newRootHandler (w : World) (site : Site) (mode : Mode) : Option Handler :=
  match w.statsOf site with
  | .panics => none
  | .nil => if w.writerPanics site then none else some (.one site mode)
  | .handler => if w.writerPanics site then none else some (.both site mode)

/-- The bodies of `oneHandler.Handle` and `statsAndOutput.Handle`, root.go:43 and 64-67: what
happened, and whether it ended with a panic. -/
def body (w : World) (cfg : Levels) (both : Bool) (site : Site) (ev : Event) : List Act × Bool :=
  if both then
    if cfg.minCallLevel ≤ ev.level ∧ w.outPanics site ev = true then ([], true)
    else
      let o := if cfg.minCallLevel ≤ ev.level then [Act.out site ev] else []
      if w.statsPanics site ev then (o, true) else (o ++ [.stats site ev], false)
  else if w.outPanics site ev then ([], true) else ([.out site ev], false)

/-- `Handle` of a root handler in fallback mode, root.go:36-44, 57-68, with
`fallbackModeOnPanic` (86-91). -/
def handleFallback (w : World) (cfg : Levels) (both : Bool) (site : Site) (ev : Event) : List Act :=
  let b := body w cfg both site ev
  if b.2 then b.1 ++ [.loglog] else b.1

/-- The result of a handler call: what happened, whether a panic escaped, the cache (root.go:36-113). -/
structure Handled where
  acts : List Act
  escaped : Bool
  cache : Cache

/-- Running a handler that is not a redirector, root.go:36-44, 57-68, with
`nomalModeOnPanic` (74-84). -/
def handleRoot (w : World) (cfg : Levels) (cache : Cache) (ev : Event) (both : Bool) (site : Site) : Mode → Handled
  | .fallback => ⟨handleFallback w cfg both site ev, false, cache⟩
  | .normal =>
    let b := body w cfg both site ev
    if b.2 then
      let cache := (Key.event site.event, Handler.redirector site) :: cache
      let newSite := { site with file := asc "unknown", line := 0, sample := ev.props }
      match newRootHandler w newSite .fallback with
      | some (.one s _) => ⟨b.1 ++ handleFallback w cfg false s ev, false, cache⟩
      | some (.both s _) => ⟨b.1 ++ handleFallback w cfg true s ev, false, cache⟩
      | _ => ⟨b.1, true, cache⟩
    else ⟨b.1, false, cache⟩

/-- `handler.Handle(event)`; for `redirector.Handle` see root.go:97-113.  `file` and `line`
are the caller's position (`runtime.Caller(3)`). -/
def handle (w : World) (cfg : Levels) (cache : Cache) (file : Bytes) (line : Nat) (ev : Event) : Handler → Handled
  | .one site mode => handleRoot w cfg cache ev false site mode
  | .both site mode => handleRoot w cfg cache ev true site mode
  | .redirector site =>
    match cache.lookup (.place file line) with
    | some (.one s mode) => handleRoot w cfg cache ev false s mode
    | some (.both s mode) => handleRoot w cfg cache ev true s mode
    | some (.redirector _) => ⟨[], true, cache⟩ -- not stored under such keys, see `placeOk`
    | none =>
      let site := { site with file := file, line := line, sample := ev.props }
      match newRootHandler w site .fallback with
      | some (.one s m) => handleRoot w cfg ((.place file line, .one s m) :: cache) ev false s m
      | some (.both s m) => handleRoot w cfg ((.place file line, .both s m) :: cache) ev true s m
      | _ => ⟨[], true, cache⟩

/-- One call of a log function: which, where, with what. `text` is what formatting the event
name with the properties gives (countlog.go:159-160), a panic or the text. -/
structure Call where
  api : Api
  suppressed : Int
  event : Bytes
  file : Bytes
  line : Nat
  props : Props
  err : Option Bytes
  text : Option Bytes

/-- What a log function returns: nil, an error with this text, or a panic (countlog.go:47-58 and the like). -/
inductive Ret where
  | nil
  | err (text : Bytes)
  | panic
  deriving DecidableEq

/-- `getHandler` and `newHandler`, countlog.go:198-220: `none` for a panic. -/
def getHandler (w : World) (cache : Cache) (event : Bytes) (call : Bool) (file : Bytes) (line : Nat) (props : Props) :
    Option Handler × Cache :=
  match cache.lookup (.event event) with
  | some h => (some h, cache)
  | none =>
    match newRootHandler w ⟨event, call, file, line, props⟩ .normal with
    | some h => (some h, (.event event, h) :: cache)
    | none => (none, cache)

/-- `log`, countlog.go:146-166 (handlers do not change `event.Error`). -/
def log (w : World) (cfg : Levels) (cache : Cache) (c : Call) (level : Int) (call : Bool) (err : Option Bytes) :
    (List Act × Ret) × Cache :=
  match getHandler w cache c.event call c.file c.line c.props with
  | (none, cache) => (([], .panic), cache)
  | (some h, cache) =>
    let r := handle w cfg cache c.file c.line ⟨level, c.props, err⟩ h
    if r.escaped then ((r.acts, .panic), r.cache)
    else
      match err with
      | none => ((r.acts, .nil), r.cache)
      | some msg =>
        match c.text with
        | none => ((r.acts, .panic), r.cache)
        | some text => ((r.acts, .err (text ++ asc ": " ++ msg)), r.cache)

/-- The functions that take an error (countlog.go:47-104, context.go:49-115). -/
def Api.isCall : Api → Bool
  | .traceCall | .debugCall | .infoCall | .logAccess => true
  | _ => false

/-- A log function, countlog.go:37-127 and context.go:37-130: only the `Call` functions and
`LogAccess` pass an error on, and they return nil when there is none. -/
def call (w : World) (cfg : Levels) (cache : Cache) (c : Call) : (List Act × Ret) × Cache :=
  match entry cfg c.suppressed c.err.isSome c.api with
  | none => (([], .nil), cache)
  | some (level, isCall) => log w cfg cache c level isCall (if c.api.isCall then c.err else none)

/-- Things that happen in a program: setting the level, or logging (countlog.go:28-127, context.go:37-130). -/
inductive Op where
  | setMinLevel (level : Int)
  | log (w : World) (c : Call)

/-- The state: levels and handler cache (spi.go:10-13, countlog.go:144). -/
structure State where
  cfg : Levels
  cache : Cache

def State.init : State := ⟨Levels.init, []⟩

/-- One operation: what happened, what was returned, and the state afterwards (countlog.go:28-127, context.go:37-130). -/
def step (s : State) : Op → (List Act × Ret) × State
  | .setMinLevel level => (([], .nil), { s with cfg := setMinLevel level })
  | .log w c =>
    let r := call w s.cfg s.cache c
    (r.1, { s with cache := r.2 })

/-- A program run (countlog.go:28-127). -/
def run : State → List Op → List (List Act × Ret)
  | _, [] => []
  | s, op :: ops => (step s op).1 :: run (step s op).2 ops

/-- The state after a run (countlog.go:28-127). -/
def after : State → List Op → State
  | s, [] => s
  | s, op :: ops => after (step s op).2 ops

end Verif.Countlog
