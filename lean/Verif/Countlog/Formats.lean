import Verif.Countlog.Model
import Verif.Msgfmt.FormatProps
import Verif.Jsonfmt.ValLemmas

/-!
# Log line formats (countlog/output/{format.go,hrf,compact,json}); C68, C69, C72, C78
-/

namespace Verif.Countlog
open Verif.Msgfmt Verif.Spec Verif.Jsonfmt

/-! ### Model -/

/-- What the formats use of `spi.LogSite` (countlog/spi/spi.go:58-66): the event name, the
text of `Location()` (76-78), the sample properties, and the properties of `LogContext()` (68-74),
if there is a context. -/
structure FmtSite where
  event : Bytes
  location : Bytes
  sample : List Arg
  ctx : Option (List Arg)

/-- What the formats use of `spi.Event` (countlog/spi/spi.go:80-86): the timestamp as the
texts printed for it and as nanoseconds, the properties, and those of the context at the time
of the call, if there is one.  `latency i` is the text of the duration from the property at `i`
to the timestamp (hrf/timer.go:13), `none` if that property is not an int64. -/
structure FmtEvent where
  level : Int
  err : Option Bytes
  rfc3339 : Bytes
  clock : Bytes
  nanos : Int64
  props : List Arg
  ctx : Option (List Arg)
  latency : Nat → Option Bytes

/-- `LevelName`, countlog/spi/spi.go:38-55. -/
def levelName (level : Int) : Bytes :=
  if level = 5 ∨ level = 10 then asc "TRACE"
  else if level = 15 ∨ level = 20 then asc "DEBUG"
  else if level = 25 ∨ level = 30 then asc "INFO"
  else if level = 40 then asc "WARN"
  else if level = 50 then asc "ERROR"
  else if level = 60 then asc "FATAL"
  else asc "UNKNOWN"

/-- `ColoredLevelName`, countlog/spi/color.go:24-26: missing keys give "". -/
def coloredName (names : List (Int × Bytes)) (level : Int) : Bytes := (names.lookup level).getD []

/-- The loop of `init`, countlog/spi/color.go:5-22. -/
def initColors : List Int → List (Int × Bytes) → List (Int × Bytes)
  | [], names => names
  | level :: levels, names => initColors levels ((level, coloredName names level) :: names)

/-- `coloredNames` after `init`, countlog/spi/color.go:3-22. -/
def coloredNames : List (Int × Bytes) := initColors [5, 10, 15, 20, 25, 30, 40, 50, 60] []

/-- The elements of `output.Formatters` the two text formats use: hrf/fixed.go,
hrf/level.go, hrf/prop.go, hrf/error.go, hrf/timestamp.go, hrf/location.go,
hrf/ctx.go, hrf/timer.go, compact/fixed.go, compact/timestamp.go, compact/default.go,
compact/error.go. -/
inductive Part where
  | fixed (text : Bytes)
  | level
  | clock
  | location (text : Bytes)
  | prop (f : Formatter)
  | ctx (f : Formatter)
  | timer (idx : Nat)
  | errorHrf
  | stamp
  | errorCompact

/-- The `Format` method of each.  `spi.GetLogContext` gives nil without a context (the `*Context` in the
event is nil then, context.go:27-30), and reading its properties panics, hrf/ctx.go:13. -/
def Part.format (shw : List Arg → Bytes) (ev : FmtEvent) (space : Bytes) : Part → Res Bytes
  | .fixed text => .ok (space ++ text)
  | .level => .ok (space ++ coloredName coloredNames ev.level)
  | .clock => .ok (space ++ ev.clock)
  | .location text => .ok (if ev.level ≥ levelWarn then space ++ text else space)
  | .prop f => f.format shw ev.props space
  | .ctx f => match ev.ctx with
    | some kv => f.format shw kv space
    | none => .error .panic
  | .timer idx => match ev.latency idx with
    | some text => .ok (space ++ asc "\ntimer: " ++ text)
    | none => .error .panic
  | .errorHrf => match ev.err with
    | none => .ok space
    | some [] => .ok space
    | some msg => .ok (space ++ asc "\n\x1b[90;1merror: " ++ msg ++ asc "\x1b[0m")
  | .stamp => .ok (space ++ (asc "[" ++ levelName ev.level ++ asc "]") ++ asc " [" ++ ev.rfc3339 ++ asc "]")
  | .errorCompact => match ev.err with
    | none => .ok space
    | some [] => .ok space
    | some msg => .ok (space ++ asc " error:" ++ msg)

/-- `Formatters.Format`, countlog/output/format.go:15-20. -/
def formatParts (shw : List Arg → Bytes) (ev : FmtEvent) : Bytes → List Part → Res Bytes
  | space, [] => .ok space
  | space, p :: ps =>
    match p.format shw ev space with
    | .error b => .error b
    | .ok space => formatParts shw ev space ps

/-- The part for the message, compact/compact.go:22-30 and hrf/hrf.go:16-23 (file local
lines); `callee` is what is put before the rest of a "callee!" event. -/
def messagePart (callee : Bytes) (cache : Msgfmt.Cache) (site : FmtSite) : Res Part × Msgfmt.Cache :=
  if (asc "event!").isPrefixOf site.event then (.ok (.fixed (site.event.drop 6)), cache)
  else if (asc "callee!").isPrefixOf site.event then (.ok (.fixed (callee ++ site.event.drop 7)), cache)
  else
    match formatterOf cache site.event site.sample with
    | (.ok f, cache) => (.ok (.prop f), cache)
    | (.error b, cache) => (.error b, cache)

/-- The part for the property at `i`, compact/compact.go:35-38, hrf/hrf.go:37-39 and 46-52; `pattern` is the format made
for a key, `timers` says that a property "timer" is special. -/
def propPart (pattern : Bytes → Bytes) (mk : Formatter → Part) (timers : Bool) (sample : List Arg) (i : Nat)
    (cache : Msgfmt.Cache) (key : Bytes) : Res Part × Msgfmt.Cache :=
  if timers = true ∧ key = asc "timer" then (.ok (.timer (i + 1)), cache)
  else
    match formatterOf cache (pattern key) sample with
    | (.ok f, cache) => (.ok (mk f), cache)
    | (.error b, cache) => (.error b, cache)

/-- The parts for properties, compact/compact.go:33-39, hrf/hrf.go:34-41 and 43-54; `pre` and `post` are put around. -/
def propParts (pattern : Bytes → Bytes) (mk : Formatter → Part) (timers : Bool) (pre post : List Part) (sample : List Arg) :
    Nat → Msgfmt.Cache → List Arg → Res (List Part) × Msgfmt.Cache
  | _, cache, [] => (.ok [], cache)
  | i, cache, [.str key] =>
    match propPart pattern mk timers sample i cache key with
    | (.ok p, cache) => (.ok (pre ++ p :: post), cache)
    | (.error b, cache) => (.error b, cache)
  | i, cache, .str key :: _ :: rest =>
    match propPart pattern mk timers sample i cache key with
    | (.ok p, cache) =>
      match propParts pattern mk timers pre post sample (i + 2) cache rest with
      | (.ok ps, cache) => (.ok (pre ++ p :: post ++ ps), cache)
      | (.error b, cache) => (.error b, cache)
    | (.error b, cache) => (.error b, cache)
  | _, cache, _ => (.error .panic, cache)

/-- The pattern for a property in the compact format, compact/compact.go:35. -/
def compactPattern (key : Bytes) : Bytes := asc "||" ++ key ++ asc "={" ++ key ++ asc "}"

/-- `Format.FormatterOf`, compact/compact.go:14-43. -/
def compactOf (cache : Msgfmt.Cache) (site : FmtSite) : Res (List Part) × Msgfmt.Cache :=
  match messagePart (asc "call ") cache site with
  | (.error b, cache) => (.error b, cache)
  | (.ok msg, cache) =>
    match propParts compactPattern .prop false [] [] site.sample 0 cache site.sample with
    | (.error b, cache) => (.error b, cache)
    | (.ok ps, cache) =>
      (.ok ([.stamp, .fixed (asc "[" ++ site.location ++ asc "] "), msg, .errorCompact] ++ ps ++ [.fixed (asc "\n")]), cache)

/-- The pattern for a property in the human readable format, hrf/hrf.go:49. -/
def hrfPattern (key : Bytes) : Bytes := asc "\n" ++ key ++ asc ": {" ++ key ++ asc "}"

/-- The parts for the properties of the context, hrf/hrf.go:32-42. -/
def ctxParts (cache : Msgfmt.Cache) : Option (List Arg) → Res (List Part) × Msgfmt.Cache
  | none => (.ok [], cache)
  | some kv => propParts hrfPattern .ctx false [.fixed (asc "\x1b[90;1m")] [.fixed (asc "\x1b[0m")] kv 0 cache kv

/-- `Format.FormatterOf`, hrf/hrf.go:15-60. -/
def hrfOf (showTimestamp : Bool) (cache : Msgfmt.Cache) (site : FmtSite) : Res (List Part) × Msgfmt.Cache :=
  match messagePart [] cache site with
  | (.error b, cache) => (.error b, cache)
  | (.ok msg, cache) =>
    match ctxParts cache site.ctx with
    | (.error b, cache) => (.error b, cache)
    | (.ok cs, cache) =>
      match propParts hrfPattern .prop true [.fixed (asc "\x1b[90;1m")] [.fixed (asc "\x1b[0m")] site.sample 0 cache site.sample with
      | (.error b, cache) => (.error b, cache)
      | (.ok ps, cache) =>
        (.ok ([.level, msg] ++
          (if showTimestamp then [.fixed (asc "\n\x1b[90;1mtimestamp: "), .clock, .fixed (asc "\x1b[0m")] else []) ++
          [.errorHrf] ++ cs ++ ps ++
          [.fixed (asc "\x1b[90;1m"), .location (asc "\nlocation: " ++ site.location), .fixed (asc "\x1b[0m"), .fixed (asc "\n")]),
          cache)

/-- One property of the JSON format: its name and what its encoder writes for the value (json/json.go:13-54). -/
structure JProp where
  key : Bytes
  text : Bytes

/-- `JsonFormat.FormatterOf` and `jsonFormatter.Format`, json/json.go:13-54; the encoders
are those of `Verif.Jsonfmt` (C12–C19). -/
def jsonLine (event location : Bytes) (nanos : Int64) (props : List JProp) : Bytes :=
  (asc "{\"event\":\"" ++ event ++ asc "\"") ++
  props.flatMap (fun p => 44 :: ((34 :: p.key ++ asc "\":") ++ p.text)) ++
  (writeInt64 (asc ",timestamp:") nanos ++ (asc ",location:\"" ++ location ++ asc "\"}" ++ asc "\n"))

/-! ### C68 -/

/-- C68 fails: the human readable format shows no level name, whatever the level. -/
theorem level_never_shown (level : Int) : coloredName coloredNames level = [] := by
  have h : coloredNames = [(60, []), (50, []), (40, []), (30, []), (25, []), (20, []), (15, []), (10, []), (5, [])] := by decide
  have all : ∀ names : List (Int × Bytes), (∀ p ∈ names, p.2 = []) → coloredName names level = [] := by
    intro names
    induction names with
    | nil => intro _; rfl
    | cons p names ih =>
      intro hp
      have := ih (fun q hq => hp q (by simp [hq]))
      unfold coloredName at this ⊢
      rw [List.lookup_cons]
      split
      · simp [hp p (by simp)]
      · exact this
  rw [h]
  exact all _ (by simp)

/-- C68: the compact format shows a different name for each of the six levels. -/
theorem compact_levels_distinct : ∀ l ∈ [10, 20, 30, 40, 50, 60], ∀ m ∈ [10, 20, 30, 40, 50, 60],
    levelName l = levelName m → l = m := by decide

/-- C68: and it is the name of the level. -/
theorem compact_level_names : [levelTrace, levelDebug, levelInfo, levelWarn, levelError, levelFatal].map levelName =
    [asc "TRACE", asc "DEBUG", asc "INFO", asc "WARN", asc "ERROR", asc "FATAL"] := by decide

/-- C68: all other levels, but for the levels of calls, are shown as unknown. -/
theorem compact_level_unknown (level : Int) (h : level ∉ [5, 10, 15, 20, 25, 30, 40, 50, 60]) : levelName level = asc "UNKNOWN" := by
  simp only [List.mem_cons, List.not_mem_nil, or_false, not_or] at h
  unfold levelName
  rw [if_neg (by omega), if_neg (by omega), if_neg (by omega), if_neg (by omega), if_neg (by omega), if_neg (by omega)]

example : levelName 35 = asc "UNKNOWN" := compact_level_unknown 35 (by decide)

/-! ### C72 -/

/-- A property name that can stand in a placeholder. -/
def KeyOk (key : Bytes) : Prop :=
  (∃ id : List Nat, key = id.flatMap utf8Encode ∧ (∀ n ∈ id, idRune n) ∧ ∃ n rs, id = n :: rs ∧ isSpaceRune n = false) ∧
  ∀ c ∈ key, c ≠ 123

/-- Formatters in the cache for these formats are those one would compile for `kv`. -/
def Agrees (cache : Msgfmt.Cache) (kv : List Arg) (formats : List Bytes) : Prop :=
  ∀ format ∈ formats, ∀ f, cache.lookup format = some f → compile format kv = .ok f

theorem formatterOf_agrees {cache : Msgfmt.Cache} {kv : List Arg} {formats : List Bytes} (h : Agrees cache kv formats)
    {format : Bytes} (hm : format ∈ formats) {f : Formatter} (hc : compile format kv = .ok f) :
    ∃ cache', formatterOf cache format kv = (.ok f, cache') ∧ Agrees cache' kv formats := by
  unfold formatterOf
  cases hl : cache.lookup format with
  | some g =>
    have := h format hm g hl
    rw [hc] at this
    injection this with this
    exact ⟨cache, by rw [this], h⟩
  | none =>
    refine ⟨(format, f) :: cache, by rw [hc], ?_⟩
    intro format' hm' g hg
    rw [List.lookup_cons] at hg
    by_cases he : format' = format
    · subst he
      simp only [beq_self_eq_true, Option.some.injEq] at hg
      rw [← hg]; exact hc
    · have : (format' == format) = false := by simpa using he
      rw [this] at hg
      exact h format' hm' g hg

/-- Formatters compiled for other properties do not matter if they are for other formats. -/
theorem formatterOf_keeps {cache : Msgfmt.Cache} {kv kv' : List Arg} {formats : List Bytes} (h : Agrees cache kv' formats)
    {format : Bytes} (hm : format ∉ formats) : Agrees (formatterOf cache format kv).2 kv' formats := by
  unfold formatterOf
  cases cache.lookup format with
  | some g => exact h
  | none =>
    cases compile format kv with
    | error b => exact h
    | ok f =>
      intro format' hm' g hg
      rw [List.lookup_cons] at hg
      have : (format' == format) = false := by
        simp only [beq_eq_false_iff_ne, ne_eq]
        intro e; exact hm (e ▸ hm')
      rw [this] at hg
      exact h format' hm' g hg

theorem msgWriteBytes_append (space b : Bytes) : Msgfmt.writeBytes space b = space ++ Msgfmt.writeBytes [] b := by
  rw [Jsonfmt.msgWriteBytes_eq, Jsonfmt.msgWriteBytes_eq []]
  simp

/-- A printable template compiles, and what it compiles to prints it for all arguments of
the same shape. -/
theorem compile_template (shw : List Arg → Bytes) (pairs : Msgfmt.Pairs) (t : Template) (ht : t.wf) (hne : t.text ≠ [])
    (out : Bytes) (ho : t.output pairs = some out) :
    ∃ f, compile t.text (kvOf pairs) = .ok f ∧ ∀ space, f.format shw (kvOf pairs) space = .ok (space ++ out) := by
  obtain ⟨fuel, left, h1, h2, h3, h4⟩ := parse_template shw pairs t ht out [] ho (by simp) 1
  simp only [List.append_nil] at h4
  obtain ⟨k, rfl⟩ : ∃ k, fuel = k + 1 := ⟨fuel - 1, by omega⟩
  rw [parseLoop_end] at h4
  obtain ⟨f, rfl⟩ := Option.isSome_iff_exists.mp (h3.mpr hne)
  refine ⟨f, (compile_of hne h4).trans rfl, ?_⟩
  intro space
  have hg : f.format shw (kvOf pairs) [] = .ok out := by rw [format_list]; exact h2
  -- formatting appends
  have happ : ∀ (g : Fmt1) (a b : Bytes), g.format shw (kvOf pairs) a = .ok b → ∃ c, b = a ++ c ∧
      ∀ a', g.format shw (kvOf pairs) a' = .ok (a' ++ c) := by
    intro g a b hgab
    cases g with
    | fixed text => simp only [Fmt1.format, Except.ok.injEq] at hgab ⊢; exact ⟨text, hgab.symm, fun _ => rfl⟩
    | str idx =>
      simp only [Fmt1.format] at hgab ⊢
      split at hgab <;> simp at hgab
      exact ⟨_, hgab.symm, fun _ => rfl⟩
    | bytes idx =>
      simp only [Fmt1.format] at hgab ⊢
      split at hgab <;> simp at hgab
      rename_i bb heq
      exact ⟨Msgfmt.writeBytes [] bb, by rw [← hgab, msgWriteBytes_append], fun a' => by rw [msgWriteBytes_append]⟩
    | stringer idx =>
      simp only [Fmt1.format] at hgab ⊢
      split at hgab <;> simp at hgab
      · exact ⟨_, hgab.symm, fun _ => rfl⟩
      · exact ⟨_, hgab.symm, fun _ => rfl⟩
    | json idx ty =>
      simp only [Fmt1.format] at hgab ⊢
      split at hgab
      · split at hgab <;> simp at hgab
        rename_i hty
        exact ⟨_, hgab.symm, fun _ => by rw [if_pos hty]⟩
      · simp at hgab
      · simp at hgab
    | goTime idx layout =>
      simp only [Fmt1.format] at hgab ⊢
      split at hgab <;> simp at hgab
      exact ⟨_, hgab.symm, fun _ => rfl⟩
    | invalid msg =>
      simp only [Fmt1.format, Except.ok.injEq] at hgab ⊢
      exact ⟨asc "%! (INVALID FORMAT) " ++ msg ++ asc "%! (FORMAT ARGS) " ++ shw (kvOf pairs), by rw [← hgab]; simp, fun _ => by simp⟩
  have hall : ∀ (fs : List Fmt1) (a b : Bytes), formatAll shw (kvOf pairs) a fs = .ok b → ∃ c, b = a ++ c ∧
      ∀ a', formatAll shw (kvOf pairs) a' fs = .ok (a' ++ c) := by
    intro fs
    induction fs with
    | nil => intro a b h; simp only [formatAll, Except.ok.injEq] at h; exact ⟨[], by simp [h], fun a' => by simp [formatAll]⟩
    | cons g fs ih =>
      intro a b h
      simp only [formatAll] at h
      cases hgf : g.format shw (kvOf pairs) a with
      | error e => rw [hgf] at h; simp at h
      | ok m =>
        rw [hgf] at h
        obtain ⟨c, rfl, hc⟩ := happ g a m hgf
        obtain ⟨d, rfl, hd⟩ := ih _ _ h
        refine ⟨c ++ d, by simp, fun a' => ?_⟩
        simp only [formatAll, hc a', hd]
        simp
  rw [format_list] at hg ⊢
  obtain ⟨c, hc, h⟩ := hall _ _ _ hg
  rw [h space, hc]; rfl

theorem formatParts_append (shw : List Arg → Bytes) (ev : FmtEvent) : ∀ (ps qs : List Part) (a b : Bytes),
    formatParts shw ev a ps = .ok b → formatParts shw ev a (ps ++ qs) = formatParts shw ev b qs := by
  intro ps
  induction ps with
  | nil => intro qs a b h; simp only [formatParts, Except.ok.injEq] at h; rw [h]; rfl
  | cons p ps ih =>
    intro qs a b h
    simp only [formatParts, List.cons_append] at h ⊢
    cases hp : p.format shw ev a with
    | error e => rw [hp] at h; simp at h
    | ok m => rw [hp] at h; exact ih qs m b h

/-- These parts print `t`. -/
def Prints (shw : List Arg → Bytes) (ev : FmtEvent) (ps : List Part) (t : Bytes) : Prop :=
  ∀ sp, formatParts shw ev sp ps = .ok (sp ++ t)

theorem prints_one {shw : List Arg → Bytes} {ev : FmtEvent} {p : Part} {t : Bytes} (h : ∀ sp, p.format shw ev sp = .ok (sp ++ t)) :
    Prints shw ev [p] t := by
  intro sp; simp only [formatParts, h]

theorem prints_append {shw : List Arg → Bytes} {ev : FmtEvent} {ps qs : List Part} {t u : Bytes} (h : Prints shw ev ps t)
    (h' : Prints shw ev qs u) : Prints shw ev (ps ++ qs) (t ++ u) := by
  intro sp
  rw [formatParts_append shw ev ps qs _ _ (h sp), h', List.append_assoc]

/-- The text of a value in a log line. -/
def valueText (v : Arg) : Bytes := (showValue v).getD []

/-- What is shown for the `j`-th property: for a timer the time passed, for others the value of (the first property of)
that name. -/
def propText (ev : FmtEvent) (timers : Bool) (head : Bytes → Bytes) (pairs : Msgfmt.Pairs) (key : Bytes) (j : Nat) : Bytes :=
  if timers = true ∧ key = asc "timer" then asc "\ntimer: " ++ (ev.latency (2 * j + 1)).getD []
  else head key ++ valueText ((pairs.lookup key).getD .nil)

/-- The parts made for the properties print each key with the value of (the first
property of) that name. -/
theorem propParts_print (shw : List Arg → Bytes) (ev : FmtEvent) (pairs : Msgfmt.Pairs) (sample : List Arg)
    (mk : Formatter → Part) (timers : Bool) (hmk : ∀ f sp, (mk f).format shw ev sp = f.format shw (kvOf pairs) sp)
    (hshape : shape sample = shape (kvOf pairs))
    (pattern head : Bytes → Bytes) (hpat : ∀ key, pattern key = head key ++ 123 :: (key ++ [125]))
    (hhead : ∀ key, KeyOk key → ∀ c ∈ head key, c ≠ 123)
    (pre post : List Part) (preT postT : Bytes) (hpre : ∀ sp, formatParts shw ev sp pre = .ok (sp ++ preT))
    (hpost : ∀ sp, formatParts shw ev sp post = .ok (sp ++ postT)) (formats : List Bytes) (kv' : List Arg) (formats' : List Bytes) :
    ∀ (rest : Msgfmt.Pairs) (j : Nat) (cache : Msgfmt.Cache), Agrees cache sample formats → Agrees cache kv' formats' →
    (∀ p ∈ rest, pattern p.1 ∈ formats) → (∀ p ∈ rest, pattern p.1 ∉ formats') →
    (∀ p ∈ rest, KeyOk p.1) → (∀ p ∈ rest, ∃ v, pairs.lookup p.1 = some v ∧ v ≠ .nil) →
    (∀ x ∈ rest.zipIdx j, timers = true → x.1.1 = asc "timer" → (ev.latency (2 * x.2 + 1)).isSome) →
    ∃ ps cache', propParts pattern mk timers pre post sample (2 * j) cache (kvOf rest) = (.ok ps, cache') ∧
      Agrees cache' sample formats ∧ Agrees cache' kv' formats' ∧
      ∀ sp, formatParts shw ev sp ps = .ok (sp ++ (rest.zipIdx j).flatMap (fun x =>
        preT ++ propText ev timers head pairs x.1.1 x.2 ++ postT)) := by
  intro rest
  induction rest with
  | nil => intro j cache ha ha' _ _ _ _ _; exact ⟨[], cache, rfl, ha, ha', fun sp => by simp [formatParts]⟩
  | cons p rest ih =>
    obtain ⟨key, v0⟩ := p
    intro j cache ha ha' hf hf' hk hv ht
    have hone : ∃ part cache1, propPart pattern mk timers sample (2 * j) cache key = (.ok part, cache1) ∧
        Agrees cache1 sample formats ∧ Agrees cache1 kv' formats' ∧
        ∀ sp, part.format shw ev sp = .ok (sp ++ propText ev timers head pairs key j) := by
      unfold propPart propText
      by_cases htm : timers = true ∧ key = asc "timer"
      · rw [if_pos htm, if_pos htm]
        refine ⟨_, cache, rfl, ha, ha', ?_⟩
        obtain ⟨text, htext⟩ := Option.isSome_iff_exists.mp
          (ht ((key, v0), j) (by rw [List.zipIdx_cons]; exact List.mem_cons_self) htm.1 htm.2)
        intro sp
        simp only [Part.format] at htext ⊢
        rw [htext]
        simp
      · rw [if_neg htm, if_neg htm]
        obtain ⟨v, hl, hvn⟩ := hv (key, v0) (by simp)
        have hkey := hk (key, v0) (by simp)
        obtain ⟨⟨id, hid, hrunes, hfirst⟩, -⟩ := id hkey
        have ho : (⟨head key, [(⟨[], id, [], none⟩, [])]⟩ : Template).output pairs = some (head key ++ valueText v) := by
          have hn : (⟨[], id, [], none⟩ : Placeholder).name = key := hid.symm
          have : (⟨[], id, [], none⟩ : Placeholder).output pairs = some (valueText v) := by
            unfold Placeholder.output
            rw [hn, hl]
            cases v <;> simp_all [showValue, valueText]
          simp [Template.output, partsOutput, this]
        have htext : (⟨head key, [(⟨[], id, [], none⟩, [])]⟩ : Template).text = pattern key := by
          rw [hpat]
          simp [Template.text, partsText, Placeholder.text, Placeholder.tail, Placeholder.name, ← hid]
        have hwf : (⟨head key, [(⟨[], id, [], none⟩, [])]⟩ : Template).wf := by
          refine ⟨hhead key hkey, ?_⟩
          intro q hq
          simp only [List.mem_singleton] at hq
          subst hq
          exact ⟨⟨blank_nil, hrunes, hfirst, blankAfter_nil, by simp⟩, by simp⟩
        obtain ⟨f, hc, hfmt⟩ := compile_template shw pairs _ hwf (by rw [htext, hpat]; simp) _ ho
        rw [htext, ← compile_shape _ hshape] at hc
        obtain ⟨cache1, h1, h2⟩ := formatterOf_agrees ha (hf (key, v0) (by simp)) hc
        have h3 := formatterOf_keeps (kv := sample) ha' (hf' (key, v0) (by simp))
        rw [h1] at h3
        refine ⟨mk f, cache1, by rw [h1], h2, h3, ?_⟩
        intro sp
        rw [hmk, hfmt, hl]
        rfl
    obtain ⟨part, cache1, h1, h2, h2', hp⟩ := hone
    obtain ⟨ps, cache2, h3, h4, h4', h5⟩ := ih (j + 1) cache1 h2 h2' (fun q hq => hf q (by simp [hq])) (fun q hq => hf' q (by simp [hq]))
      (fun q hq => hk q (by simp [hq])) (fun q hq => hv q (by simp [hq]))
      (fun x hx => ht x (by rw [List.zipIdx_cons]; exact List.mem_cons_of_mem _ hx))
    refine ⟨pre ++ part :: post ++ ps, cache2, ?_, h4, h4', ?_⟩
    · show propParts pattern mk timers pre post sample (2 * j) cache (.str key :: v0 :: kvOf rest) = _
      rw [propParts, h1]
      simp only
      rw [show 2 * j + 2 = 2 * (j + 1) from by omega, h3]
    · intro sp
      rw [List.append_assoc, formatParts_append shw ev pre _ _ _ (hpre sp)]
      simp only [List.cons_append, formatParts, hp]
      rw [formatParts_append shw ev post _ _ _ (hpost _), h5, List.zipIdx_cons, List.flatMap_cons]
      simp

theorem zipIdx_keys (pairs0 pairs : Msgfmt.Pairs) (h : pairs0.map Prod.fst = pairs.map Prod.fst) (g : Bytes → Nat → Bytes) :
    pairs0.zipIdx.flatMap (fun x => g x.1.1 x.2) = pairs.zipIdx.flatMap (fun x => g x.1.1 x.2) := by
  have e : ∀ (l : Msgfmt.Pairs) (i : Nat), (l.zipIdx i).flatMap (fun x => g x.1.1 x.2) =
      ((l.map Prod.fst).zipIdx i).flatMap (fun x => g x.1 x.2) := by
    intro l
    induction l with
    | nil => intro i; rfl
    | cons p l ih => intro i; rw [List.zipIdx_cons, List.map_cons, List.zipIdx_cons, List.flatMap_cons, List.flatMap_cons, ih]
  rw [e, e, h]

theorem zipIdx_flatMap_fst (pairs : Msgfmt.Pairs) (g : Bytes × Arg → Bytes) : ∀ i,
    (pairs.zipIdx i).flatMap (fun x => g x.1) = pairs.flatMap g := by
  induction pairs with
  | nil => intro i; rfl
  | cons p l ih => intro i; rw [List.zipIdx_cons, List.flatMap_cons, List.flatMap_cons, ih]

theorem lookup_nodup : ∀ (pairs : Msgfmt.Pairs), (pairs.map Prod.fst).Nodup → ∀ p ∈ pairs, pairs.lookup p.1 = some p.2 := by
  intro pairs
  induction pairs with
  | nil => intro _ p hp; simp at hp
  | cons q pairs ih =>
    intro hn p hp
    simp only [List.map_cons, List.nodup_cons] at hn
    rw [List.lookup_cons]
    rcases List.mem_cons.mp hp with rfl | hp
    · simp
    · have : (p.1 == q.1) = false := by
        simp only [beq_eq_false_iff_ne, ne_eq]
        intro he
        exact hn.1 (he ▸ List.mem_map_of_mem hp)
      rw [this]
      exact ih hn.2 p hp

/-- What is printed for the properties is each property's own value, if their names differ. -/
theorem shown_eq (ev : FmtEvent) (timers : Bool) (head : Bytes → Bytes) (preT postT : Bytes) (pairs0 pairs : Msgfmt.Pairs)
    (hkeys : pairs0.map Prod.fst = pairs.map Prod.fst) (hd : (pairs.map Prod.fst).Nodup) :
    pairs0.zipIdx.flatMap (fun x => preT ++ propText ev timers head pairs x.1.1 x.2 ++ postT) =
      pairs.zipIdx.flatMap (fun x => preT ++ (if timers = true ∧ x.1.1 = asc "timer" then
        asc "\ntimer: " ++ (ev.latency (2 * x.2 + 1)).getD [] else head x.1.1 ++ valueText x.1.2) ++ postT) := by
  rw [zipIdx_keys pairs0 pairs hkeys (fun k j => preT ++ propText ev timers head pairs k j ++ postT)]
  simp only [List.flatMap]
  congr 1
  apply List.map_congr_left
  intro x hx
  have hmem : x.1 ∈ pairs := List.fst_mem_of_mem_zipIdx hx
  rw [propText, lookup_nodup pairs hd x.1 hmem]
  rfl

/-- Different names give different formats. -/
theorem hrfPattern_inj {a b : Bytes} (h : hrfPattern a = hrfPattern b) : a = b := by
  have hl := congrArg List.length h
  simp only [hrfPattern, List.length_append] at hl
  have hlen : a.length = b.length := by omega
  simp only [hrfPattern, List.append_assoc] at h
  have h1 := List.append_inj h rfl
  exact (List.append_inj h1.2 hlen).1

theorem of_keys {pairs0 pairs : Msgfmt.Pairs} (hkeys : pairs0.map Prod.fst = pairs.map Prod.fst) :
    ∀ p ∈ pairs0, ∃ q ∈ pairs, q.1 = p.1 := by
  intro p hp
  have : p.1 ∈ pairs.map Prod.fst := hkeys ▸ List.mem_map_of_mem hp
  obtain ⟨q, hq, he⟩ := List.mem_map.mp this
  exact ⟨q, hq, he⟩

/-- The text of an error in a compact line. -/
def compactError : Option Bytes → Bytes
  | none => []
  | some [] => []
  | some msg => asc " error:" ++ msg

/-- What the first properties of the keys of `pairs0` are called is what those of `pairs` are. -/
theorem keys_of_shape : ∀ (pairs0 pairs : Msgfmt.Pairs), shape (kvOf pairs0) = shape (kvOf pairs) →
    pairs0.map Prod.fst = pairs.map Prod.fst := by
  intro pairs0
  induction pairs0 with
  | nil =>
    intro pairs h
    cases pairs with
    | nil => rfl
    | cons p pairs => simp [kvOf, shape] at h
  | cons q pairs0 ih =>
    intro pairs h
    cases pairs with
    | nil => simp [kvOf, shape] at h
    | cons p pairs =>
      have h' : shape (.str q.1 :: q.2 :: kvOf pairs0) = shape (.str p.1 :: p.2 :: kvOf pairs) := h
      simp only [shape, keyOf, List.cons.injEq, Prod.mk.injEq, Option.some.injEq] at h'
      simp only [List.map_cons, h'.1.1, ih pairs h'.2]

/-- The formats a site uses. -/
def formatsOf (pattern : Bytes → Bytes) (event : Bytes) (pairs : Msgfmt.Pairs) : List Bytes :=
  event :: pairs.map (fun p => pattern p.1)

/-- `msg` is what an event of this name says, with these properties: the name without the
mark "event!"; what stands for the mark "callee!" and the rest; the name with its
placeholders replaced. -/
inductive Says (callee : Bytes) (pairs : Msgfmt.Pairs) : Bytes → Bytes → Prop where
  | event (rest : Bytes) : Says callee pairs (asc "event!" ++ rest) rest
  | callee (rest : Bytes) : Says callee pairs (asc "callee!" ++ rest) (callee ++ rest)
  | template (t : Template) (ht : t.wf) (hne : t.text ≠ []) (h1 : ¬ asc "event!" <+: t.text)
      (h2 : ¬ asc "callee!" <+: t.text) (msg : Bytes) (ho : t.output pairs = some msg) : Says callee pairs t.text msg

/-- What both formats share: the part for the message. -/
theorem message_print (shw : List Arg → Bytes) (ev : FmtEvent) (callee : Bytes) (pairs pairs0 : Msgfmt.Pairs)
    (event msg : Bytes) (hsay : Says callee pairs event msg)
    (hev : ev.props = kvOf pairs) (hshape : shape (kvOf pairs0) = shape (kvOf pairs))
    (location : Bytes) (ctx : Option (List Arg)) (cache : Msgfmt.Cache) (formats : List Bytes)
    (ha : Agrees cache (kvOf pairs0) formats) (hm : event ∈ formats)
    (kv' : List Arg) (formats' : List Bytes) (ha' : Agrees cache kv' formats') (hm' : event ∉ formats') :
    ∃ part cache', messagePart callee cache ⟨event, location, kvOf pairs0, ctx⟩ = (.ok part, cache') ∧
      Agrees cache' (kvOf pairs0) formats ∧ Agrees cache' kv' formats' ∧ ∀ sp, part.format shw ev sp = .ok (sp ++ msg) := by
  cases hsay with
  | event rest =>
    refine ⟨.fixed msg, cache, ?_, ha, ha', fun sp => rfl⟩
    unfold messagePart
    rw [if_pos (List.isPrefixOf_iff_prefix.mpr (List.prefix_append _ _))]
    rfl
  | callee rest =>
    refine ⟨.fixed (callee ++ rest), cache, ?_, ha, ha', fun sp => rfl⟩
    unfold messagePart
    rw [if_neg (by simp [asc, List.isPrefixOf]), if_pos (List.isPrefixOf_iff_prefix.mpr (List.prefix_append _ _))]
    rfl
  | template t ht hne h1 h2 _ ho =>
    obtain ⟨f, hc, hfmt⟩ := compile_template shw pairs t ht hne msg ho
    rw [← compile_shape _ hshape] at hc
    obtain ⟨cache1, h3, h4⟩ := formatterOf_agrees ha hm hc
    have h5 := formatterOf_keeps (kv := kvOf pairs0) ha' hm'
    rw [h3] at h5
    refine ⟨.prop f, cache1, ?_, h4, h5, ?_⟩
    · unfold messagePart
      rw [if_neg (fun h => h1 (List.isPrefixOf_iff_prefix.mp h)), if_neg (fun h => h2 (List.isPrefixOf_iff_prefix.mp h))]
      simp only [h3]
    · intro sp
      simp only [Part.format, hev, hfmt]

/-- C72, partial: a compact log line shows level, time, location, the message with its
placeholders replaced, the error, and every property with its own value, in order; for a
handler made for properties of the same names and types, with names that can stand in
placeholders, unless formats of the line were cached for other properties. -/
theorem compact_line_partial (shw : List Arg → Bytes) (ev : FmtEvent) (event : Bytes)
    (pairs pairs0 : Msgfmt.Pairs) (hev : ev.props = kvOf pairs) (hshape : shape (kvOf pairs0) = shape (kvOf pairs))
    (hk : ∀ p ∈ pairs, KeyOk p.1) (hd : (pairs.map Prod.fst).Nodup) (hv : ∀ p ∈ pairs, p.2 ≠ .nil)
    (msg : Bytes) (hsay : Says (asc "call ") pairs event msg) (location : Bytes) (ctx : Option (List Arg)) (cache : Msgfmt.Cache)
    (ha : Agrees cache (kvOf pairs0) (formatsOf compactPattern event pairs)) :
    ∃ parts cache', compactOf cache ⟨event, location, kvOf pairs0, ctx⟩ = (.ok parts, cache') ∧
      formatParts shw ev [] parts = .ok (asc "[" ++ levelName ev.level ++ asc "] [" ++ ev.rfc3339 ++ asc "][" ++ location ++
        asc "] " ++ msg ++ compactError ev.err ++
        pairs.flatMap (fun p => asc "||" ++ p.1 ++ asc "=" ++ valueText p.2) ++ asc "\n") := by
  obtain ⟨part, cache1, hm, ha1, -, hp⟩ := message_print shw ev (asc "call ") pairs pairs0 event msg hsay hev hshape
    location ctx cache _ ha (by simp [formatsOf]) [] [] (by intro x hx; simp at hx) (by simp)
  have hkeys := keys_of_shape pairs0 pairs hshape
  have mem0 := of_keys hkeys
  obtain ⟨ps, cache2, h3, -, -, h5⟩ := propParts_print shw ev pairs (kvOf pairs0) .prop false
    (fun f sp => by simp only [Part.format, hev]) hshape compactPattern
    (fun key => asc "||" ++ key ++ asc "=") (fun key => by simp [compactPattern, asc])
    (by
      intro key hk c hc
      simp only [List.append_assoc, List.mem_append] at hc
      rcases hc with hc | hc | hc
      · intro h; subst h; revert hc; decide
      · exact hk.2 c hc
      · intro h; subst h; revert hc; decide)
    [] [] [] [] (fun sp => by simp [formatParts]) (fun sp => by simp [formatParts])
    (formatsOf compactPattern event pairs) [] [] pairs0 0 cache1 ha1 (by intro x hx; simp at hx)
    (by
      intro p hp
      obtain ⟨q, hq, he⟩ := mem0 p hp
      rw [← he]
      simp only [formatsOf, List.mem_cons, List.mem_map]
      exact Or.inr ⟨q, hq, rfl⟩)
    (by simp)
    (by intro p hp; obtain ⟨q, hq, he⟩ := mem0 p hp; rw [← he]; exact hk q hq)
    (by
      intro p hp
      obtain ⟨q, hq, he⟩ := mem0 p hp
      rw [← he]
      exact ⟨q.2, lookup_nodup pairs hd q hq, hv q hq⟩)
    (by simp)
  rw [shown_eq ev false _ _ _ pairs0 pairs hkeys hd] at h5
  simp only [Bool.false_eq_true, false_and, if_false, List.nil_append, List.append_nil] at h5
  rw [zipIdx_flatMap_fst pairs (fun p => asc "||" ++ p.1 ++ asc "=" ++ valueText p.2)] at h5
  refine ⟨_, cache2, by simp only [compactOf, hm, h3]; rfl, ?_⟩
  have herr : Prints shw ev [.errorCompact] (compactError ev.err) := by
    apply prints_one
    intro sp
    cases he : ev.err with
    | none => simp [compactError, Part.format, he]
    | some m => cases m <;> simp [compactError, Part.format, he]
  have := prints_append (prints_append (prints_append (prints_append (prints_append
    (prints_one (p := .stamp) (t := (asc "[" ++ levelName ev.level ++ asc "]") ++ asc " [" ++ ev.rfc3339 ++ asc "]")
      (fun sp => by simp [Part.format]))
    (prints_one (p := .fixed (asc "[" ++ location ++ asc "] ")) (fun sp => rfl)))
    (prints_one hp)) herr) h5) (prints_one (p := .fixed (asc "\n")) (fun sp => rfl)) []
  simp only [List.append_assoc, List.cons_append, List.nil_append] at this ⊢
  rw [this]
  have e : asc "] [" = asc "]" ++ asc " [" := rfl
  have e' : asc "][" = asc "]" ++ asc "[" := rfl
  rw [e, e']
  simp only [List.append_assoc]

/-- The text of an error in a human readable entry. -/
def hrfError : Option Bytes → Bytes
  | none => []
  | some [] => []
  | some msg => asc "\n\x1b[90;1merror: " ++ msg ++ asc "\x1b[0m"

/-- C72 and C78, partial, likewise for the human readable format, which also shows the properties of
the context and the time passed since a property "timer" (it shows the location from
level Warn on, and no level, C68).  The names of the context's properties have to be those of when
the handler was made, and other than those of the event's properties. -/
theorem hrf_line_partial (shw : List Arg → Bytes) (ev : FmtEvent) (event : Bytes)
    (pairs pairs0 : Msgfmt.Pairs) (hev : ev.props = kvOf pairs) (hshape : shape (kvOf pairs0) = shape (kvOf pairs))
    (hk : ∀ p ∈ pairs, KeyOk p.1) (hd : (pairs.map Prod.fst).Nodup) (hv : ∀ p ∈ pairs, p.2 ≠ .nil)
    (ht : ∀ x ∈ pairs.zipIdx, x.1.1 = asc "timer" → (ev.latency (2 * x.2 + 1)).isSome)
    (ctx ctx0 : Msgfmt.Pairs) (sctx : Option (List Arg))
    (hctx : (sctx = some (kvOf ctx0) ∧ ev.ctx = some (kvOf ctx)) ∨ (sctx = none ∧ ctx0 = [] ∧ ctx = [])) (hcshape : shape (kvOf ctx0) = shape (kvOf ctx))
    (hck : ∀ p ∈ ctx, KeyOk p.1) (hcd : (ctx.map Prod.fst).Nodup) (hcv : ∀ p ∈ ctx, p.2 ≠ .nil)
    (hdis : ∀ c ∈ ctx, ∀ p ∈ pairs, c.1 ≠ p.1) (hevent : ∀ c ∈ ctx, hrfPattern c.1 ≠ event)
    (msg : Bytes) (hsay : Says [] pairs event msg) (location : Bytes) (showTimestamp : Bool) (cache : Msgfmt.Cache)
    (ha : Agrees cache (kvOf pairs0) (formatsOf hrfPattern event pairs))
    (hac : Agrees cache (kvOf ctx0) (ctx.map (fun p => hrfPattern p.1))) :
    ∃ parts cache', hrfOf showTimestamp cache ⟨event, location, kvOf pairs0, sctx⟩ = (.ok parts, cache') ∧
      formatParts shw ev [] parts = .ok (msg ++
        (if showTimestamp then asc "\n\x1b[90;1mtimestamp: " ++ ev.clock ++ asc "\x1b[0m" else []) ++ hrfError ev.err ++
        ctx.flatMap (fun p => asc "\x1b[90;1m" ++ asc "\n" ++ p.1 ++ asc ": " ++ valueText p.2 ++ asc "\x1b[0m") ++
        pairs.zipIdx.flatMap (fun x => asc "\x1b[90;1m" ++ (if x.1.1 = asc "timer" then
          asc "\ntimer: " ++ (ev.latency (2 * x.2 + 1)).getD [] else
          asc "\n" ++ x.1.1 ++ asc ": " ++ valueText x.1.2) ++ asc "\x1b[0m") ++
        asc "\x1b[90;1m" ++ (if ev.level ≥ 40 then asc "\nlocation: " ++ location else []) ++ asc "\x1b[0m" ++ asc "\n") := by
  have hhead : ∀ key, KeyOk key → ∀ c ∈ asc "\n" ++ key ++ asc ": ", c ≠ 123 := by
    intro key hk c hc
    simp only [List.append_assoc, List.mem_append] at hc
    rcases hc with hc | hc | hc
    · intro h; subst h; revert hc; decide
    · exact hk.2 c hc
    · intro h; subst h; revert hc; decide
  obtain ⟨part, cache1, hm, ha1, hac1, hp⟩ := message_print shw ev [] pairs pairs0 event msg hsay hev hshape
    location sctx cache _ ha (by simp [formatsOf]) (kvOf ctx0) (ctx.map (fun p => hrfPattern p.1)) hac
    (by
      intro h
      obtain ⟨c, hc, he⟩ := List.mem_map.mp h
      exact hevent c hc he)
  have hkeys := keys_of_shape pairs0 pairs hshape
  have mem0 := of_keys hkeys
  have hckeys := keys_of_shape ctx0 ctx hcshape
  have cmem0 := of_keys hckeys
  have hcs : ∃ cs cache2, ctxParts cache1 sctx = (.ok cs, cache2) ∧
      Agrees cache2 (kvOf pairs0) (formatsOf hrfPattern event pairs) ∧
      ∀ sp, formatParts shw ev sp cs = .ok (sp ++ ctx.flatMap (fun p =>
        asc "\x1b[90;1m" ++ (asc "\n" ++ p.1 ++ asc ": " ++ valueText p.2) ++ asc "\x1b[0m")) := by
    rcases hctx with ⟨hs, hctx⟩ | ⟨hs, -, hctx⟩
    · subst hs
      obtain ⟨cs, cache2, h3, -, ha2, h5⟩ := propParts_print shw ev ctx (kvOf ctx0) .ctx false
        (fun f sp => by simp only [Part.format, hctx]) hcshape hrfPattern
        (fun key => asc "\n" ++ key ++ asc ": ") (fun key => by simp [hrfPattern, asc]) hhead
        [.fixed (asc "\x1b[90;1m")] [.fixed (asc "\x1b[0m")] (asc "\x1b[90;1m") (asc "\x1b[0m") (fun sp => rfl) (fun sp => rfl)
        (ctx.map (fun p => hrfPattern p.1)) (kvOf pairs0) (formatsOf hrfPattern event pairs) ctx0 0 cache1 hac1 ha1
        (by
          intro p hp
          obtain ⟨q, hq, he⟩ := cmem0 p hp
          rw [← he]
          exact List.mem_map_of_mem (f := fun p => hrfPattern p.1) hq)
        (by
          intro p hp
          obtain ⟨q, hq, he⟩ := cmem0 p hp
          rw [← he]
          simp only [formatsOf, List.mem_cons, List.mem_map, not_or, not_exists, not_and]
          exact ⟨hevent q hq, fun x hx h => hdis q hq x hx (hrfPattern_inj h).symm⟩)
        (by intro p hp; obtain ⟨q, hq, he⟩ := cmem0 p hp; rw [← he]; exact hck q hq)
        (by
          intro p hp
          obtain ⟨q, hq, he⟩ := cmem0 p hp
          rw [← he]
          exact ⟨q.2, lookup_nodup ctx hcd q hq, hcv q hq⟩)
        (by simp)
      rw [shown_eq ev false _ _ _ ctx0 ctx hckeys hcd] at h5
      simp only [Bool.false_eq_true, false_and, if_false] at h5
      rw [zipIdx_flatMap_fst ctx (fun p => asc "\x1b[90;1m" ++ (asc "\n" ++ p.1 ++ asc ": " ++ valueText p.2) ++ asc "\x1b[0m")] at h5
      exact ⟨cs, cache2, h3, ha2, h5⟩
    · subst hs hctx
      exact ⟨[], cache1, rfl, ha1, fun sp => by simp [formatParts]⟩
  obtain ⟨cs, cache2, h3, ha2, h5⟩ := hcs
  have ht0 : ∀ x ∈ pairs0.zipIdx 0, true = true → x.1.1 = asc "timer" → (ev.latency (2 * x.2 + 1)).isSome := by
    intro x hx _ hkey
    obtain ⟨⟨k, v⟩, j⟩ := x
    rw [List.mem_zipIdx_iff_getElem?] at hx
    simp only at hx hkey
    have h1 : (pairs0.map Prod.fst)[j]? = some k := by rw [List.getElem?_map, hx]; rfl
    rw [hkeys, List.getElem?_map] at h1
    obtain ⟨q, hq, he⟩ := Option.map_eq_some_iff.mp h1
    exact ht (q, j) (List.mem_zipIdx_iff_getElem?.mpr hq) (by rw [← hkey]; exact he)
  obtain ⟨ps, cache3, h6, -, -, h8⟩ := propParts_print shw ev pairs (kvOf pairs0) .prop true
    (fun f sp => by simp only [Part.format, hev]) hshape hrfPattern
    (fun key => asc "\n" ++ key ++ asc ": ") (fun key => by simp [hrfPattern, asc]) hhead
    [.fixed (asc "\x1b[90;1m")] [.fixed (asc "\x1b[0m")] (asc "\x1b[90;1m") (asc "\x1b[0m") (fun sp => rfl) (fun sp => rfl)
    (formatsOf hrfPattern event pairs) [] [] pairs0 0 cache2 ha2 (by intro x hx; simp at hx)
    (by
      intro p hp
      obtain ⟨q, hq, he⟩ := mem0 p hp
      rw [← he]
      simp only [formatsOf, List.mem_cons, List.mem_map]
      exact Or.inr ⟨q, hq, rfl⟩)
    (by simp)
    (by intro p hp; obtain ⟨q, hq, he⟩ := mem0 p hp; rw [← he]; exact hk q hq)
    (by
      intro p hp
      obtain ⟨q, hq, he⟩ := mem0 p hp
      rw [← he]
      exact ⟨q.2, lookup_nodup pairs hd q hq, hv q hq⟩)
    ht0
  rw [shown_eq ev true _ _ _ pairs0 pairs hkeys hd] at h8
  simp only [true_and] at h8
  refine ⟨_, cache3, by simp only [hrfOf, hm, h3, h6]; rfl, ?_⟩
  have herr : Prints shw ev [.errorHrf] (hrfError ev.err) := by
    apply prints_one
    intro sp
    cases he : ev.err with
    | none => simp [hrfError, Part.format, he]
    | some m => cases m <;> simp [hrfError, Part.format, he]
  have hlevel : Prints shw ev [.level] [] := prints_one (fun sp => by simp [Part.format, level_never_shown])
  have htime : Prints shw ev (if showTimestamp then [.fixed (asc "\n\x1b[90;1mtimestamp: "), .clock, .fixed (asc "\x1b[0m")] else [])
      (if showTimestamp then asc "\n\x1b[90;1mtimestamp: " ++ ev.clock ++ asc "\x1b[0m" else []) := by
    cases showTimestamp with
    | false => intro sp; simp [formatParts]
    | true => intro sp; simp [formatParts, Part.format]
  have hloc : Prints shw ev [.location (asc "\nlocation: " ++ location)]
      (if ev.level ≥ 40 then asc "\nlocation: " ++ location else []) := by
    apply prints_one
    intro sp
    simp only [Part.format]
    by_cases hl : ev.level ≥ 40
    · rw [if_pos (show ev.level ≥ levelWarn from hl), if_pos hl]
    · rw [if_neg (show ¬ ev.level ≥ levelWarn from hl), if_neg hl, List.append_nil]
  have := prints_append (prints_append (prints_append (prints_append (prints_append (prints_append (prints_append
    (prints_append (prints_append hlevel (prints_one hp)) htime) herr) h5) h8)
    (prints_one (p := .fixed (asc "\x1b[90;1m")) (fun sp => rfl))) hloc)
    (prints_one (p := .fixed (asc "\x1b[0m")) (fun sp => rfl))) (prints_one (p := .fixed (asc "\n")) (fun sp => rfl)) []
  simp only [List.append_assoc, List.cons_append, List.nil_append] at this ⊢
  rw [this]

/-! The hypotheses can be met. -/

example : KeyOk (asc "user_id") := by
  refine ⟨⟨(asc "user_id").map UInt8.toNat, by decide, ?_, 117, (asc "ser_id").map UInt8.toNat, by decide, by decide⟩, by decide⟩
  intro n hn
  have h : ∀ n ∈ (asc "user_id").map UInt8.toNat, isScalar n = true ∧ patternWhiteSpace n = false ∧ patternSyntax n = false := by
    decide
  exact h n hn

/-- An event with the properties of C72's example. -/
def line (cache : Msgfmt.Cache) (event : Bytes) (props : List Arg) : Res Bytes × Msgfmt.Cache :=
  match compactOf cache ⟨event, asc "f @ a.go:1", props, none⟩ with
  | (.ok parts, cache) => (formatParts (fun _ => []) ⟨30, none, asc "T", asc "t", 0, props, none, fun _ => none⟩ [] parts, cache)
  | (.error b, cache) => (.error b, cache)

example : (line [] (asc "hello {k}") (kvOf [(asc "k", .str (asc "1")), (asc "j", .str (asc "2"))])).1 =
    .ok (asc "[INFO] [T][f @ a.go:1] hello 1||k=1||j=2\n") := by rfl

example : (line [] (asc "event!started") (kvOf [(asc "k", .str (asc "1"))])).1 =
    .ok (asc "[INFO] [T][f @ a.go:1] started||k=1\n") := by rfl

example : (line [] (asc "callee!f") (kvOf [(asc "k", .str (asc "1"))])).1 =
    .ok (asc "[INFO] [T][f @ a.go:1] call f||k=1\n") := by rfl

/-- C72 fails: after an event with the properties k and j, an event with the properties
j and k is logged with the values exchanged. -/
theorem values_exchanged :
    (line (line [] (asc "one") (kvOf [(asc "k", .str (asc "1")), (asc "j", .str (asc "2"))])).2
      (asc "two") (kvOf [(asc "j", .str (asc "2")), (asc "k", .str (asc "1"))])).1 =
      .ok (asc "[INFO] [T][f @ a.go:1] two||j=1||k=2\n") := by rfl

/-! ### C78 -/

/-- One entry in the human readable format, by a handler made with the properties `ctx0` in the context. -/
def hrfEntry (cache : Msgfmt.Cache) (event : Bytes) (ctx0 ctx : Option (List Arg)) (props : List Arg) : Res Bytes × Msgfmt.Cache :=
  match hrfOf false cache ⟨event, asc "f @ a.go:1", props, ctx0⟩ with
  | (.ok parts, cache) => (formatParts (fun _ => [])
      ⟨30, none, asc "T", asc "t", 0, props, ctx, fun i => if i = 1 then some (asc "5ms") else none⟩ [] parts, cache)
  | (.error b, cache) => (.error b, cache)

example : (hrfEntry [] (asc "hello") (some (kvOf [(asc "user", .str (asc "a"))])) (some (kvOf [(asc "user", .str (asc "b"))]))
      (kvOf [(asc "timer", .str (asc "0")), (asc "k", .str (asc "1"))])).1 =
    .ok (asc ("hello" ++ "\x1b[90;1m\nuser: b\x1b[0m" ++ "\x1b[90;1m\ntimer: 5ms\x1b[0m" ++ "\x1b[90;1m\nk: 1\x1b[0m" ++
      "\x1b[90;1m\x1b[0m\n")) := by rfl

/-- C78 fails: a property added to the context after the first event of a name is not shown
with later events of that name. -/
theorem context_added_later :
    (hrfEntry [] (asc "hello") (some (kvOf [(asc "a", .str (asc "1"))]))
      (some (kvOf [(asc "a", .str (asc "1")), (asc "b", .str (asc "2"))])) []).1 =
    .ok (asc ("hello" ++ "\x1b[90;1m\na: 1\x1b[0m" ++ "\x1b[90;1m\x1b[0m\n")) := by rfl

/-- C78 fails: nothing of the context is shown if the first event of the name was logged without one. -/
theorem context_not_shown (cache : Msgfmt.Cache) (event : Bytes) (ctx : Option (List Arg)) (props : List Arg) :
    hrfEntry cache event none ctx props = hrfEntry cache event none none props := by
  have key : ∀ (shw : List Arg → Bytes) (ev : FmtEvent) (ctx' : Option (List Arg)) (parts : List Part),
      (∀ p ∈ parts, ∀ f, p ≠ .ctx f) → ∀ sp, formatParts shw { ev with ctx := ctx' } sp parts = formatParts shw ev sp parts := by
    intro shw ev ctx' parts
    induction parts with
    | nil => intro _ sp; rfl
    | cons p parts ih =>
      intro h sp
      have hp : p.format shw { ev with ctx := ctx' } sp = p.format shw ev sp := by
        cases p with
        | ctx f => exact absurd rfl (h _ (by simp) f)
        | _ => rfl
      rw [formatParts, formatParts, hp]
      cases p.format shw ev sp with
      | ok t => exact ih (fun q hq => h q (by simp [hq])) t
      | error b => rfl
  have props_key : ∀ (sample : List Arg) (n : Nat) (kv : List Arg), kv.length ≤ n → ∀ (i : Nat) (cache cache' : Msgfmt.Cache) (ps : List Part),
      propParts hrfPattern .prop true [.fixed (asc "\x1b[90;1m")] [.fixed (asc "\x1b[0m")] sample i cache kv = (.ok ps, cache') →
      ∀ p ∈ ps, ∀ f, p ≠ .ctx f := by
    have one : ∀ (sample : List Arg) (i : Nat) (cache cache' : Msgfmt.Cache) (key : Bytes) (p : Part),
        propPart hrfPattern .prop true sample i cache key = (.ok p, cache') → ∀ f, p ≠ .ctx f := by
      intro sample i cache cache' key p h f
      unfold propPart at h
      split at h
      · cases h; simp
      · split at h <;> cases h
        simp
    intro sample n
    induction n with
    | zero =>
      intro kv hn i cache cache' ps h
      obtain rfl : kv = [] := List.eq_nil_of_length_eq_zero (by omega)
      rw [propParts] at h
      cases h
      simp
    | succ n ih =>
      intro kv hn i cache cache' ps h
      unfold propParts at h
      split at h
      · cases h; simp
      · split at h <;> cases h
        rename_i hq
        intro p hp
        simp only [List.mem_append, List.mem_cons, List.not_mem_nil, or_false] at hp
        rcases hp with rfl | rfl | rfl
        · simp
        · exact one _ _ _ _ _ _ hq
        · simp
      · split at h
        · rename_i hq
          split at h <;> cases h
          rename_i hr
          intro p hp
          simp only [List.mem_append, List.mem_cons, List.not_mem_nil, or_false] at hp
          rcases hp with (rfl | rfl | rfl) | hp
          · simp
          · exact one _ _ _ _ _ _ hq
          · simp
          · exact ih _ (by simp at hn; omega) _ _ _ _ hr p hp
        · cases h
      · cases h
  unfold hrfEntry
  split
  · rename_i parts cache1 h
    congr 1
    have := key (fun _ => []) ⟨30, none, asc "T", asc "t", 0, props, none, fun i => if i = 1 then some (asc "5ms") else none⟩ ctx parts ?_ []
    · exact this
    · unfold hrfOf at h
      split at h
      · cases h
      · rename_i msg cache2 hm
        simp only [ctxParts] at h
        split at h
        · cases h
        · rename_i ps cache3 hps
          cases h
          have h1 := props_key _ _ _ (Nat.le_refl _) _ _ _ _ hps
          have h2 : ∀ f, msg ≠ .ctx f := by
            intro f
            unfold messagePart at hm
            split at hm
            · cases hm; simp
            · split at hm
              · cases hm; simp
              · split at hm <;> cases hm
                simp
          intro p hp f
          simp only [Bool.false_eq_true, if_false, List.append_nil, List.mem_append, List.mem_cons, List.not_mem_nil, or_false] at hp
          rcases hp with ((((rfl | rfl)) | rfl) | hp) | rfl | rfl | rfl | rfl
          all_goals first
            | exact h2 f
            | exact h1 p hp f
            | simp
  · rfl

/-- C78 fails: a property of the event that has the name of one of the context is shown with the value at
the context property's place. -/
theorem context_key_clash :
    (hrfEntry [] (asc "hello") (some (kvOf [(asc "user", .str (asc "a"))])) (some (kvOf [(asc "user", .str (asc "a"))]))
      (kvOf [(asc "id", .str (asc "7")), (asc "user", .str (asc "b"))])).1 =
    .ok (asc ("hello" ++ "\x1b[90;1m\nuser: a\x1b[0m" ++ "\x1b[90;1m\nid: 7\x1b[0m" ++ "\x1b[90;1m\nuser: 7\x1b[0m" ++
      "\x1b[90;1m\x1b[0m\n")) := by rfl

/-- C78 fails: an event without a context panics if the first of its name had one with properties. -/
theorem context_missing_panics :
    (hrfEntry [] (asc "hello") (some (kvOf [(asc "a", .str (asc "1"))])) none []).1 = .error .panic := by rfl

/-! ### C69 -/

theorem safe_string (t rest : Bytes) (h : ∀ c ∈ t, plain c = true) :
    parseJsonString (34 :: (t ++ 34 :: rest)) = some (t, rest) := parseString_plain t rest h

/-- Members for which the encoders write valid values, followed by a member without
quotes around its name: no object. -/
theorem members_unquoted (rest : Bytes) : ∀ (props : List (JProp × Json)) (f : Nat) (key : Bytes) (text : Bytes) (j : Json),
    (∀ p ∈ props, (∀ c ∈ p.1.key, plain c = true) ∧ Reads p.1.text p.2) → (∀ c ∈ key, plain c = true) → Reads text j →
    2 * (text.length + (props.flatMap (fun p => 44 :: ((34 :: p.1.key ++ asc "\":") ++ p.1.text))).length) < f →
    parseMembers f (34 :: (key ++ 34 :: 58 :: (text ++ (props.flatMap (fun p => 44 :: ((34 :: p.1.key ++ asc "\":") ++ p.1.text)) ++
      (44 :: 116 :: rest))))) = none := by
  intro props
  induction props with
  | nil =>
    intro f key text j _ hk ht hf
    obtain ⟨f', rfl⟩ : ∃ f', f = f' + 1 := ⟨f - 1, by omega⟩
    simp only [List.flatMap_nil, List.length_nil, List.nil_append] at hf ⊢
    rw [parseMembers, safe_string key _ hk]
    simp only
    rw [ht.2 f' _ (by omega) (numEnd_cons _ _ (by decide) (by decide))]
    simp only
    cases f' with
    | zero => rfl
    | succ f' => rfl
  | cons p props ih =>
    intro f key text j hp hk ht hf
    obtain ⟨f', rfl⟩ : ∃ f', f = f' + 1 := ⟨f - 1, by omega⟩
    have hh := hp p (by simp)
    have e : (p :: props).flatMap (fun p => 44 :: ((34 :: p.1.key ++ asc "\":") ++ p.1.text)) ++ (44 :: 116 :: rest) =
        44 :: (34 :: (p.1.key ++ 34 :: 58 :: (p.1.text ++ (props.flatMap (fun p => 44 :: ((34 :: p.1.key ++ asc "\":") ++ p.1.text)) ++
          (44 :: 116 :: rest))))) := by
      have : asc "\":" = [34, 58] := rfl
      simp [this]
    rw [e]
    rw [parseMembers, safe_string key _ hk]
    simp only
    rw [ht.2 f' _ (by omega) (numEnd_cons _ _ (by decide) (by decide))]
    simp only
    rw [ih f' p.1.key p.1.text p.2 (fun q hq => hp q (by simp [hq])) hh.1 hh.2 (by
      simp only [List.flatMap_cons, List.length_append, List.length_cons] at hf ⊢
      omega)]

/-- C69 fails: with event and property names free of quotes, backslashes and control
bytes and values encoded as valid JSON, no line of the JSON format is valid JSON. -/
theorem json_line_invalid (event location : Bytes) (nanos : Int64) (props : List (JProp × Json))
    (he : ∀ c ∈ event, plain c = true)
    (hp : ∀ p ∈ props, (∀ c ∈ p.1.key, plain c = true) ∧ Reads p.1.text p.2) :
    parseDocument (jsonLine event location nanos (props.map Prod.fst)) = none := by
  have hev : Reads (34 :: (event ++ [34])) (.str event) :=
    reads_string _ _ (fun rest => by simpa using safe_string event rest he)
  rw [show jsonLine event location nanos (props.map Prod.fst) = 123 :: (34 :: (asc "event" ++ 34 :: 58 :: ((34 :: (event ++ [34])) ++
      (props.flatMap (fun p => 44 :: ((34 :: p.1.key ++ asc "\":") ++ p.1.text)) ++
      (44 :: 116 :: (asc "imestamp:" ++ (intText nanos.toInt ++ (asc ",location:\"" ++ location ++ asc "\"}" ++ asc "\n")))))))) from ?_]
  · unfold parseDocument
    have := members_unquoted (asc "imestamp:" ++ (intText nanos.toInt ++ (asc ",location:\"" ++ location ++ asc "\"}" ++ asc "\n")))
      props (2 * (123 :: (34 :: (asc "event" ++ 34 :: 58 :: ((34 :: (event ++ [34])) ++
      (props.flatMap (fun p => 44 :: ((34 :: p.1.key ++ asc "\":") ++ p.1.text)) ++
      (44 :: 116 :: (asc "imestamp:" ++ (intText nanos.toInt ++ (asc ",location:\"" ++ location ++ asc "\"}" ++ asc "\n"))))))))).length - 1)
      (asc "event") (34 :: (event ++ [34])) (.str event) hp (by decide) hev (by
        simp only [List.length_cons, List.length_append]; omega)
    rw [show 2 * (123 :: (34 :: (asc "event" ++ 34 :: 58 :: ((34 :: (event ++ [34])) ++
      (props.flatMap (fun p => 44 :: ((34 :: p.1.key ++ asc "\":") ++ p.1.text)) ++
      (44 :: 116 :: (asc "imestamp:" ++ (intText nanos.toInt ++ (asc ",location:\"" ++ location ++ asc "\"}" ++ asc "\n"))))))))).length =
      (2 * (123 :: (34 :: (asc "event" ++ 34 :: 58 :: ((34 :: (event ++ [34])) ++
      (props.flatMap (fun p => 44 :: ((34 :: p.1.key ++ asc "\":") ++ p.1.text)) ++
      (44 :: 116 :: (asc "imestamp:" ++ (intText nanos.toInt ++ (asc ",location:\"" ++ location ++ asc "\"}" ++ asc "\n"))))))))).length - 1) + 1 from by
        simp only [List.length_cons]; omega]
    rw [parseValue]
    · rw [this]
    · intro r hr; simp at hr
  · unfold jsonLine
    rw [i64_text, List.flatMap_map]
    have e1 : asc "{\"event\":\"" = 123 :: 34 :: (asc "event" ++ [34, 58, 34]) := rfl
    have e2 : asc ",timestamp:" = 44 :: 116 :: asc "imestamp:" := rfl
    have e3 : asc "\"" = [34] := rfl
    rw [e1, e2, e3]
    simp only [List.append_assoc, List.cons_append, List.nil_append]

theorem parseValue_members (f : Nat) (s : Bytes) : parseValue (f + 1) (123 :: 34 :: s) =
    match parseMembers f (34 :: s) with
    | some (vs, r') => some (.obj vs, r')
    | none => none := by
  rw [parseValue]
  · rfl
  · intro r hr; simp at hr

/-- Members for which the encoders write valid values, followed by a closing brace. -/
theorem members_object (rest : Bytes) : ∀ (props : List (JProp × Json)) (f : Nat) (key : Bytes) (text : Bytes) (j : Json),
    (∀ p ∈ props, (∀ c ∈ p.1.key, plain c = true) ∧ Reads p.1.text p.2) → (∀ c ∈ key, plain c = true) → Reads text j →
    2 * (text.length + (props.flatMap (fun p => 44 :: ((34 :: p.1.key ++ asc "\":") ++ p.1.text))).length) < f →
    parseMembers f (34 :: (key ++ 34 :: 58 :: (text ++ (props.flatMap (fun p => 44 :: ((34 :: p.1.key ++ asc "\":") ++ p.1.text)) ++
      (125 :: rest))))) = some ((key, j) :: props.map (fun p => (p.1.key, p.2)), rest) := by
  intro props
  induction props with
  | nil =>
    intro f key text j _ hk ht hf
    obtain ⟨f', rfl⟩ : ∃ f', f = f' + 1 := ⟨f - 1, by omega⟩
    simp only [List.flatMap_nil, List.length_nil, List.nil_append] at hf ⊢
    rw [parseMembers, safe_string key _ hk]
    simp only
    rw [ht.2 f' _ (by omega) (numEnd_cons _ _ (by decide) (by decide))]
    rfl
  | cons p props ih =>
    intro f key text j hp hk ht hf
    obtain ⟨f', rfl⟩ : ∃ f', f = f' + 1 := ⟨f - 1, by omega⟩
    have hh := hp p (by simp)
    have e : (p :: props).flatMap (fun p => 44 :: ((34 :: p.1.key ++ asc "\":") ++ p.1.text)) ++ (125 :: rest) =
        44 :: (34 :: (p.1.key ++ 34 :: 58 :: (p.1.text ++ (props.flatMap (fun p => 44 :: ((34 :: p.1.key ++ asc "\":") ++ p.1.text)) ++
          (125 :: rest))))) := by
      have : asc "\":" = [34, 58] := rfl
      simp [this]
    rw [e]
    rw [parseMembers, safe_string key _ hk]
    simp only
    rw [ht.2 f' _ (by omega) (numEnd_cons _ _ (by decide) (by decide))]
    simp only
    rw [ih f' p.1.key p.1.text p.2 (fun q hq => hp q (by simp [hq])) hh.1 hh.2 (by
      simp only [List.flatMap_cons, List.length_append, List.length_cons] at hf ⊢
      omega)]
    rfl

/-- The two members json.go writes without quotes are all that is wrong then: the line is
followed from there by the time and the location; closed before them, it is an object with the event and the
properties in order (their values read back as C12–C19 say). -/
theorem json_props_partial (event location : Bytes) (nanos : Int64) (props : List (JProp × Json))
    (he : ∀ c ∈ event, plain c = true)
    (hp : ∀ p ∈ props, (∀ c ∈ p.1.key, plain c = true) ∧ Reads p.1.text p.2) :
    ∃ text, jsonLine event location nanos (props.map Prod.fst) =
        text ++ asc ",timestamp:" ++ intText nanos.toInt ++ asc ",location:\"" ++ location ++ asc "\"}\n" ∧
      parseDocument (text ++ asc "}") =
        some (.obj ((asc "event", .str event) :: props.map (fun p => (p.1.key, p.2)))) := by
  have hev : Reads (34 :: (event ++ [34])) (.str event) :=
    reads_string _ _ (fun rest => by simpa using safe_string event rest he)
  refine ⟨asc "{\"event\":\"" ++ event ++ asc "\"" ++ props.flatMap (fun p => 44 :: ((34 :: p.1.key ++ asc "\":") ++ p.1.text)), ?_, ?_⟩
  · unfold jsonLine
    rw [i64_text, List.flatMap_map]
    have e : asc "\"}\n" = asc "\"}" ++ asc "\n" := rfl
    rw [e]
    simp only [List.append_assoc]
  · have e : (asc "{\"event\":\"" ++ event ++ asc "\"" ++ props.flatMap (fun p => 44 :: ((34 :: p.1.key ++ asc "\":") ++ p.1.text))) ++ asc "}" =
        123 :: (34 :: (asc "event" ++ 34 :: 58 :: ((34 :: (event ++ [34])) ++
          (props.flatMap (fun p => 44 :: ((34 :: p.1.key ++ asc "\":") ++ p.1.text)) ++ 125 :: [])))) := by
      have e1 : asc "{\"event\":\"" = 123 :: 34 :: (asc "event" ++ [34, 58, 34]) := rfl
      have e3 : asc "\"" = [34] := rfl
      have e4 : asc "}" = [125] := rfl
      rw [e1, e3, e4]
      simp
    rw [e]
    unfold parseDocument
    generalize hn : 2 * (123 :: (34 :: (asc "event" ++ 34 :: 58 :: ((34 :: (event ++ [34])) ++
          (props.flatMap (fun p => 44 :: ((34 :: p.1.key ++ asc "\":") ++ p.1.text)) ++ 125 :: []))))).length = n
    simp only [List.length_cons, List.length_append, List.length_nil] at hn
    obtain ⟨f, rfl⟩ : ∃ f, n = f + 1 := ⟨n - 1, by omega⟩
    rw [parseValue_members, members_object [] props f (asc "event") _ (.str event) hp (by decide) hev (by
      simp only [List.length_cons, List.length_append, List.length_nil]
      omega)]

example : jsonLine (asc "login") (asc "f @ a.go:1") 5 [⟨asc "user", asc "7"⟩] =
    asc "{\"event\":\"login\",\"user\":7,timestamp:5,location:\"f @ a.go:1\"}\n" := by decide +kernel

example : Reads (asc "7") (.num (mkRat 7 1)) := by
  have := reads_int 7
  rwa [show intText 7 = asc "7" from by decide +kernel] at this

end Verif.Countlog
