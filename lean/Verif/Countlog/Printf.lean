import Verif.Countlog.Formats
import Verif.Jsonfmt.StrProps

/-!
# The layout format (countlog/output/printf); C79
-/

namespace Verif.Countlog
open Verif.Msgfmt Verif.Spec Verif.Jsonfmt

/-! ### Model -/

/-- What `printf.Format` uses of a site (printf.go:14-32, countlog/spi/spi.go:58-66). -/
structure PrintfSite where
  event : Bytes
  func : Bytes
  file : Bytes
  line : Int64
  sample : List Arg

/-- `formatter`, printf.go:34-41. -/
structure PrintfFormatter where
  event : Bytes
  func : Bytes
  file : Bytes
  line : Int64
  logFmt : Formatter
  messageFmt : Formatter

/-- The list made for the layout, printf.go:20-29 and 45-53. `intTy` stands for the type int. -/
def layoutArgs (intTy : Nat) (message : Bytes) (timestamp : Arg) (level event func file : Bytes) (line : Int64) : List Arg :=
  [.str (asc "message"), .bytes message, .str (asc "timestamp"), timestamp, .str (asc "level"), .str level,
    .str (asc "event"), .str event, .str (asc "func"), .str func, .str (asc "file"), .str file,
    .str (asc "line"), .other intTy (writeInt64 [] line)]

/-- `Format.FormatterOf`, printf.go:14-32: the layout with a line feed first, then the message.  The zero time stands in
the sample. -/
def printfOf (intTy : Nat) (layout : Bytes) (cache : Msgfmt.Cache) (site : PrintfSite) :
    Res PrintfFormatter × Msgfmt.Cache :=
  match formatterOf cache (layout ++ asc "\n") (layoutArgs intTy [] (.time [] (fun _ => [])) [] [] [] [] 0) with
  | (.error b, cache) => (.error b, cache)
  | (.ok logFmt, cache) =>
    match formatterOf cache site.event site.sample with
    | (.error b, cache) => (.error b, cache)
    | (.ok messageFmt, cache) => (.ok ⟨site.event, site.func, site.file, site.line, logFmt, messageFmt⟩, cache)

/-- `formatter.Format`, printf.go:43-54; `timestamp` is the time of the event as an argument. -/
def PrintfFormatter.format (shw : List Arg → Bytes) (intTy : Nat) (f : PrintfFormatter) (level : Int) (timestamp : Arg)
    (props : List Arg) (space : Bytes) : Res Bytes :=
  match f.messageFmt.format shw props [] with
  | .error b => .error b
  | .ok message =>
    f.logFmt.format shw (layoutArgs intTy message timestamp (levelName level) f.event f.func f.file f.line) space

/-! ### C79 -/

/-- What a layout may refer to. -/
def layoutPairs (intTy : Nat) (message : Arg) (time : Bytes) (timeFormat : Bytes → Bytes) (level event func file : Bytes) (line : Int) :
    Msgfmt.Pairs :=
  [(asc "message", message), (asc "timestamp", .time time timeFormat), (asc "level", .str level), (asc "event", .str event),
    (asc "func", .str func), (asc "file", .str file), (asc "line", .other intTy (intText line))]

/-- Bytes shown as they are: printable ASCII other than backslash and bar. -/
def Verbatim (s : Bytes) : Prop := ∀ c ∈ s, 32 ≤ c ∧ c < 128 ∧ c ≠ 92 ∧ c ≠ 124

theorem verbatim_text (s : Bytes) (h : Verbatim s) : Msgfmt.writeBytes [] s = s := by
  rw [msgWriteBytes_eq]
  have hok : ∀ c ∈ s, okG Msgfmt.safeSet c = true := fun c hc => (msgSafe_iff c).mpr (h c hc)
  have hk : kept Msgfmt.safeSet s = s := by
    apply kept_id msgSafe_iff
    · rintro ⟨p, c, rfl, -, hc⟩
      exact hc (h c (by simp))
    · rintro ⟨p, b, q, x, y, t, rfl, hb, -⟩
      exact hb (h b (by simp))
  rw [hk, flatMap_ok _ _ _ _ hok]
  rfl

/-- The message as bytes or as a text makes no difference to the layout then. -/
theorem output_message (intTy : Nat) (msg time : Bytes) (tf : Bytes → Bytes) (level event func file : Bytes) (line : Int)
    (h : Msgfmt.writeBytes [] msg = msg) (t : Template) :
    t.output (layoutPairs intTy (.bytes msg) time tf level event func file line) =
      t.output (layoutPairs intTy (.str msg) time tf level event func file line) := by
  have hp : ∀ p : Placeholder, p.output (layoutPairs intTy (.bytes msg) time tf level event func file line) =
      p.output (layoutPairs intTy (.str msg) time tf level event func file line) := by
    intro p
    unfold Placeholder.output layoutPairs
    simp only [List.lookup_cons]
    cases p.name == asc "message" with
    | false => rfl
    | true =>
      cases p.func with
      | none => simp [showValue, h]
      | some f => rfl
  have hparts : ∀ l, partsOutput (layoutPairs intTy (.bytes msg) time tf level event func file line) l =
      partsOutput (layoutPairs intTy (.str msg) time tf level event func file line) l := by
    intro l
    induction l with
    | nil => rfl
    | cons q l ih => obtain ⟨p, lit⟩ := q; rw [partsOutput, partsOutput, hp, ih]
  rw [Template.output, Template.output, hparts]

/-- C79, partial: a line in the layout format is the layout with its placeholders replaced by message,
time, level, event, function, file and line, and a line feed; for messages of printable ASCII
without backslash and bar, unless layout or event were used as formats with other arguments before. -/
theorem printf_line_partial (shw : List Arg → Bytes) (intTy : Nat) (layout : Bytes) (t : Template) (ht : t.wf)
    (hlay : t.text = layout ++ asc "\n") (site : PrintfSite) (pairs pairs0 : Msgfmt.Pairs) (hs : site.sample = kvOf pairs0)
    (hshape : shape (kvOf pairs0) = shape (kvOf pairs)) (m : Template) (hm : m.wf) (hne : m.text ≠ []) (hevent : m.text = site.event)
    (msg : Bytes) (ho : m.output pairs = some msg) (hverb : Verbatim msg) (level : Int) (time : Bytes) (tf : Bytes → Bytes)
    (out : Bytes) (hout : t.output (layoutPairs intTy (.str msg) time tf (levelName level) site.event site.func site.file
      site.line.toInt) = some out)
    (cache : Msgfmt.Cache) (hdiff : site.event ≠ layout ++ asc "\n")
    (ha : Agrees cache (layoutArgs intTy [] (.time [] (fun _ => [])) [] [] [] [] 0) [layout ++ asc "\n"])
    (ha' : Agrees cache (kvOf pairs0) [site.event]) :
    ∃ f cache', printfOf intTy layout cache site = (.ok f, cache') ∧
      ∀ space, f.format shw intTy level (.time time tf) (kvOf pairs) space = .ok (space ++ out) := by
  rw [← output_message intTy msg time tf _ _ _ _ _ (verbatim_text msg hverb)] at hout
  have htne : t.text ≠ [] := by rw [hlay]; simp [asc]
  have hkv : kvOf (layoutPairs intTy (.bytes msg) time tf (levelName level) site.event site.func site.file site.line.toInt) =
      layoutArgs intTy msg (.time time tf) (levelName level) site.event site.func site.file site.line := by
    simp only [layoutPairs, layoutArgs, kvOf, i64_text, List.flatMap_cons, List.flatMap_nil, List.nil_append, List.cons_append,
      List.append_nil]
  obtain ⟨f, hc, hf⟩ := compile_template shw _ t ht htne out hout
  obtain ⟨g, hc', hg⟩ := compile_template shw pairs m hm hne msg ho
  rw [hkv] at hc hf
  have hsh : shape (layoutArgs intTy msg (.time time tf) (levelName level) site.event site.func site.file site.line) =
      shape (layoutArgs intTy [] (.time [] (fun _ => [])) [] [] [] [] 0) := by
    simp only [layoutArgs, shape, kindOf, keyOf]
  rw [compile_shape _ hsh, hlay] at hc
  rw [← compile_shape _ hshape, hevent] at hc'
  obtain ⟨cache1, h1, h2⟩ := formatterOf_agrees ha (by simp) hc
  have h3 := formatterOf_keeps (kv := layoutArgs intTy [] (.time [] (fun _ => [])) [] [] [] [] 0) ha'
    (format := layout ++ asc "\n") (by simpa using fun h => hdiff h.symm)
  rw [h1] at h3
  obtain ⟨cache2, h4, -⟩ := formatterOf_agrees h3 (by simp) hc'
  refine ⟨⟨site.event, site.func, site.file, site.line, f, g⟩, cache2, ?_, ?_⟩
  · unfold printfOf
    rw [h1]
    simp only
    rw [hs, h4]
  · intro space
    unfold PrintfFormatter.format
    simp only [hg, List.nil_append]
    exact hf space

/-- The hypotheses can be met: layout "{message}", event "hi". -/
example : ∃ f cache', printfOf 2 (asc "{message}") [] ⟨asc "hi", asc "f", asc "a.go", 7, kvOf []⟩ = (.ok f, cache') ∧
    ∀ space, f.format (fun _ => []) 2 30 (.time (asc "T") (fun _ => [])) (kvOf []) space = .ok (space ++ asc "hi\n") := by
  have hk : ∀ n ∈ (asc "message").map UInt8.toNat, isScalar n = true ∧ patternWhiteSpace n = false ∧ patternSyntax n = false := by
    decide
  refine printf_line_partial (fun _ => []) 2 (asc "{message}")
    ⟨[], [(⟨[], (asc "message").map UInt8.toNat, [], none⟩, asc "\n")]⟩ ?_ (by decide +kernel) _ [] [] rfl rfl
    ⟨asc "hi", []⟩ ⟨by decide, by simp⟩ (by decide) (by decide) (asc "hi") rfl (by unfold Verbatim; decide) 30 _ _ _ ?_ []
    (by decide) (by intro a _ f h; simp at h) (by intro a _ f h; simp at h)
  · refine ⟨by simp, ?_⟩
    intro q hq
    simp only [List.mem_singleton] at hq
    subst hq
    exact ⟨⟨blank_nil, hk, ⟨109, _, rfl, by decide⟩, blankAfter_nil, by simp⟩, by decide⟩
  · decide +kernel

/-- One line of the layout "[{level}] {message} ({file}:{line})", in a fresh process. -/
def printfLine (event : Bytes) (props : List Arg) : Res Bytes :=
  match printfOf 2 (asc "[{level}] {message} ({file}:{line})") [] ⟨event, asc "f", asc "a.go", 7, props⟩ with
  | (.ok f, _) => f.format (fun _ => []) 2 30 (.time (asc "T") (fun _ => asc "t")) props []
  | (.error b, _) => .error b

example : (printfLine (asc "hello {k}") [.str (asc "k"), .str (asc "you")]).toOption = some (asc "[INFO] hello you (a.go:7)\n") := by
  decide +kernel

/-- C79 fails: with letters outside ASCII the message is shown escaped, and text between two such letters is lost.
("für alle Fälle") -/
theorem printf_message_lost :
    (printfLine ([102, 0xc3, 0xbc] ++ asc "r alle F" ++ [0xc3, 0xa4] ++ asc "lle") []).toOption =
      some (asc "[INFO] f\\xc3\\xbc\\xc3\\xa4lle (a.go:7)\n") := by
  decide +kernel

/-- C79 fails: a line feed at the end of the message is lost. -/
theorem printf_message_cut : (printfLine (asc "done\n") []).toOption = some (asc "[INFO] done (a.go:7)\n") := by
  decide +kernel

/-- C79 fails: the mark "event!" is shown, unlike in the other formats. -/
theorem printf_mark_shown : (printfLine (asc "event!started") []).toOption = some (asc "[INFO] event!started (a.go:7)\n") := by
  decide +kernel

end Verif.Countlog
