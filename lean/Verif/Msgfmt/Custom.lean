import Verif.Msgfmt.FormatProps

/-!
# C169: formats registered by the user

`Formats` (msgfmt/custom.go:9-11) is exported: a program adds its own formats, used as `{name, format, arguments}`.
-/

namespace Verif.Msgfmt.Custom
open Verif.Parse Verif.Spec

/-! ### Model -/

/-- What `Format.FormatterOf` does (msgfmt/custom.go:13-15): returns a formatter, returns an error, or panics.  Simplified: the formatter is given
as the text it adds for the arguments at hand, so that the model is about a format string that is compiled and used with the same arguments; a
format that returns nil for both is left out. -/
inductive Asked where
  | text (t : Bytes)
  | err (msg : Bytes)
  | panic

/-- A registered format: from the name in the placeholder, its arguments and all arguments of the call (msgfmt/custom.go:13-15). -/
abbrev Format := Bytes → List Bytes → List Arg → Asked

/-- The `Formats` map (msgfmt/custom.go:9-11). -/
abbrev Formats := List (Bytes × Format)

/-- `GoTimeFormat.FormatterOf`, msgfmt/custom.go:34-53, with what its formatter gives (60-62). -/
def goTime : Format := fun key args kv =>
  match goTimeFind key (args.headD rfc3339) 0 kv with
  | .fmt f => (match f.format (fun _ => []) kv [] with
    | .ok t => .text t
    | .error _ => .panic)
  | .err m => .err m

/-- `Formats` as it is initialised, msgfmt/custom.go:9-11. -/
def initial : Formats := [(asc "goTime", goTime)]

/-- `parseFunc` of the lexer, msgfmt/formatter.go:57-65, with `newFuncFormatter`, msgfmt/custom.go:17-29 (the message of a recovered panic is
abbreviated). -/
def parseFunc (formats : Formats) (kv : List Arg) (id name : Bytes) (args : List Bytes) : Made :=
  match formats.lookup name with
  | none => .err (asc "format " ++ name ++ asc " is not supported")
  | some format =>
    match format id args kv with
    | .text t => .fmt (.fixed t)
    | .err m => .err m
    | .panic => .err (asc "newFormatter panic")

/-- `compile`, msgfmt/formatter.go:88-99. -/
def compile (formats : Formats) (format : Bytes) (kv : List Arg) : Res Formatter :=
  match parseLoop (parseVariable kv) (parseFunc formats kv) ((newSourceString format).bytesLeft + 2) (newSourceString format) none with
  | .error b => .error b
  | .ok (left, s) => finish left s.err

/-- `FormatterOf`, msgfmt/msgfmt.go:72-80. -/
def formatterOf (formats : Formats) (cache : Cache) (format : Bytes) (kv : List Arg) : Res Formatter × Cache :=
  match cache.lookup format with
  | some f => (.ok f, cache)
  | none =>
    match compile formats format kv with
    | .ok f => (.ok f, (format, f) :: cache)
    | .error b => (.error b, cache)

/-- `Sprintf`, msgfmt/msgfmt.go:19-24. -/
def sprintf (formats : Formats) (shw : List Arg → Bytes) (cache : Cache) (format : Bytes) (kv : List Arg) : Res Bytes × Cache :=
  match formatterOf formats cache format kv with
  | (.ok f, cache) => (f.format shw kv [], cache)
  | (.error b, cache) => (.error b, cache)

/-! ### Specification -/

/-- What a placeholder stands for: the value of its name, or what the format registered under the function name gives for the name and the
arguments of the placeholder. -/
def outputOf (formats : Formats) (pairs : Pairs) (p : Placeholder) : Option Bytes :=
  match p.func with
  | none => (pairs.lookup p.name).bind showValue
  | some f => (formats.lookup f.name).bind fun format =>
    match format p.name f.args (kvOf pairs) with
    | .text t => some t
    | _ => none

/-- The text of a template: every placeholder replaced. -/
def outputParts (formats : Formats) (pairs : Pairs) : List (Placeholder × Bytes) → Option Bytes
  | [] => some []
  | (p, lit) :: rest => (outputOf formats pairs p).bind fun a => (outputParts formats pairs rest).map fun b => a ++ (lit ++ b)

/-- What a registered format, or a missing one, complains about. -/
def Complains (formats : Formats) (pairs : Pairs) (name key : Bytes) (args : List Bytes) (msg : Bytes) : Prop :=
  (formats.lookup name = none ∧ msg = asc "format " ++ name ++ asc " is not supported") ∨
  ∃ format, formats.lookup name = some format ∧
    (format key args (kvOf pairs) = .err msg ∨ (format key args (kvOf pairs) = .panic ∧ msg = asc "newFormatter panic"))

/-! ### Proofs -/

theorem made_plain (pf pf' : Bytes → Bytes → List Bytes → Made) (p : Placeholder) (hf : p.func = none) (pv : Bytes → Res Made) (rest : Bytes) :
    p.made pv pf rest = p.made pv pf' rest := by
  unfold Placeholder.made
  rw [hf]

/-- A placeholder that stands for something compiles to a formatter that prints it. -/
theorem made_output (formats : Formats) (shw : List Arg → Bytes) (p : Placeholder) (pairs : Pairs) (out : Bytes)
    (h : outputOf formats pairs p = some out) (rest : Bytes) :
    ∃ f, p.made (parseVariable (kvOf pairs)) (parseFunc formats (kvOf pairs)) rest = .ok (some f, strSrc rest) ∧
      ∀ space, f.format shw (kvOf pairs) space = .ok (space ++ out) := by
  unfold outputOf at h
  cases hf : p.func with
  | none =>
    rw [hf] at h
    have ho : p.output pairs = some out := by
      unfold Placeholder.output
      rw [hf]
      cases hl : pairs.lookup p.name with
      | none => rw [hl] at h; simp at h
      | some v => rw [hl] at h; simpa using h
    obtain ⟨f, h1, h2⟩ := Verif.Msgfmt.made_output shw p pairs out ho rest
    refine ⟨f, ?_, h2⟩
    rw [made_plain _ (Verif.Msgfmt.parseFunc (kvOf pairs)) p hf]
    exact h1
  | some f =>
    rw [hf] at h
    simp only at h
    cases hl : formats.lookup f.name with
    | none => rw [hl] at h; simp at h
    | some format =>
      rw [hl] at h
      simp only [Option.bind_some] at h
      cases ha : format p.name f.args (kvOf pairs) with
      | text t =>
        rw [ha] at h
        simp only [Option.some.injEq] at h
        subst h
        refine ⟨.fixed t, ?_, fun sp => rfl⟩
        unfold Placeholder.made
        rw [hf]
        simp only [parseFunc, hl, ha]
      | err m => rw [ha] at h; simp at h
      | panic => rw [ha] at h; simp at h

theorem parse_parts (formats : Formats) (shw : List Arg → Bytes) (pairs : Pairs) (rest : Bytes) (hr : ∀ c ∈ rest.head?, c = 123) :
    ∀ (parts : List (Placeholder × Bytes)) (fuel : Nat) (left : Option Formatter) (out tail : Bytes),
    (∀ q ∈ parts, q.1.wf ∧ ∀ c ∈ q.2, c ≠ 123) → outputParts formats pairs parts = some tail →
    formatAll shw (kvOf pairs) [] (listOf left) = .ok out →
    ∃ fuel' left', fuel ≤ fuel' ∧ formatAll shw (kvOf pairs) [] (listOf left') = .ok (out ++ tail) ∧
      (left'.isSome = true ↔ left.isSome = true ∨ parts ≠ []) ∧
      parseLoop (parseVariable (kvOf pairs)) (parseFunc formats (kvOf pairs)) (fuel + 2 * parts.length)
        (strSrc (partsText parts ++ rest)) left =
      parseLoop (parseVariable (kvOf pairs)) (parseFunc formats (kvOf pairs)) fuel' (strSrc rest) left' := by
  intro parts
  induction parts with
  | nil =>
    intro fuel left out tail _ ht hleft
    simp only [outputParts, Option.some.injEq] at ht
    subst ht
    exact ⟨fuel, left, by omega, by simpa using hleft, by simp, rfl⟩
  | cons q parts ih =>
    obtain ⟨p, lit⟩ := q
    intro fuel left out tail h ht hleft
    obtain ⟨hp, hlit⟩ := h (p, lit) (by simp)
    simp only [outputParts] at ht
    cases ha : outputOf formats pairs p with
    | none => rw [ha] at ht; simp at ht
    | some a =>
      cases hb : outputParts formats pairs parts with
      | none => rw [ha, hb] at ht; simp at ht
      | some b =>
        rw [ha, hb] at ht
        simp only [Option.bind_some, Option.map_some, Option.some.injEq] at ht
        subst ht
        obtain ⟨f, hf1, hf2⟩ := made_output formats shw p pairs a ha (lit ++ (partsText parts ++ rest))
        have e : partsText ((p, lit) :: parts) ++ rest = p.text ++ (lit ++ (partsText parts ++ rest)) := by
          simp [partsText]
        have e2 : fuel + 2 * ((p, lit) :: parts).length = (fuel + 2 * parts.length + 1) + 1 := by
          simp only [List.length_cons]; omega
        rw [e, e2]
        have hne : p.text ++ (lit ++ (partsText parts ++ rest)) ≠ [] := by simp [Placeholder.text]
        obtain ⟨l, h1, h2⟩ := parseLoop_part _ _ hne
          ((parsePart_placeholder _ _ p hp _).trans hf1) (fuel + 2 * parts.length + 1) left
        rw [h2]
        have hl : formatAll shw (kvOf pairs) [] (listOf (some l)) = .ok (out ++ a) := by
          show formatAll shw (kvOf pairs) [] l.list = _
          rw [h1]
          exact formatAll_append shw _ _ _ _ _ _ hleft (hf2 out)
        obtain ⟨k, l', hk, h3, h4, h5⟩ := parse_literal shw (kvOf pairs) (parseVariable (kvOf pairs))
          (parseFunc formats (kvOf pairs)) lit (partsText parts ++ rest) hlit (partsText_head parts rest hr)
          (fuel + 2 * parts.length) (some l) (out ++ a) hl
        rw [h5]
        obtain ⟨j, rfl⟩ : ∃ j, k = j + 2 * parts.length := ⟨k - 2 * parts.length, by omega⟩
        obtain ⟨k2, l2, hk2, h6, h7, h8⟩ := ih j l' (out ++ a ++ lit) b
          (fun x hx => h x (by simp [hx])) hb h3
        refine ⟨k2, l2, by omega, ?_, ?_, h8⟩
        · rw [h6]; simp
        · rw [h7]; simp at h4; simp [h4]

theorem parse_template (formats : Formats) (shw : List Arg → Bytes) (pairs : Pairs) (t : Template) (ht : t.wf) (tail rest : Bytes)
    (ho : outputParts formats pairs t.parts = some tail) (hr : ∀ c ∈ rest.head?, c = 123) (extra : Nat) :
    ∃ fuel left, extra ≤ fuel ∧ formatAll shw (kvOf pairs) [] (listOf left) = .ok (t.head ++ tail) ∧
      (left.isSome = true ↔ t.text ≠ []) ∧
      parseLoop (parseVariable (kvOf pairs)) (parseFunc formats (kvOf pairs)) (t.text.length + 1 + extra)
        (strSrc (t.text ++ rest)) none =
      parseLoop (parseVariable (kvOf pairs)) (parseFunc formats (kvOf pairs)) fuel (strSrc rest) left := by
  obtain ⟨h1, h2⟩ := ht
  have hlen := parts_length t.parts
  have e : t.text ++ rest = t.head ++ (partsText t.parts ++ rest) := by simp [Template.text]
  have e2 : t.text.length + 1 + extra = (t.head.length + (partsText t.parts).length + extra) + 1 := by
    simp [Template.text]; omega
  rw [e, e2]
  obtain ⟨k, l, hk, h3, h4, h5⟩ := parse_literal shw (kvOf pairs) (parseVariable (kvOf pairs))
    (parseFunc formats (kvOf pairs)) t.head (partsText t.parts ++ rest) h1 (partsText_head t.parts rest hr)
    (t.head.length + (partsText t.parts).length + extra) none [] rfl
  rw [h5]
  obtain ⟨j, rfl⟩ : ∃ j, k = j + 2 * t.parts.length := ⟨k - 2 * t.parts.length, by omega⟩
  obtain ⟨k2, l2, hk2, h6, h7, h8⟩ := parse_parts formats shw pairs rest hr t.parts j l _ tail h2 ho h3
  refine ⟨k2, l2, by omega, ?_, ?_, h8⟩
  · rw [h6]; simp
  · rw [h7, h4]
    unfold Template.text
    cases t.parts with
    | nil => simp [partsText]
    | cons q ps => simp [partsText, Placeholder.text]

theorem compile_of {formats : Formats} {format : Bytes} (hf : format ≠ []) {kv : List Arg} {left : Option Formatter} {s : Source}
    (h : parseLoop (parseVariable kv) (parseFunc formats kv) (format.length + 2) (strSrc format) none = .ok (left, s)) :
    compile formats format kv = finish left s.err := by
  unfold compile
  rw [newSourceString_str hf, strSrc_bytesLeft, h]

theorem compile_error {formats : Formats} {format : Bytes} (hf : format ≠ []) {kv : List Arg} {b : Bad}
    (h : parseLoop (parseVariable kv) (parseFunc formats kv) (format.length + 2) (strSrc format) none = .error b) :
    compile formats format kv = .error b := by
  unfold compile
  rw [newSourceString_str hf, strSrc_bytesLeft, h]

/-- C169, part: a format string that was not used before is printed with every placeholder replaced; a registered format is asked with the name
and the arguments of the placeholder, whatever formats there are.  Missing: white space around function names and arguments (`name_space`,
`args_space`), names beginning like reserved words (`reserved_panics`), format strings used before (`registered_late`). -/
theorem custom_printed_partial (formats : Formats) (shw : List Arg → Bytes) (pairs : Pairs) (t : Template) (ht : t.wf) (hne : t.text ≠ [])
    (cache : Cache) (hc : cache.lookup t.text = none) (tail : Bytes) (ho : outputParts formats pairs t.parts = some tail) :
    (sprintf formats shw cache t.text (kvOf pairs)).1 = .ok (t.head ++ tail) := by
  obtain ⟨fuel, left, h1, h2, h3, h4⟩ := parse_template formats shw pairs t ht tail [] ho (by simp) 1
  simp only [List.append_nil] at h4
  obtain ⟨k, rfl⟩ : ∃ k, fuel = k + 1 := ⟨fuel - 1, by omega⟩
  rw [parseLoop_end] at h4
  obtain ⟨f, rfl⟩ := Option.isSome_iff_exists.mp (h3.mpr hne)
  have hcomp : compile formats t.text (kvOf pairs) = .ok f := (compile_of hne h4).trans rfl
  simp only [sprintf, formatterOf, hc, hcomp]
  rw [format_list]
  exact h2

/-- C169: with the formats there are at the start, templates stand for what C21 says. -/
theorem initial_output (pairs : Pairs) : ∀ (parts : List (Placeholder × Bytes)), outputParts initial pairs parts = partsOutput pairs parts := by
  have hp : ∀ p : Placeholder, outputOf initial pairs p = p.output pairs := by
    intro p
    unfold outputOf Placeholder.output
    cases hf : p.func with
    | none =>
      simp only
      cases pairs.lookup p.name <;> rfl
    | some f =>
      simp only
      by_cases hn : f.name = asc "goTime"
      · have hl : initial.lookup f.name = some goTime := by rw [hn]; rfl
        rw [hl]
        simp only [Option.bind_some, goTime, hn, if_true]
        cases hv : pairs.lookup p.name with
        | none =>
          obtain ⟨m, hm⟩ := (goTimeFind_pairs p.name (f.args.headD rfc3339) pairs 0).2 (by rw [hv]; simp)
          rw [hm]
        | some v =>
          cases v with
          | time t g =>
            obtain ⟨idx, h1, h2⟩ := (goTimeFind_pairs p.name (f.args.headD rfc3339) pairs 0).1 t g hv
            rw [Nat.zero_add] at h1
            rw [h1]
            simp only [Fmt1.format, h2, List.nil_append]
            rfl
          | str _ | bytes _ | stringer _ | other _ _ | nil =>
            obtain ⟨m, hm⟩ := (goTimeFind_pairs p.name (f.args.headD rfc3339) pairs 0).2 (by rw [hv]; simp)
            rw [hm]
      · have hl : initial.lookup f.name = none := by
          rw [initial, List.lookup_cons]
          have : (f.name == asc "goTime") = false := by simpa using hn
          rw [this]; rfl
        rw [hl]
        simp only [Option.bind_none, if_neg hn]
        cases pairs.lookup p.name with
        | none => rfl
        | some v => cases v <;> rfl
  intro parts
  induction parts with
  | nil => rfl
  | cons q parts ih =>
    obtain ⟨p, lit⟩ := q
    rw [outputParts, partsOutput, hp, ih]
    cases p.output pairs <;> cases partsOutput pairs parts <;> rfl

theorem complains_made {formats : Formats} {pairs : Pairs} {p : Placeholder} {f : Func} (hf : p.func = some f) {msg : Bytes}
    (h : Complains formats pairs f.name p.name f.args msg) (rest : Bytes) :
    p.made (parseVariable (kvOf pairs)) (parseFunc formats (kvOf pairs)) rest = .ok (none, (strSrc (125 :: rest)).report (.msg msg)) := by
  unfold Placeholder.made
  rw [hf]
  rcases h with ⟨h, rfl⟩ | ⟨format, hl, h | ⟨h, rfl⟩⟩
  · simp only [parseFunc, h]
  · simp only [parseFunc, hl, h]
  · simp only [parseFunc, hl, h]

/-- C169: an error or panic of a registered format, and an unknown format, are shown in the message if the placeholder is first. -/
theorem complaint_shown (formats : Formats) (shw : List Arg → Bytes) (pairs : Pairs) (p : Placeholder) (hp : p.wf) (f : Func) (hf : p.func = some f)
    (msg : Bytes) (h : Complains formats pairs f.name p.name f.args msg) (rest : Bytes) (cache : Cache)
    (hc : cache.lookup (p.text ++ rest) = none) :
    sprintf formats shw cache (p.text ++ rest) (kvOf pairs) =
      (.ok (asc "%! (INVALID FORMAT) " ++ msg ++ asc "%! (FORMAT ARGS) " ++ shw (kvOf pairs)),
       (p.text ++ rest, .one (.invalid msg)) :: cache) := by
  have hpne : p.text ++ rest ≠ [] := by simp [Placeholder.text]
  have hl : parseLoop (parseVariable (kvOf pairs)) (parseFunc formats (kvOf pairs)) ((p.text ++ rest).length + 2)
      (strSrc (p.text ++ rest)) none = .ok (none, (strSrc (125 :: rest)).report (.msg msg)) := by
    rw [parseLoop, if_neg (by simp [strSrc_err hpne]), parsePart_placeholder _ _ p hp, complains_made hf h]
    rfl
  have hcomp : compile formats (p.text ++ rest) (kvOf pairs) = .ok (.one (.invalid msg)) := (compile_of hpne hl).trans rfl
  simp only [sprintf, formatterOf, hc, hcomp]
  simp [Formatter.format, Fmt1.format]

/-! ### Disagreements -/

/-- C169 fails: behind anything else such a complaint makes `Sprintf` panic. -/
theorem complaint_panics (formats : Formats) (shw : List Arg → Bytes) (pairs : Pairs) (t : Template) (ht : t.wf) (hne : t.text ≠ []) (tail : Bytes)
    (ho : outputParts formats pairs t.parts = some tail) (p : Placeholder) (hp : p.wf) (f : Func) (hf : p.func = some f)
    (msg : Bytes) (h : Complains formats pairs f.name p.name f.args msg) (rest : Bytes) (cache : Cache)
    (hc : cache.lookup (t.text ++ (p.text ++ rest)) = none) :
    (sprintf formats shw cache (t.text ++ (p.text ++ rest)) (kvOf pairs)).1 = .error .panic := by
  have hpne : p.text ++ rest ≠ [] := by simp [Placeholder.text]
  obtain ⟨fuel, left, h1, -, h3, h4⟩ := parse_template formats shw pairs t ht tail (p.text ++ rest) ho (by simp [Placeholder.text])
    ((p.text ++ rest).length + 1)
  obtain ⟨k, rfl⟩ : ∃ k, fuel = k + 1 := ⟨fuel - 1, by omega⟩
  obtain ⟨l, rfl⟩ := Option.isSome_iff_exists.mp (h3.mpr hne)
  have hcomp : compile formats (t.text ++ (p.text ++ rest)) (kvOf pairs) = .error .panic := by
    apply compile_error (by simp [hne])
    rw [List.length_append, show t.text.length + (p.text ++ rest).length + 2 =
      t.text.length + 1 + ((p.text ++ rest).length + 1) by omega, h4]
    rw [parseLoop, if_neg (by simp [strSrc_err hpne]), parsePart_placeholder _ _ p hp, complains_made hf h]
    rfl
  simp only [sprintf, formatterOf, hc, hcomp]

/-- C169 fails: a format that is registered after a message with it was printed is not used for that message: the complaint is cached. -/
theorem registered_late (formats later : Formats) (shw : List Arg → Bytes) (pairs : Pairs) (p : Placeholder) (hp : p.wf) (f : Func)
    (hf : p.func = some f) (hn : formats.lookup f.name = none) (rest : Bytes) (cache : Cache) (hc : cache.lookup (p.text ++ rest) = none) :
    (sprintf later shw (sprintf formats shw cache (p.text ++ rest) (kvOf pairs)).2 (p.text ++ rest) (kvOf pairs)).1 =
      .ok (asc "%! (INVALID FORMAT) " ++ (asc "format " ++ f.name ++ asc " is not supported") ++ asc "%! (FORMAT ARGS) " ++ shw (kvOf pairs)) := by
  rw [complaint_shown formats shw pairs p hp f hf _ (Or.inl ⟨hn, rfl⟩) rest cache hc]
  simp [sprintf, formatterOf, Formatter.format, Fmt1.format]

/-- A format that shows the name and the arguments it is asked with, each in brackets. -/
def echo : Format := fun key args _ => .text ((key :: args).flatMap fun a => asc "[" ++ a ++ asc "]")

/-- C169 fails: white space behind the name of a format is taken as part of it. -/
theorem name_space : (sprintf [(asc "f", echo)] (fun _ => []) [] (asc "{x,f}") []).1 = .ok (asc "[x]") ∧
    (sprintf [(asc "f", echo)] (fun _ => []) [] (asc "{x,f }") []).1 =
      .ok (asc "%! (INVALID FORMAT) format f  is not supported%! (FORMAT ARGS) ") := ⟨rfl, rfl⟩

/-- C169 fails: white space around arguments is passed on with them, though not behind the name. -/
theorem args_space : (sprintf [(asc "f", echo)] (fun _ => []) [] (asc "{ x , f, a , b}") []).1 = .ok (asc "[x][ a ][ b]") := rfl

/-- C169 fails: a format whose name begins with `select` or `plural` cannot be used, whatever is registered. -/
theorem reserved_panics (formats : Formats) (shw : List Arg → Bytes) (kv : List Arg) :
    (sprintf formats shw [] (asc "{x,selected}") kv).1 = .error .panic ∧ (sprintf formats shw [] (asc "{x,plurals}") kv).1 = .error .panic :=
  ⟨rfl, rfl⟩

/-! ### Cases -/

/-- `a {x,f,1}-{t,goTime,Mon}` with a registered format beside the initial one. -/
def sample : Template :=
  { head := asc "a ",
    parts := [({ lead := [], id := [120], trail := [], func := some { lead := [], name := asc "f", args := [asc "1"] } }, asc "-"),
      ({ lead := [], id := [116], trail := [], func := some { lead := [], name := asc "goTime", args := [asc "Mon"] } }, [])] }

theorem sample_wf : sample.wf := by
  refine ⟨by decide, ?_⟩
  intro q hq
  simp only [sample, List.mem_cons, List.not_mem_nil, or_false] at hq
  rcases hq with rfl | rfl
  · refine ⟨⟨blank_nil, by unfold idRune; decide, ⟨120, [], rfl, by decide⟩, blankAfter_nil, ?_⟩, by decide⟩
    intro f hf
    simp only [Option.mem_def, Option.some.injEq] at hf
    subst hf
    exact ⟨blank_nil, by decide, ⟨102, [], by decide, by decide, by unfold spaceByte; decide⟩, by decide, by decide, by decide⟩
  · refine ⟨⟨blank_nil, by unfold idRune; decide, ⟨116, [], rfl, by decide⟩, blankAfter_nil, ?_⟩, by decide⟩
    intro f hf
    simp only [Option.mem_def, Option.some.injEq] at hf
    subst hf
    exact ⟨blank_nil, by decide, ⟨103, asc "oTime", by decide, by decide, by unfold spaceByte; decide⟩, by decide, by decide, by decide⟩

example : sample.text = asc "a {x,f,1}-{t,goTime,Mon}" := by decide

example : (sprintf ((asc "f", echo) :: initial) (fun _ => []) [] sample.text (kvOf samplePairs)).1 = .ok (asc "a [x][1]-<Mon>") :=
  custom_printed_partial _ _ _ sample sample_wf (by decide) [] rfl (asc "[x][1]-<Mon>") (by rfl)

example : outputParts initial samplePairs sampleTemplate.parts = some (asc "Bob, at <Mon>!") := by
  rw [initial_output]; decide

/-- With the initial formats the first placeholder makes `Sprintf` panic behind `a `. -/
example : (sprintf initial (fun _ => []) [] (asc "a {x,upper}") (kvOf samplePairs)).1 = .error .panic :=
  complaint_panics initial _ samplePairs ⟨asc "a ", []⟩ ⟨by decide, by simp⟩ (by decide) [] rfl upper upper_wf _ rfl _ (Or.inl ⟨rfl, rfl⟩) [] [] rfl

/-- And registering `upper` later does not change `{x,upper}`. -/
example : (sprintf [(asc "upper", echo)] (fun _ => []) (sprintf initial (fun _ => []) [] (asc "{x,upper}") (kvOf samplePairs)).2 (asc "{x,upper}")
    (kvOf samplePairs)).1 = .ok (asc "%! (INVALID FORMAT) format upper is not supported%! (FORMAT ARGS) ") :=
  registered_late initial [(asc "upper", echo)] (fun _ => []) samplePairs upper upper_wf _ rfl rfl [] [] rfl

/-- A format that panics is reported. -/
example : (sprintf [(asc "upper", fun _ _ _ => .panic)] (fun _ => []) [] (asc "{x,upper}!") []).1 =
    .ok (asc "%! (INVALID FORMAT) newFormatter panic%! (FORMAT ARGS) ") :=
  congrArg Prod.fst (complaint_shown [(asc "upper", fun _ _ _ => .panic)] (fun _ => []) [] upper upper_wf _ rfl _
    (Or.inr ⟨_, rfl, Or.inr ⟨rfl, rfl⟩⟩) (asc "!") [] rfl)

end Verif.Msgfmt.Custom
