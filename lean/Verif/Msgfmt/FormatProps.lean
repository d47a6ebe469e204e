import Verif.Msgfmt.FormatLemmas

/-!
# C20–C23: message formats
-/

namespace Verif.Msgfmt
open Verif.Parse Verif.Spec

/-- What `compile` makes of the parsing result (formatter.go:92-98). -/
def finish (left : Option Formatter) (err : Option Err) : Res Formatter :=
  match err with
  | some .eof => (match left with | some f => .ok f | none => .error .panic)
  | some e => .ok (.one (.invalid (errText e)))
  | none => .ok (.one (.invalid (asc "format not parsed completely")))

theorem compile_of {format : Bytes} (hf : format ≠ []) {kv : List Arg} {left : Option Formatter} {s : Source}
    (h : parseLoop (parseVariable kv) (parseFunc kv) (format.length + 2) (strSrc format) none = .ok (left, s)) :
    compile format kv = finish left s.err := by
  unfold compile
  simp only
  rw [newSourceString_str hf, strSrc_bytesLeft, h]
  rfl

theorem compile_error {format : Bytes} (hf : format ≠ []) {kv : List Arg} {b : Bad}
    (h : parseLoop (parseVariable kv) (parseFunc kv) (format.length + 2) (strSrc format) none = .error b) :
    compile format kv = .error b := by
  unfold compile
  simp only
  rw [newSourceString_str hf, strSrc_bytesLeft, h]

theorem fresh_of_compile {shw : List Arg → Bytes} {format : Bytes} {kv : List Arg} {f : Formatter}
    (h : compile format kv = .ok f) : sprintfFresh shw format kv = f.format shw kv [] := by
  simp [sprintfFresh, sprintf, formatterOf, h]

theorem fresh_error {shw : List Arg → Bytes} {format : Bytes} {kv : List Arg} {b : Bad}
    (h : compile format kv = .error b) : sprintfFresh shw format kv = .error b := by
  simp [sprintfFresh, sprintf, formatterOf, h]

/-! ### C20, C21 -/

/-- C20, C21: a well-formed, non-empty template whose placeholders can all be printed is
printed with the literal text unchanged and every placeholder replaced by the value of
the (first) argument of that name, from left to right. -/
theorem sprintf_template_partial (shw : List Arg → Bytes) (pairs : Pairs) (t : Template) (ht : t.wf) (hne : t.text ≠ [])
    (out : Bytes) (ho : t.output pairs = some out) :
    sprintfFresh shw t.text (kvOf pairs) = .ok out := by
  obtain ⟨fuel, left, h1, h2, h3, h4⟩ := parse_template shw pairs t ht out [] ho (by simp) 1
  simp only [List.append_nil] at h4
  obtain ⟨k, rfl⟩ : ∃ k, fuel = k + 1 := ⟨fuel - 1, by omega⟩
  rw [parseLoop_end] at h4
  have hs := h3.mpr hne
  obtain ⟨f, rfl⟩ := Option.isSome_iff_exists.mp hs
  rw [fresh_of_compile ((compile_of hne h4).trans (show _ = Except.ok f from rfl)), format_list]
  exact h2

/-- C20: a format without braces is printed as it is, whatever the arguments (also when
they are not names and values). -/
theorem sprintf_literal_partial (shw : List Arg → Bytes) (format : Bytes) (h : ∀ c ∈ format, c ≠ 123) (hne : format ≠ [])
    (kv : List Arg) : sprintfFresh shw format kv = .ok format := by
  have h1 : parsePart (parseVariable kv) (parseFunc kv) (strSrc format) = .ok (some (.fixed format), strSrc []) := by
    have := parsePart_literal (parseVariable kv) (parseFunc kv) format [] hne h (by simp)
    simpa using this
  have h2 : parseLoop (parseVariable kv) (parseFunc kv) (format.length + 2) (strSrc format) none =
      .ok (some (.one (.fixed format)), strSrc []) := by
    rw [parseLoop, if_neg (by simp [strSrc_err hne]), h1]
    rfl
  rw [fresh_of_compile ((compile_of hne h2).trans (show _ = Except.ok (Formatter.one (.fixed format)) from rfl))]
  simp [Formatter.format, Fmt1.format]

/-- C20, C22 fail: the empty format panics. -/
theorem sprintf_empty_panics (shw : List Arg → Bytes) (kv : List Arg) : sprintfFresh shw [] kv = .error .panic := rfl

/-- A template with literal text, two placeholders and a time, and arguments for it. -/
def sampleTemplate : Template :=
  { head := asc "hi ",
    parts := [({ lead := [227, 128, 128], id := [117, 233], trail := [32, 194, 160], func := none }, asc ", at "),
      ({ lead := [], id := [116], trail := [], func := some { lead := asc " ", name := asc "goTime", args := [asc " Mon "] } },
        asc "!")] }

def samplePairs : Pairs :=
  [(asc "t", .time (asc "noon") (fun layout => asc "<" ++ layout ++ asc ">")), ([117, 195, 169], .str (asc "Bob"))]

theorem sample_wf : sampleTemplate.wf := by
  refine ⟨by decide, ?_⟩
  intro q hq
  simp only [sampleTemplate, List.mem_cons, List.not_mem_nil, or_false] at hq
  rcases hq with rfl | rfl
  · refine ⟨⟨?_, ?_, ⟨117, [233], rfl, by decide⟩, ?_, by simp⟩, by decide⟩
    · exact ⟨[0x3000], by simp [white], by decide⟩
    · unfold idRune; decide
    · exact ⟨[32, 160], by simp [white], by simp [whiteEnds], by decide⟩
  · refine ⟨⟨blank_nil, ?_, ⟨116, [], rfl, by decide⟩, blankAfter_nil, ?_⟩, by decide⟩
    · unfold idRune; decide
    · intro f hf
      simp only [Option.mem_def, Option.some.injEq] at hf
      subst hf
      refine ⟨?_, by decide, ⟨103, asc "oTime", by decide, by decide, ?_⟩, by decide, by decide, by decide⟩
      · exact ⟨[32], by simp [white], by decide⟩
      · unfold spaceByte; decide

example : sampleTemplate.text = asc "hi {" ++ [227, 128, 128] ++ asc "u" ++ [195, 169] ++ asc " " ++ [194, 160] ++ asc "}, at {t, goTime, Mon }!" := by
  decide
example : sampleTemplate.output samplePairs = some (asc "hi Bob, at <Mon>!") := by decide
example : sprintfFresh (fun _ => []) sampleTemplate.text (kvOf samplePairs) = .ok (asc "hi Bob, at <Mon>!") :=
  sprintf_template_partial _ _ _ sample_wf (by decide) _ (by decide)

/-! ### C22 -/

/-- Parsing a template that can be printed, then one more part that ends badly. -/
theorem compile_then (shw : List Arg → Bytes) (pairs : Pairs) (t : Template) (ht : t.wf) (out : Bytes)
    (ho : t.output pairs = some out) (rest : Bytes) (hne : rest ≠ []) (hr : ∀ c ∈ rest.head?, c = 123) (b : Bad)
    (h : parsePart (parseVariable (kvOf pairs)) (parseFunc (kvOf pairs)) (strSrc rest) = .error b) :
    compile (t.text ++ rest) (kvOf pairs) = .error b := by
  obtain ⟨fuel, left, h1, -, -, h4⟩ := parse_template shw pairs t ht out rest ho hr (rest.length + 1)
  obtain ⟨k, rfl⟩ : ∃ k, fuel = k + 1 := ⟨fuel - 1, by omega⟩
  apply compile_error (by simp [hne])
  rw [List.length_append, show t.text.length + rest.length + 2 = t.text.length + 1 + (rest.length + 1) by omega, h4]
  rw [parseLoop, if_neg (by simp [strSrc_err hne]), h]

/-- C22 fails: a format ending inside a placeholder's name makes formatting run forever. -/
theorem unterminated_hangs (shw : List Arg → Bytes) (pairs : Pairs) (t : Template) (ht : t.wf) (out : Bytes)
    (ho : t.output pairs = some out) (p : Placeholder) (hp : p.wf) :
    sprintfFresh shw (t.text ++ 123 :: (p.lead ++ p.name)) (kvOf pairs) = .error .hang := by
  apply fresh_error
  apply compile_then shw pairs t ht out ho _ (by simp) (by simp)
  unfold parsePart
  rw [peek1_str]
  simp only [lift, if_true]
  unfold parseCurly
  rw [consume1_str]
  simp only [lift]
  unfold parseVar
  have h0 := name_ahead p hp []
  rw [List.append_nil] at h0
  obtain ⟨kl, hkl⟩ := skip_str _ _ hp.lead h0
  rw [hkl]
  simp only [lift]
  have h1 : unicodeRanges (strSrc p.name) [] [] [patternWhiteSpace, patternSyntax] = .error .hang :=
    idLoop_hang p.id _ [] hp.id
  rw [h1]

/-- `Sprintf("{abc")` never returns. -/
example : sprintfFresh (fun _ => []) (asc "{abc") [] = .error .hang :=
  unterminated_hangs _ [] ⟨[], []⟩ ⟨by simp, by simp⟩ [] rfl { lead := [], id := [97, 98, 99], trail := [], func := none }
    ⟨blank_nil, by unfold idRune; decide, ⟨97, [98, 99], rfl, by decide⟩, blankAfter_nil, by simp⟩

/-- C22 fails: a name followed by white space up to the end of the format panics. -/
theorem unterminated_space_panics (shw : List Arg → Bytes) (pairs : Pairs) (t : Template) (ht : t.wf) (out : Bytes)
    (ho : t.output pairs = some out) (p : Placeholder) (hp : p.wf) (hs : p.trail ≠ []) :
    sprintfFresh shw (t.text ++ 123 :: (p.lead ++ (p.name ++ p.trail))) (kvOf pairs) = .error .panic := by
  apply fresh_error
  apply compile_then shw pairs t ht out ho _ (by simp) (by simp)
  unfold parsePart
  rw [peek1_str]
  simp only [lift, if_true]
  unfold parseCurly
  rw [consume1_str]
  simp only [lift]
  unfold parseVar
  obtain ⟨kl, hkl⟩ := skip_str _ _ hp.lead (name_ahead p hp p.trail)
  rw [hkl]
  simp only [lift]
  have hsep := sep_blank hp.trail hs []
  rw [List.append_nil] at hsep
  have h1 : unicodeRanges (strSrc (p.name ++ p.trail)) [] [] [patternWhiteSpace, patternSyntax] =
      .ok (p.id, strSrc p.trail) := id_str _ hsep p.id hp.id
  rw [h1]
  simp only
  rw [variableLoop, if_neg (by simp [strSrc, hs])]
  obtain ⟨kt, h2⟩ := skip_str p.trail [] hp.trail.blank (Or.inl rfl)
  rw [List.append_nil] at h2
  rw [h2]
  rfl

example : sprintfFresh (fun _ => []) (asc "{abc ") [] = .error .panic := rfl

/-- C22 fails: a placeholder whose name is not among the arguments panics, wherever it is. -/
theorem missing_panics (shw : List Arg → Bytes) (pairs : Pairs) (t : Template) (ht : t.wf) (out : Bytes)
    (ho : t.output pairs = some out) (p : Placeholder) (hp : p.wf) (hf : p.func = none)
    (hm : pairs.lookup p.name = none) (rest : Bytes) :
    sprintfFresh shw (t.text ++ (p.text ++ rest)) (kvOf pairs) = .error .panic := by
  apply fresh_error
  apply compile_then shw pairs t ht out ho _ (by simp [Placeholder.text]) (by simp [Placeholder.text])
  rw [parsePart_placeholder _ _ p hp]
  unfold Placeholder.made
  rw [hf]
  have h1 := (findValueIndex_pairs p.name pairs 0).1 hm
  simp [parseVariable, h1]

example : sprintfFresh (fun _ => []) (asc "a {x} b") (kvOf [(asc "y", .str (asc "1"))]) = .error .panic := rfl

/-- White space that does not end a name can stand in one. -/
theorem idRune_wide {w : Nat} (hw : white w) (hn : ¬ whiteEnds w) : idRune w := by
  refine ⟨white_scalar hw, ?_, ?_⟩ <;> rw [Bool.eq_false_iff] <;> intro h <;> unfold white at hw <;> unfold whiteEnds at hn
  · simp only [patternWhiteSpace, Bool.or_eq_true, Bool.and_eq_true, decide_eq_true_eq, beq_iff_eq] at h
    omega
  · simp only [patternSyntax, Bool.or_eq_true, Bool.and_eq_true, decide_eq_true_eq, beq_iff_eq] at h
    omega

/-- C21 fails: white space before a name is skipped, but no-break spaces, ideographic spaces and the like (all white space but ASCII,
U+0085, U+2028 and U+2029) after it are taken as part of the name, so the format panics though there is an argument of that name. -/
theorem wide_space_named (shw : List Arg → Bytes) (pairs : Pairs) (id : List Nat) (hid : ∀ n ∈ id, idRune n)
    (hfirst : ∃ n rs, id = n :: rs ∧ isSpaceRune n = false) (w : Nat) (hw : white w) (hn : ¬ whiteEnds w)
    (hm : pairs.lookup (id.flatMap utf8Encode ++ utf8Encode w) = none) (rest : Bytes) :
    sprintfFresh shw (123 :: (id.flatMap utf8Encode ++ (utf8Encode w ++ 125 :: rest))) (kvOf pairs) = .error .panic := by
  obtain ⟨n, rs, h1, h2⟩ := hfirst
  have := missing_panics shw pairs ⟨[], []⟩ ⟨by simp, by simp⟩ [] rfl { lead := [], id := id ++ [w], trail := [], func := none }
    ⟨blank_nil, fun x hx => by
      rcases List.mem_append.mp hx with hx | hx
      · exact hid x hx
      · rw [List.mem_singleton.mp hx]; exact idRune_wide hw hn, ⟨n, rs ++ [w], by simp [h1], h2⟩, blankAfter_nil, by simp⟩ rfl
    (by simpa [Placeholder.name] using hm) rest
  simpa [Template.text, partsText, Placeholder.text, Placeholder.tail, Placeholder.name] using this

/-- `Sprintf("{x\u00a0}", "x", "1")` panics, `Sprintf("{\u00a0x}", "x", "1")` does not. -/
example : sprintfFresh (fun _ => []) (asc "{x" ++ [194, 160] ++ asc "}") (kvOf [(asc "x", .str (asc "1"))]) = .error .panic ∧
    sprintfFresh (fun _ => []) (asc "{" ++ [194, 160] ++ asc "x}") (kvOf [(asc "x", .str (asc "1"))]) = .ok (asc "1") :=
  ⟨wide_space_named _ _ [120] (by unfold idRune; decide) ⟨120, [], rfl, by decide⟩ 160 (by simp [white]) (by simp [whiteEnds]) (by decide) [], rfl⟩

/-- The function of a placeholder cannot be applied: it is not `goTime`, or the argument of
that name is missing or not a time. -/
def Placeholder.badFunc (pairs : Pairs) (p : Placeholder) : Prop :=
  ∃ f, p.func = some f ∧
    (f.name ≠ asc "goTime" ∨ ∀ t g, pairs.lookup p.name ≠ some (.time t g))

/-- What is wrong with a function that cannot be applied. -/
def Placeholder.complaint (pairs : Pairs) (p : Placeholder) (name : Bytes) : Bytes :=
  if name ≠ asc "goTime" then asc "format " ++ name ++ asc " is not supported"
  else if pairs.lookup p.name = none then p.name ++ asc " not found in properties"
  else p.name ++ asc " is not time.Time"

theorem goTimeFind_complaint (n layout : Bytes) : ∀ (pairs : Pairs) (i : Nat), (∀ t g, pairs.lookup n ≠ some (.time t g)) →
    goTimeFind n layout i (kvOf pairs) =
      .err (if pairs.lookup n = none then n ++ asc " not found in properties" else n ++ asc " is not time.Time") := by
  intro pairs
  induction pairs with
  | nil => intro i _; simp [kvOf, goTimeFind]
  | cons q pairs ih =>
    obtain ⟨k, w⟩ := q
    intro i h
    have e : kvOf ((k, w) :: pairs) = .str k :: w :: kvOf pairs := rfl
    rw [lookup_pairs_cons] at h
    rw [e, goTimeFind, lookup_pairs_cons]
    by_cases hk : k = n
    · simp only [if_pos hk] at h ⊢
      cases w with
      | time t g => exact absurd rfl (h t g)
      | str _ | bytes _ | stringer _ | other _ _ | nil => rfl
    · simp only [if_neg hk] at h ⊢
      exact ih (i + 2) h

theorem badFunc_made {pairs : Pairs} {p : Placeholder} (h : p.badFunc pairs) (rest : Bytes) :
    ∃ f, p.func = some f ∧ p.made (parseVariable (kvOf pairs)) (parseFunc (kvOf pairs)) rest =
      .ok (none, (strSrc (125 :: rest)).report (.msg (p.complaint pairs f.name))) := by
  obtain ⟨f, hf, h⟩ := h
  refine ⟨f, hf, ?_⟩
  unfold Placeholder.made Placeholder.complaint
  rw [hf]
  by_cases hn : f.name = asc "goTime"
  · have h2 : ∀ t g, pairs.lookup p.name ≠ some (.time t g) := by
      rcases h with h | h
      · exact absurd hn h
      · exact h
    rw [if_neg (fun h => h hn)]
    simp only [parseFunc, if_pos hn, goTimeFind_complaint _ _ _ _ h2]
  · rw [if_pos hn]
    simp only [parseFunc, if_neg hn]

/-- C22 fails: a placeholder with a function that cannot be applied panics when anything
stands before it. -/
theorem badFunc_later_panics (shw : List Arg → Bytes) (pairs : Pairs) (t : Template) (ht : t.wf) (out : Bytes)
    (ho : t.output pairs = some out) (hne : t.text ≠ []) (p : Placeholder) (hp : p.wf) (hb : p.badFunc pairs) (rest : Bytes) :
    sprintfFresh shw (t.text ++ (p.text ++ rest)) (kvOf pairs) = .error .panic := by
  obtain ⟨f, -, hm⟩ := badFunc_made hb rest
  apply fresh_error
  have hpne : p.text ++ rest ≠ [] := by simp [Placeholder.text]
  obtain ⟨fuel, left, h1, -, h3, h4⟩ := parse_template shw pairs t ht out (p.text ++ rest) ho (by simp [Placeholder.text])
    ((p.text ++ rest).length + 1)
  obtain ⟨k, rfl⟩ : ∃ k, fuel = k + 1 := ⟨fuel - 1, by omega⟩
  obtain ⟨l, rfl⟩ := Option.isSome_iff_exists.mp (h3.mpr hne)
  apply compile_error (by simp [hne])
  rw [List.length_append, show t.text.length + (p.text ++ rest).length + 2 =
    t.text.length + 1 + ((p.text ++ rest).length + 1) by omega, h4]
  rw [parseLoop, if_neg (by simp [strSrc_err hpne]), parsePart_placeholder _ _ p hp, hm]
  rfl

/-- C22, partial: when the same placeholder is first in the format, the error marker is
printed with what is wrong and the arguments, whatever follows. -/
theorem badFunc_first_partial (shw : List Arg → Bytes) (pairs : Pairs) (p : Placeholder) (hp : p.wf)
    (hb : p.badFunc pairs) (rest : Bytes) :
    ∃ f, p.func = some f ∧ sprintfFresh shw (p.text ++ rest) (kvOf pairs) =
      .ok (asc "%! (INVALID FORMAT) " ++ p.complaint pairs f.name ++ asc "%! (FORMAT ARGS) " ++ shw (kvOf pairs)) := by
  obtain ⟨f, hf, hm⟩ := badFunc_made hb rest
  have hpne : p.text ++ rest ≠ [] := by simp [Placeholder.text]
  have h : parseLoop (parseVariable (kvOf pairs)) (parseFunc (kvOf pairs)) ((p.text ++ rest).length + 2)
      (strSrc (p.text ++ rest)) none = .ok (none, (strSrc (125 :: rest)).report (.msg (p.complaint pairs f.name))) := by
    rw [parseLoop, if_neg (by simp [strSrc_err hpne]), parsePart_placeholder _ _ p hp, hm]
    rfl
  refine ⟨f, hf, ?_⟩
  rw [fresh_of_compile ((compile_of hpne h).trans (show _ = Except.ok (Formatter.one (.invalid (p.complaint pairs f.name))) from rfl))]
  rfl

theorem goTimeFind_dangling (n layout k : Bytes) (hk : k ≠ n) : ∀ (pairs : Pairs) (i : Nat), pairs.lookup n = none →
    goTimeFind n layout i (kvOf pairs ++ [.str k]) = .err (n ++ asc " not found in properties") := by
  intro pairs
  induction pairs with
  | nil => intro i _; simp [kvOf, goTimeFind, hk]
  | cons q pairs ih =>
    obtain ⟨k', w⟩ := q
    intro i h
    have e : kvOf ((k', w) :: pairs) ++ [.str k] = .str k' :: w :: (kvOf pairs ++ [.str k]) := rfl
    rw [lookup_pairs_cons] at h
    rw [e, goTimeFind]
    by_cases hk' : k' = n
    · rw [if_pos hk'] at h; cases h
    · rw [if_neg hk'] at h ⊢
      exact ih (i + 2) h

/-- The same with an odd number of arguments, the last name having no value: `goTime` of a name that is not among the arguments says so. -/
theorem dangling_first (shw : List Arg → Bytes) (pairs : Pairs) (k : Bytes) (p : Placeholder) (hp : p.wf) (f : Func) (hf : p.func = some f)
    (hg : f.name = asc "goTime") (hk : k ≠ p.name) (hm : pairs.lookup p.name = none) (rest : Bytes) :
    sprintfFresh shw (p.text ++ rest) (kvOf pairs ++ [.str k]) = .ok (asc "%! (INVALID FORMAT) " ++ p.name ++
      asc " not found in properties%! (FORMAT ARGS) " ++ shw (kvOf pairs ++ [.str k])) := by
  have hpne : p.text ++ rest ≠ [] := by simp [Placeholder.text]
  have hmade : p.made (parseVariable (kvOf pairs ++ [.str k])) (parseFunc (kvOf pairs ++ [.str k])) rest =
      .ok (none, (strSrc (125 :: rest)).report (.msg (p.name ++ asc " not found in properties"))) := by
    unfold Placeholder.made
    rw [hf]
    simp only [parseFunc, if_pos hg, goTimeFind_dangling _ _ k hk _ _ hm]
  have h : parseLoop (parseVariable (kvOf pairs ++ [.str k])) (parseFunc (kvOf pairs ++ [.str k])) ((p.text ++ rest).length + 2)
      (strSrc (p.text ++ rest)) none = .ok (none, (strSrc (125 :: rest)).report (.msg (p.name ++ asc " not found in properties"))) := by
    rw [parseLoop, if_neg (by simp [strSrc_err hpne]), parsePart_placeholder _ _ p hp, hmade]
    rfl
  rw [fresh_of_compile ((compile_of hpne h).trans (show _ = Except.ok (Formatter.one (.invalid (p.name ++ asc " not found in properties"))) from rfl))]
  have e : asc " not found in properties%! (FORMAT ARGS) " = asc " not found in properties" ++ asc "%! (FORMAT ARGS) " := by decide
  rw [e, ← List.append_assoc, List.append_assoc (asc "%! (INVALID FORMAT) ") p.name]
  rfl

/-- A placeholder with an unknown function, first or after a literal. -/
def upper : Placeholder :=
  { lead := [], id := [120], trail := [], func := some { lead := [], name := asc "upper", args := [] } }

theorem upper_wf : upper.wf := by
  refine ⟨blank_nil, by unfold idRune upper; decide, ⟨120, [], rfl, by decide⟩, blankAfter_nil, ?_⟩
  intro f hf
  simp only [upper, Option.mem_def, Option.some.injEq] at hf
  subst hf
  exact ⟨blank_nil, by decide, ⟨117, asc "pper", by decide, by decide, by unfold spaceByte; decide⟩, by decide, by decide, by simp⟩

theorem upper_bad (pairs : Pairs) : upper.badFunc pairs := ⟨_, rfl, Or.inl (by decide)⟩

example : sprintfFresh (fun _ => []) (asc "a{x,upper}") (kvOf [(asc "x", .str (asc "1"))]) = .error .panic :=
  badFunc_later_panics _ _ ⟨asc "a", []⟩ ⟨by decide, by simp⟩ (asc "a") rfl (by decide) upper upper_wf (upper_bad _) []

example : sprintfFresh (fun _ => []) (asc "{x,upper}") (kvOf [(asc "x", .str (asc "1"))]) =
    .ok (asc "%! (INVALID FORMAT) format upper is not supported%! (FORMAT ARGS) ") := by
  obtain ⟨f, hf, h⟩ := badFunc_first_partial (fun _ => []) [(asc "x", .str (asc "1"))] upper upper_wf (upper_bad _) []
  simp only [upper, Option.some.injEq] at hf
  subst hf
  exact h.trans (congrArg Except.ok (by decide))

/-- `{x,goTime}` with the arguments `"y"`. -/
example : sprintfFresh (fun _ => []) (asc "{x,goTime}") (kvOf [] ++ [.str (asc "y")]) =
    .ok (asc "%! (INVALID FORMAT) x not found in properties%! (FORMAT ARGS) ") :=
  (dangling_first (fun _ => []) [] (asc "y") { lead := [], id := [120], trail := [], func := some { lead := [], name := asc "goTime", args := [] } }
    ⟨blank_nil, by unfold idRune; decide, ⟨120, [], rfl, by decide⟩, blankAfter_nil, fun f hf => by
      simp only [Option.mem_def, Option.some.injEq] at hf
      subst hf
      exact ⟨blank_nil, by decide, ⟨103, asc "oTime", by decide, by decide, by unfold spaceByte; decide⟩, by decide, by decide, by simp⟩⟩
    { lead := [], name := asc "goTime", args := [] } rfl rfl (by decide) rfl []).trans (congrArg Except.ok (by decide))

/-- C22 fails: the reserved function names panic. -/
theorem select_panics (shw : List Arg → Bytes) :
    sprintfFresh shw (asc "{x, select, a}") (kvOf [(asc "x", .str (asc "1"))]) = .error .panic := rfl

/-! ### C23 -/

/-- One formatting call: format and arguments. -/
abbrev Call := Bytes × List Arg

/-- The outputs of a sequence of calls in one process. -/
def run (shw : List Arg → Bytes) : Cache → List Call → List (Res Bytes)
  | _, [] => []
  | cache, (format, kv) :: calls =>
    let r := sprintf shw cache format kv
    r.1 :: run shw r.2 calls

/-- What matters of the arguments: the names at the even positions (`none` for what is not
a string) and the kinds of values at the odd ones. -/
inductive Kind where
  | str | bytes | stringer | time | nil
  | other (ty : Nat)
  deriving DecidableEq

def kindOf : Arg → Kind
  | .str _ => .str
  | .bytes _ => .bytes
  | .stringer _ => .stringer
  | .time _ _ => .time
  | .other ty _ => .other ty
  | .nil => .nil

def keyOf : Arg → Option Bytes
  | .str s => some s
  | _ => none

def shape : List Arg → List (Option Bytes × Option Kind)
  | [] => []
  | [k] => [(keyOf k, none)]
  | k :: v :: rest => (keyOf k, some (kindOf v)) :: shape rest

/-- What `findValueIndex` finds depends on the shape only, and so does the kind there. -/
theorem find_shape (target : Bytes) : ∀ (kv kv' : List Arg) (i : Nat), shape kv = shape kv' →
    findValueIndex target i kv = findValueIndex target i kv' ∧
    ∀ idx, findValueIndex target i kv = .ok (some (i + idx)) →
      (kv[idx]?).map kindOf = (kv'[idx]?).map kindOf := by
  intro kv
  induction kv using shape.induct with
  | case1 =>
    intro kv' i h
    match kv' with
    | [] => simp [findValueIndex]
    | [_] => simp [shape] at h
    | _ :: _ :: _ => simp [shape] at h
  | case2 k =>
    intro kv' i h
    match kv' with
    | [] => simp [shape] at h
    | [k'] =>
      simp only [shape, List.cons.injEq, Prod.mk.injEq, and_true] at h
      cases k <;> cases k' <;> simp_all [keyOf, findValueIndex]
    | _ :: _ :: _ => simp [shape] at h
  | case3 k v rest ih =>
    intro kv' i h
    match kv' with
    | [] => simp [shape] at h
    | [k'] => simp [shape] at h
    | k' :: v' :: rest' =>
      simp only [shape, List.cons.injEq, Prod.mk.injEq, Option.some.injEq] at h
      obtain ⟨⟨h1, h2⟩, h3⟩ := h
      cases k with
      | str s =>
        cases k' with
        | str s' =>
          simp only [keyOf, Option.some.injEq] at h1
          subst h1
          simp only [findValueIndex]
          by_cases hs : s = target
          · simp only [if_pos hs]
            refine ⟨trivial, ?_⟩
            intro idx hidx
            simp only [Except.ok.injEq, Option.some.injEq, Nat.add_left_cancel_iff] at hidx
            subst hidx
            simp [h2]
          · simp only [if_neg hs]
            refine ⟨(ih rest' (i + 2) h3).1, ?_⟩
            intro idx hidx
            have hge : 2 ≤ idx := by
              have : ∀ (l : List Arg) (i j : Nat), findValueIndex target i l = .ok (some j) → i + 1 ≤ j := by
                intro l
                induction l using shape.induct with
                | case1 => intro i j hj; simp [findValueIndex] at hj
                | case2 k =>
                  intro i j hj
                  cases k <;> simp [findValueIndex] at hj
                  omega
                | case3 k v rest ih2 =>
                  intro i j hj
                  cases k with
                  | str t =>
                    simp only [findValueIndex] at hj
                    by_cases ht : t = target
                    · rw [if_pos ht] at hj; simp at hj; omega
                    · rw [if_neg ht] at hj
                      have := ih2 _ _ hj; omega
                  | _ => simp [findValueIndex] at hj
              have := this _ _ _ hidx
              omega
            obtain ⟨j, rfl⟩ : ∃ j, idx = j + 2 := ⟨idx - 2, by omega⟩
            have := (ih rest' (i + 2) h3).2 j (by rw [hidx]; congr 2; omega)
            simpa using this
        | _ => simp [keyOf] at h1
      | _ =>
        cases k' <;> simp_all [keyOf, findValueIndex]

theorem formatterFor_kind {v v' : Arg} (h : kindOf v = kindOf v') (idx : Nat) : formatterFor idx v = formatterFor idx v' := by
  cases v <;> cases v' <;> simp_all [kindOf, formatterFor]

theorem parseVariable_shape {kv kv' : List Arg} (h : shape kv = shape kv') : parseVariable kv = parseVariable kv' := by
  funext id
  obtain ⟨h1, h2⟩ := find_shape id kv kv' 0 h
  unfold parseVariable
  rw [← h1]
  cases hf : findValueIndex id 0 kv with
  | error b => rfl
  | ok o =>
    cases o with
    | none => rfl
    | some idx =>
      have := h2 idx (by rw [hf, Nat.zero_add])
      simp only
      cases ha : kv[idx]? with
      | none =>
        rw [ha] at this
        cases hb : kv'[idx]? with
        | none => rfl
        | some v => rw [hb] at this; simp at this
      | some v =>
        rw [ha] at this
        cases hb : kv'[idx]? with
        | none => rw [hb] at this; simp at this
        | some v' =>
          rw [hb] at this
          simp only [Option.map_some, Option.some.injEq] at this
          exact formatterFor_kind this idx

theorem goTimeFind_shape (key layout : Bytes) : ∀ (kv kv' : List Arg) (i : Nat), shape kv = shape kv' →
    goTimeFind key layout i kv = goTimeFind key layout i kv' := by
  intro kv
  induction kv using shape.induct with
  | case1 =>
    intro kv' i h
    match kv' with
    | [] => rfl
    | [_] => simp [shape] at h
    | _ :: _ :: _ => simp [shape] at h
  | case2 k =>
    intro kv' i h
    match kv' with
    | [] => simp [shape] at h
    | [k'] =>
      simp only [shape, List.cons.injEq, Prod.mk.injEq, and_true] at h
      cases k <;> cases k' <;> simp_all [keyOf, goTimeFind]
    | _ :: _ :: _ => simp [shape] at h
  | case3 k v rest ih =>
    intro kv' i h
    match kv' with
    | [] => simp [shape] at h
    | [k'] => simp [shape] at h
    | k' :: v' :: rest' =>
      simp only [shape, List.cons.injEq, Prod.mk.injEq, Option.some.injEq] at h
      obtain ⟨⟨h1, h2⟩, h3⟩ := h
      have hv : ∀ idx, goTimeOf key layout idx v = goTimeOf key layout idx v' := by
        intro idx; cases v <;> cases v' <;> simp_all [kindOf, goTimeOf]
      have hr := ih rest' (i + 2) h3
      cases k <;> cases k' <;> simp_all [keyOf, goTimeFind]

theorem compile_shape (format : Bytes) {kv kv' : List Arg} (h : shape kv = shape kv') :
    compile format kv = compile format kv' := by
  have h1 := parseVariable_shape h
  have h2 : parseFunc kv = parseFunc kv' := by
    funext id name args
    unfold parseFunc
    rw [goTimeFind_shape _ _ kv kv' 0 h]
  unfold compile
  rw [h1, h2]

/-- Every cached formatter was compiled for a call whose arguments have the shape shared
by all calls with that format. -/
def CacheOk (shp : Bytes → List (Option Bytes × Option Kind)) (cache : Cache) : Prop :=
  ∀ format f, cache.lookup format = some f → ∃ kv, shape kv = shp format ∧ compile format kv = .ok f

theorem run_fresh (shw : List Arg → Bytes) (shp : Bytes → List (Option Bytes × Option Kind)) : ∀ (calls : List Call)
    (cache : Cache), CacheOk shp cache → (∀ c ∈ calls, shape c.2 = shp c.1) →
    run shw cache calls = calls.map (fun c => sprintfFresh shw c.1 c.2) := by
  intro calls
  induction calls with
  | nil => intro _ _ _; rfl
  | cons c calls ih =>
    obtain ⟨format, kv⟩ := c
    intro cache hc hs
    have hkv : shape kv = shp format := hs (format, kv) (by simp)
    simp only [run, List.map_cons]
    have hstep : (sprintf shw cache format kv).1 = sprintfFresh shw format kv ∧
        CacheOk shp (sprintf shw cache format kv).2 := by
      unfold sprintf formatterOf
      cases hl : cache.lookup format with
      | some f =>
        obtain ⟨kv0, h1, h2⟩ := hc format f hl
        refine ⟨?_, hc⟩
        rw [fresh_of_compile ((compile_shape format (hkv.trans h1.symm)).trans h2)]
      | none =>
        cases hcomp : compile format kv with
        | error b => exact ⟨(fresh_error hcomp).symm, hc⟩
        | ok f =>
          refine ⟨(fresh_of_compile hcomp).symm, ?_⟩
          intro format' f' hf'
          simp only [List.lookup_cons] at hf'
          by_cases he : format' = format
          · subst he
            simp only [beq_self_eq_true, Option.some.injEq] at hf'
            subst hf'
            exact ⟨kv, hkv, hcomp⟩
          · have : (format' == format) = false := by simpa using he
            rw [this] at hf'
            exact hc format' f' hf'
    rw [hstep.1, ih _ hstep.2 (fun x hx => hs x (by simp [hx]))]

/-- C23, partial: in a process in which calls with the same format pass the same names in
the same order with values of the same types, every call prints what it would print
in a process of its own. -/
theorem cache_transparent_partial (shw : List Arg → Bytes) (calls : List Call)
    (h : ∀ c ∈ calls, ∀ d ∈ calls, c.1 = d.1 → shape c.2 = shape d.2) :
    run shw [] calls = calls.map (fun c => sprintfFresh shw c.1 c.2) := by
  apply run_fresh shw (fun format => ((calls.find? (fun c => c.1 == format)).map (fun c => shape c.2)).getD [])
  · intro format f hf; simp at hf
  · intro c hc
    cases hfind : calls.find? (fun d => d.1 == c.1) with
    | none =>
      rw [List.find?_eq_none] at hfind
      exact absurd (beq_self_eq_true c.1) (hfind c hc)
    | some d =>
      have h1 := List.mem_of_find?_eq_some hfind
      have h2 : d.1 = c.1 := by simpa using List.find?_some hfind
      simp only [Option.map_some, Option.getD_some]
      exact h c hc d h1 h2.symm

/-- Two calls with the same format and the same shape, and another format in between. -/
example : run (fun _ => []) [] [(asc "{a}", kvOf [(asc "a", .str (asc "1"))]), (asc "x", []),
      (asc "{a}", kvOf [(asc "a", .str (asc "2"))])] = [.ok (asc "1"), .ok (asc "x"), .ok (asc "2")] := by
  rw [cache_transparent_partial _ _ (by simp [shape, kvOf, kindOf, keyOf, asc])]
  rfl

/-- C23 fails: after `Sprintf("{a}", "a", "1", "b", "2")`, the call
`Sprintf("{a}", "b", "2", "a", "1")` prints the argument in the second position, which is
the value of `b`. -/
theorem cache_by_position (shw : List Arg → Bytes) :
    run shw [] [(asc "{a}", kvOf [(asc "a", .str (asc "1")), (asc "b", .str (asc "2"))]),
      (asc "{a}", kvOf [(asc "b", .str (asc "2")), (asc "a", .str (asc "1"))])] =
      [.ok (asc "1"), .ok (asc "2")] ∧
    sprintfFresh shw (asc "{a}") (kvOf [(asc "b", .str (asc "2")), (asc "a", .str (asc "1"))]) = .ok (asc "1") :=
  ⟨rfl, rfl⟩

/-- C23 fails: after printing a string, printing a value of another type panics; after
printing a value of one type, printing another type reads it as the first type. -/
theorem cache_by_type (shw : List Arg → Bytes) :
    run shw [] [(asc "{a}", kvOf [(asc "a", .str (asc "1"))]), (asc "{a}", kvOf [(asc "a", .other 0 (asc "1"))])] =
      [.ok (asc "1"), .error .panic] ∧
    run shw [] [(asc "{a}", kvOf [(asc "a", .other 0 (asc "1"))]), (asc "{a}", kvOf [(asc "a", .other 1 (asc "true"))])] =
      [.ok (asc "1"), .error .garbage] ∧
    sprintfFresh shw (asc "{a}") (kvOf [(asc "a", .other 0 (asc "1"))]) = .ok (asc "1") ∧
    sprintfFresh shw (asc "{a}") (kvOf [(asc "a", .other 1 (asc "true"))]) = .ok (asc "true") :=
  ⟨rfl, rfl, rfl, rfl⟩

/-! ### Names and layouts in terms of characters -/

/-- Among ASCII characters, names of placeholders have letters, digits, underscores and control characters: neither white space nor punctuation. -/
theorem name_chars : ∀ n : Nat, n < 128 → (idRune n ↔ UInt8.ofNat n ∉ asc "\t\n\x0b\x0c\r !\"#$%&'()*+,-./:;<=>?@[\\]^`{|}~") := by
  have h : ∀ n : Fin 128, idRune n.val ↔ UInt8.ofNat n.val ∉ asc "\t\n\x0b\x0c\r !\"#$%&'()*+,-./:;<=>?@[\\]^`{|}~" := by
    unfold idRune
    decide +kernel
  exact fun n hn => h ⟨n, hn⟩

/-- `t` is `s` without white space at both ends. -/
def Trims (s t : Bytes) : Prop :=
  ∃ a b, s = a ++ t ++ b ∧ Blank a ∧ Blank b ∧ ∀ n, white n → ¬ utf8Encode n <+: t ∧ ¬ utf8Encode n <:+ t

theorem spaceTexts_iff (t : Bytes) : t ∈ spaceTexts ↔ ∃ n, white n ∧ t = utf8Encode n := by
  have e : spaceTexts = ([9, 10, 11, 12, 13, 0x20, 0x85, 0xA0, 0x1680, 0x2000, 0x2001, 0x2002, 0x2003, 0x2004, 0x2005, 0x2006, 0x2007, 0x2008,
      0x2009, 0x200A, 0x2028, 0x2029, 0x202F, 0x205F, 0x3000] : List Nat).map utf8Encode := by decide +kernel
  rw [e, List.mem_map]
  constructor
  · rintro ⟨n, hn, rfl⟩
    refine ⟨n, ?_, rfl⟩
    simp only [List.mem_cons, List.not_mem_nil, or_false] at hn
    unfold white
    omega
  · rintro ⟨n, hn, rfl⟩
    refine ⟨n, ?_, rfl⟩
    unfold white at hn
    simp only [List.mem_cons, List.not_mem_nil, or_false]
    omega

theorem Blank.append {a b : Bytes} (ha : Blank a) (hb : Blank b) : Blank (a ++ b) := by
  obtain ⟨ra, h1, rfl⟩ := ha
  obtain ⟨rb, h2, rfl⟩ := hb
  exact ⟨ra ++ rb, fun n hn => (List.mem_append.mp hn).elim (h1 n) (h2 n), by simp⟩

theorem blank_one {t : Bytes} (h : t ∈ spaceTexts) : Blank t := by
  obtain ⟨n, hn, rfl⟩ := (spaceTexts_iff t).mp h
  exact ⟨[n], by simpa using hn, by simp⟩

theorem space_pos {t : Bytes} (h : t ∈ spaceTexts) : 0 < t.length := by
  obtain ⟨n, -, rfl⟩ := (spaceTexts_iff t).mp h
  exact (encode_length n).1

theorem trimLeft_spec : ∀ (fuel : Nat) (s : Bytes), s.length ≤ fuel →
    ∃ a, Blank a ∧ s = a ++ trimLeft fuel s ∧ ∀ n, white n → ¬ utf8Encode n <+: trimLeft fuel s
  | 0, s, h => by
    have hs : s = [] := List.length_eq_zero_iff.mp (by omega)
    subst hs
    refine ⟨[], blank_nil, rfl, fun n _ hp => ?_⟩
    exact encode_ne_nil n [] (by rw [List.append_nil]; exact List.prefix_nil.mp hp)
  | fuel + 1, s, h => by
    rw [trimLeft]
    cases hf : spaceTexts.find? fun t => t.isPrefixOf s with
    | none =>
      refine ⟨[], blank_nil, rfl, fun n hn hp => ?_⟩
      rw [List.find?_eq_none] at hf
      exact hf _ ((spaceTexts_iff _).mpr ⟨n, hn, rfl⟩) (List.isPrefixOf_iff_prefix.mpr hp)
    | some t =>
      have hm := List.mem_of_find?_eq_some hf
      have hp : t <+: s := List.isPrefixOf_iff_prefix.mp (by simpa using List.find?_some hf)
      obtain ⟨r, rfl⟩ := hp
      have hpos := space_pos hm
      obtain ⟨a, h1, h2, h3⟩ := trimLeft_spec fuel r (by rw [List.length_append] at h; omega)
      simp only [List.drop_left]
      exact ⟨t ++ a, (blank_one hm).append h1, by rw [List.append_assoc, ← h2], h3⟩

theorem trimRight_spec : ∀ (fuel : Nat) (s : Bytes), s.length ≤ fuel →
    ∃ b, Blank b ∧ s = trimRight fuel s ++ b ∧ ∀ n, white n → ¬ utf8Encode n <:+ trimRight fuel s
  | 0, s, h => by
    have hs : s = [] := List.length_eq_zero_iff.mp (by omega)
    subst hs
    refine ⟨[], blank_nil, rfl, fun n _ hp => ?_⟩
    exact encode_ne_nil n [] (by rw [List.append_nil]; exact List.suffix_nil.mp hp)
  | fuel + 1, s, h => by
    rw [trimRight]
    cases hf : spaceTexts.find? fun t => t.isSuffixOf s with
    | none =>
      refine ⟨[], blank_nil, (List.append_nil s).symm, fun n hn hp => ?_⟩
      rw [List.find?_eq_none] at hf
      exact hf _ ((spaceTexts_iff _).mpr ⟨n, hn, rfl⟩) (List.isSuffixOf_iff_suffix.mpr hp)
    | some t =>
      have hm := List.mem_of_find?_eq_some hf
      have hp : t <:+ s := List.isSuffixOf_iff_suffix.mp (by simpa using List.find?_some hf)
      obtain ⟨r, rfl⟩ := hp
      have hpos := space_pos hm
      obtain ⟨b, h1, h2, h3⟩ := trimRight_spec fuel r (by rw [List.length_append] at h; omega)
      have e : (r ++ t).take ((r ++ t).length - t.length) = r := by
        rw [List.length_append, Nat.add_sub_cancel, List.take_left]
      simp only [e]
      exact ⟨b ++ t, h1.append (blank_one hm), by rw [← List.append_assoc, ← h2], h3⟩

/-- The layout of goTime is taken without white space at both ends. -/
theorem layout_trimmed (s : Bytes) : Trims s (trimSpace s) := by
  obtain ⟨a, h1, h2, h3⟩ := trimLeft_spec s.length s (Nat.le_refl _)
  obtain ⟨b, g1, g2, g3⟩ := trimRight_spec s.length (trimLeft s.length s) (by
    have := congrArg List.length h2
    rw [List.length_append] at this
    omega)
  unfold trimSpace
  refine ⟨a, b, by rw [List.append_assoc, ← g2]; exact h2, h1, g1, fun n hn => ⟨fun hp => h3 n hn ?_, g3 n hn⟩⟩
  rw [g2]
  exact hp.trans (List.prefix_append _ _)

example : trimSpace (asc " \t2006-01-02 15:04\n") = asc "2006-01-02 15:04" := by decide
example : trimSpace ([0xE3, 0x80, 0x80] ++ asc "Jan 2" ++ [0xC2, 0xA0, 0x0A]) = asc "Jan 2" := by decide

end Verif.Msgfmt
