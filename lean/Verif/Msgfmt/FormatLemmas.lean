import Verif.Msgfmt.ParseLemmas
import Verif.Jsonfmt.BytesLemmas

/-!
# Parsing placeholders and templates
-/

namespace Verif.Msgfmt
open Verif.Parse Verif.Spec

theorem noSpace_125 (t : Bytes) : noSpaceAhead (125 :: t) := noSpace_byte _ _ (by decide) (by unfold spaceByte; decide)
theorem noSpace_44 (t : Bytes) : noSpaceAhead (44 :: t) := noSpace_byte _ _ (by decide) (by unfold spaceByte; decide)

theorem skip_none {r : Bytes} (h : noSpaceAhead r) : skipUnicodeSpace (strSrc r) isSpaceRune = .ok (0, strSrc r) := by
  unfold skipUnicodeSpace
  rw [skipUniSpaceLoop]
  by_cases h0 : r = []
  · subst h0; rfl
  · rw [if_neg (by simp [strSrc_err h0]), peekRune_str h0]
    rcases h with h | h
    · exact absurd h h0
    · simp [h]

theorem args_loop (rest : Bytes) : ∀ (args : List Bytes) (fuel : Nat) (acc : List Bytes),
    (∀ a ∈ args, ∀ c ∈ a, c ≠ 44 ∧ c ≠ 125) → args.length < fuel →
    funcArgsLoop fuel (strSrc (args.flatMap (fun a => 44 :: a) ++ 125 :: rest)) acc =
      .ok (acc ++ args, strSrc (125 :: rest)) := by
  intro args
  induction args with
  | nil =>
    intro fuel acc _ hf
    obtain ⟨f, rfl⟩ : ∃ f, fuel = f + 1 := ⟨fuel - 1, by simp at hf; omega⟩
    show funcArgsLoop (f + 1) (strSrc (125 :: rest)) acc = _
    rw [funcArgsLoop, skip_none (noSpace_125 rest)]
    show (match lift (strSrc (125 :: rest)).peek1 with
      | .error b => Except.error b
      | .ok c => _) = _
    rw [peek1_str]
    simp [lift]
  | cons a args ih =>
    intro fuel acc h hf
    obtain ⟨f, rfl⟩ : ∃ f, fuel = f + 1 := ⟨fuel - 1, by simp at hf; omega⟩
    have e : (a :: args).flatMap (fun a => (44 : UInt8) :: a) ++ 125 :: rest =
        44 :: (a ++ (args.flatMap (fun a => (44 : UInt8) :: a) ++ 125 :: rest)) := by simp
    rw [e, funcArgsLoop, skip_none (noSpace_44 _)]
    simp only [lift, peek1_str, if_true, consume1_str]
    have hh : ∀ c ∈ (args.flatMap (fun a => (44 : UInt8) :: a) ++ 125 :: rest).head?, c = 44 ∨ c = 125 := by
      cases args <;> simp
    rw [anyExcept2_str 44 125 a _ (h a (by simp)) hh]
    simp only
    rw [ih f _ (fun x hx => h x (by simp [hx])) (by simp at hf; omega)]
    simp

theorem prefix_take {p l m : Bytes} (hm : ∀ c ∈ m.head?, c ∉ p) (h : (l ++ m).take p.length = p) : p <+: l := by
  by_cases hl : p.length ≤ l.length
  · rw [List.take_append_of_le_length hl] at h
    exact ⟨l.drop p.length, by have := List.take_append_drop p.length l; rw [h] at this; exact this⟩
  · rw [List.take_append] at h
    rw [List.take_of_length_le (by omega)] at h
    exfalso
    cases m with
    | nil =>
      simp at h
      rw [h] at hl; omega
    | cons c t =>
      obtain ⟨k, hk⟩ : ∃ k, p.length - l.length = k + 1 := ⟨p.length - l.length - 1, by omega⟩
      rw [hk] at h
      apply hm c (by simp)
      rw [← h]; simp

theorem parseFormatter_str (f : Func) (hf : f.wf) (rest : Bytes) :
    parseFormatter (strSrc (f.text ++ 125 :: rest)) = .ok ((f.name, f.args), strSrc (125 :: rest)) := by
  obtain ⟨c, t, hn, hc1, hc2⟩ := hf.first
  have hns : noSpaceAhead (f.name ++ (f.args.flatMap (fun a => (44 : UInt8) :: a) ++ 125 :: rest)) := by
    rw [hn, List.cons_append]; exact noSpace_byte _ _ hc1 hc2
  have hh : ∀ c ∈ (f.args.flatMap (fun a => (44 : UInt8) :: a) ++ 125 :: rest).head?, c = 44 ∨ c = 125 := by
    cases f.args <;> simp
  have e : f.text ++ 125 :: rest =
      f.lead ++ (f.name ++ (f.args.flatMap (fun a => (44 : UInt8) :: a) ++ 125 :: rest)) := by
    simp [Func.text]
  unfold parseFormatter
  obtain ⟨k, hk⟩ := skip_str _ _ hf.lead hns
  rw [e, hk]
  simp only [lift]
  obtain ⟨h1, h2⟩ := peekN_str (f.name ++ (f.args.flatMap (fun a => (44 : UInt8) :: a) ++ 125 :: rest)) 6
  rw [h1, h2]
  have hsel : ∀ p : Bytes, p.length = 6 → 44 ∉ p → 125 ∉ p → ¬ p <+: f.name →
      ¬ (f.name ++ (f.args.flatMap (fun a => (44 : UInt8) :: a) ++ 125 :: rest)).take 6 = p := by
    intro p hp h44 h125 hno heq
    apply hno
    apply prefix_take _ (by rw [hp]; exact heq)
    intro c hc
    rcases hh c hc with rfl | rfl <;> assumption
  rw [if_neg (by
    rintro (h | h)
    · exact hsel _ (by decide) (by decide) (by decide) hf.select h
    · exact hsel _ (by decide) (by decide) (by decide) hf.plural h)]
  rw [anyExcept2_str 44 125 f.name _ hf.name hh]
  simp only
  rw [args_loop rest f.args _ [] hf.args (by
    rw [strSrc_bytesLeft, List.length_append]
    have : f.args.length ≤ (f.args.flatMap (fun a => (44 : UInt8) :: a)).length := by
      generalize f.args = l
      induction l with
      | nil => simp
      | cons a l ih => simp only [List.flatMap_cons, List.length_append, List.length_cons]; omega
    omega)]
  simp

theorem BlankAfter.blank {s : Bytes} (h : BlankAfter s) : Blank s := by
  obtain ⟨rs, h1, -, h2⟩ := h
  exact ⟨rs, h1, h2⟩

theorem sep_byte (c : UInt8) (t : Bytes) (h : c.toNat < 0x80) (hx : patternSyntax c.toNat = true) : sepAhead (c :: t) := by
  refine ⟨by simp, ?_⟩
  rw [decode_1 _ _ h]
  exact Or.inr hx

theorem sep_blank {s : Bytes} (h : BlankAfter s) (hs : s ≠ []) (t : Bytes) : sepAhead (s ++ t) := by
  obtain ⟨rs, h1, h2, rfl⟩ := h
  cases rs with
  | nil => exact absurd rfl hs
  | cons n rs =>
    rw [List.flatMap_cons, List.append_assoc]
    refine ⟨encode_ne_nil _ _, Or.inl ?_⟩
    rw [decode_encode n (white_scalar (h1 n (by simp)))]
    exact pattern_ends (h2 n (by simp))

/-- What follows a name starts with a separator. -/
theorem tail_sep (p : Placeholder) (hp : p.wf) (rest : Bytes) : sepAhead (p.tail ++ 125 :: rest) := by
  unfold Placeholder.tail
  by_cases ht : p.trail = []
  · rw [ht, List.nil_append]
    cases p.func with
    | none => exact sep_byte 125 rest (by decide) (by decide)
    | some f => exact sep_byte 44 _ (by decide) (by decide)
  · rw [List.append_assoc]
    exact sep_blank hp.trail ht _

theorem name_ahead (p : Placeholder) (hp : p.wf) (t : Bytes) : noSpaceAhead (p.name ++ t) := by
  obtain ⟨n, rs, h1, h2⟩ := hp.first
  have h3 := (hp.id n (by simp [h1])).1
  right
  unfold Placeholder.name
  rw [h1, List.flatMap_cons, List.append_assoc, decode_encode n h3]
  exact h2

/-- Outcome of the braces of a placeholder, given what the two callbacks give. -/
def Placeholder.made (pv : Bytes → Res Made) (pf : Bytes → Bytes → List Bytes → Made) (p : Placeholder) (rest : Bytes) :
    Res (Option Fmt1 × Source) :=
  match p.func with
  | none =>
    match pv p.name with
    | .error b => .error b
    | .ok (.fmt f) => .ok (some f, strSrc rest)
    | .ok (.err _) => .error .panic
  | some f =>
    match pf p.name f.name f.args with
    | .fmt f => .ok (some f, strSrc rest)
    | .err m => .ok (none, (strSrc (125 :: rest)).report (.msg m))

theorem variableLoop_end (pf : Bytes → Bytes → List Bytes → Made) (fuel : Nat) (rest : Bytes) (left : Obj) :
    variableLoop pf (fuel + 1) (strSrc (125 :: rest)) left = .ok (left, strSrc (125 :: rest)) := by
  rw [variableLoop, if_neg (by simp [strSrc])]
  rw [skip_none (noSpace_125 rest)]
  simp [lift, peek1_str]

theorem parseVar_str (pf : Bytes → Bytes → List Bytes → Made) (p : Placeholder) (hp : p.wf) (rest : Bytes) :
    parseVar pf (strSrc (p.lead ++ (p.name ++ (p.tail ++ 125 :: rest)))) =
      match p.func with
      | none => .ok (.id p.name, strSrc (125 :: rest))
      | some f =>
        match pf p.name f.name f.args with
        | .fmt f => .ok (.fmt f, strSrc (125 :: rest))
        | .err m => .ok (.nil, (strSrc (125 :: rest)).report (.msg m)) := by
  have hsep := tail_sep p hp rest
  unfold parseVar
  obtain ⟨kl, hkl⟩ := skip_str _ _ hp.lead (name_ahead p hp (p.tail ++ 125 :: rest))
  rw [hkl]
  simp only [lift]
  have hid : unicodeRanges (strSrc (p.name ++ (p.tail ++ 125 :: rest))) [] [] [patternWhiteSpace, patternSyntax] =
      .ok (p.id, strSrc (p.tail ++ 125 :: rest)) := id_str _ hsep p.id hp.id
  rw [hid]
  simp only
  rw [strSrc_bytesLeft]
  have hname : p.id.flatMap utf8Encode = p.name := rfl
  rw [hname]
  obtain ⟨k, hk⟩ : ∃ k, (p.tail ++ 125 :: rest).length = k + 1 := ⟨p.tail.length + rest.length, by simp; omega⟩
  rw [hk]
  cases hfn : p.func with
  | none =>
    have e : p.tail ++ 125 :: rest = p.trail ++ 125 :: rest := by simp [Placeholder.tail, hfn]
    obtain ⟨kt, hkt⟩ := skip_str _ _ hp.trail.blank (noSpace_125 rest)
    rw [e, variableLoop, if_neg (by simp [strSrc]), hkt]
    simp [lift, peek1_str]
  | some f =>
    have e : p.tail ++ 125 :: rest = p.trail ++ 44 :: (f.text ++ 125 :: rest) := by simp [Placeholder.tail, hfn]
    obtain ⟨kt, hkt⟩ := skip_str _ _ hp.trail.blank (noSpace_44 (f.text ++ 125 :: rest))
    rw [e, variableLoop, if_neg (by simp [strSrc]), hkt]
    simp only [lift, peek1_str, if_true, consume1_str]
    rw [parseFormatter_str f (hp.func f (by simp [hfn]))]
    simp only
    cases pf p.name f.name f.args with
    | fmt g => exact variableLoop_end _ _ _ _
    | err m =>
      show variableLoop pf (k + 2) _ _ = _
      rw [variableLoop, if_pos (by simp [Source.report, strSrc])]

theorem parseCurly_str (pv : Bytes → Res Made) (pf : Bytes → Bytes → List Bytes → Made) (p : Placeholder) (hp : p.wf)
    (rest : Bytes) : parseCurly pv pf (strSrc (p.text ++ rest)) = p.made pv pf rest := by
  have e : p.text ++ rest = 123 :: (p.lead ++ (p.name ++ (p.tail ++ 125 :: rest))) := by
    simp [Placeholder.text]
  unfold parseCurly Placeholder.made
  rw [e, consume1_str]
  simp only [lift]
  rw [parseVar_str pf p hp rest]
  cases p.func with
  | none =>
    simp only
    rw [if_neg (by simp [strSrc])]
    cases pv p.name with
    | error b => rfl
    | ok m =>
      cases m with
      | fmt f => simp only [consume1_str]
      | err m => rfl
  | some f =>
    cases hm : pf p.name f.name f.args with
    | fmt g =>
      simp only [hm]
      rw [if_neg (by simp [strSrc])]
      simp only [consume1_str]
    | err m =>
      simp only [hm]
      rw [if_pos (by simp [Source.report, strSrc])]

theorem parsePart_placeholder (pv : Bytes → Res Made) (pf : Bytes → Bytes → List Bytes → Made) (p : Placeholder)
    (hp : p.wf) (rest : Bytes) : parsePart pv pf (strSrc (p.text ++ rest)) = p.made pv pf rest := by
  rw [← parseCurly_str pv pf p hp rest]
  have e : p.text ++ rest = 123 :: (p.lead ++ (p.name ++ (p.tail ++ [125])) ++ rest) := by
    simp [Placeholder.text]
  unfold parsePart
  rw [e, peek1_str]
  simp [lift]

theorem parsePart_literal (pv : Bytes → Res Made) (pf : Bytes → Bytes → List Bytes → Made) (lit rest : Bytes)
    (hl : lit ≠ []) (h : ∀ c ∈ lit, c ≠ 123) (hr : ∀ c ∈ rest.head?, c = 123) :
    parsePart pv pf (strSrc (lit ++ rest)) = .ok (some (.fixed lit), strSrc rest) := by
  obtain ⟨c, t, rfl⟩ : ∃ c t, lit = c :: t := by cases lit <;> simp_all
  unfold parsePart
  rw [List.cons_append, peek1_str]
  simp only [lift]
  rw [if_neg (h c (by simp)), ← List.cons_append, anyExcept1_str 123 (c :: t) rest h hr]

/-! ### Whole templates -/

/-- The formatters held by a formatter. -/
def Formatter.list : Formatter → List Fmt1
  | .one f => [f]
  | .many fs => fs

def listOf : Option Formatter → List Fmt1
  | none => []
  | some f => f.list

theorem format_list (shw : List Arg → Bytes) (kv : List Arg) (space : Bytes) (f : Formatter) :
    f.format shw kv space = formatAll shw kv space f.list := by
  cases f with
  | one f =>
    simp only [Formatter.format, Formatter.list, formatAll]
    cases f.format shw kv space <;> rfl
  | many fs => rfl

/-- Adding one parsed part to what is there. -/
theorem parseLoop_part (pv : Bytes → Res Made) (pf : Bytes → Bytes → List Bytes → Made) {r rest : Bytes} {f : Fmt1}
    (hr : r ≠ []) (h : parsePart pv pf (strSrc r) = .ok (some f, strSrc rest)) (fuel : Nat) (left : Option Formatter) :
    ∃ l : Formatter, l.list = listOf left ++ [f] ∧
      parseLoop pv pf (fuel + 1) (strSrc r) left = parseLoop pv pf fuel (strSrc rest) (some l) := by
  rw [parseLoop, if_neg (by simp [strSrc_err hr]), h]
  cases left with
  | none => exact ⟨.one f, rfl, rfl⟩
  | some l =>
    cases l with
    | one g => exact ⟨.many [g, f], rfl, rfl⟩
    | many fs => exact ⟨.many (fs ++ [f]), rfl, rfl⟩

theorem parseLoop_end (pv : Bytes → Res Made) (pf : Bytes → Bytes → List Bytes → Made) (fuel : Nat) (left : Option Formatter) :
    parseLoop pv pf (fuel + 1) (strSrc []) left = .ok (left, strSrc []) := rfl

theorem lookup_pairs_cons (k n : Bytes) (v : Arg) (pairs : Pairs) :
    List.lookup n ((k, v) :: pairs) = if k = n then some v else pairs.lookup n := by
  rw [List.lookup_cons]
  by_cases h : k = n
  · subst h; simp
  · have : (n == k) = false := by simpa using fun hh : n = k => h hh.symm
    rw [this, if_neg h]

theorem findValueIndex_pairs (n : Bytes) : ∀ (pairs : Pairs) (i : Nat),
    (pairs.lookup n = none → findValueIndex n i (kvOf pairs) = .ok none) ∧
    (∀ v, pairs.lookup n = some v → ∃ idx, findValueIndex n i (kvOf pairs) = .ok (some (i + idx)) ∧
      (kvOf pairs)[idx]? = some v) := by
  intro pairs
  induction pairs with
  | nil => intro i; simp [kvOf, findValueIndex]
  | cons q pairs ih =>
    obtain ⟨k, w⟩ := q
    intro i
    have e : kvOf ((k, w) :: pairs) = .str k :: w :: kvOf pairs := rfl
    rw [e, findValueIndex, lookup_pairs_cons]
    by_cases hk : k = n
    · rw [if_pos hk, if_pos hk]
      refine ⟨by simp, fun v hv => ⟨1, rfl, by simpa using hv⟩⟩
    · rw [if_neg hk, if_neg hk]
      obtain ⟨h1, h2⟩ := ih (i + 2)
      refine ⟨h1, fun v hv => ?_⟩
      obtain ⟨idx, h3, h4⟩ := h2 v hv
      refine ⟨idx + 2, ?_, by simpa using h4⟩
      rw [h3]; congr 2; omega

theorem goTimeFind_pairs (n layout : Bytes) : ∀ (pairs : Pairs) (i : Nat),
    (∀ t g, pairs.lookup n = some (.time t g) → ∃ idx, goTimeFind n layout i (kvOf pairs) =
      .fmt (.goTime (i + idx) (trimSpace layout)) ∧ (kvOf pairs)[idx]? = some (.time t g)) ∧
    ((∀ t g, pairs.lookup n ≠ some (.time t g)) → ∃ m, goTimeFind n layout i (kvOf pairs) = .err m) := by
  intro pairs
  induction pairs with
  | nil => intro i; simp [kvOf, goTimeFind]
  | cons q pairs ih =>
    obtain ⟨k, w⟩ := q
    intro i
    have e : kvOf ((k, w) :: pairs) = .str k :: w :: kvOf pairs := rfl
    rw [e, goTimeFind, lookup_pairs_cons]
    by_cases hk : k = n
    · rw [if_pos hk, if_pos hk]
      refine ⟨?_, ?_⟩
      · intro t g hv
        injection hv with hv
        subst hv
        exact ⟨1, rfl, by simp⟩
      · intro h
        cases w with
        | time t g => exact absurd rfl (h t g)
        | str _ | bytes _ | stringer _ | other _ _ | nil => exact ⟨_, rfl⟩
    · rw [if_neg hk, if_neg hk]
      obtain ⟨h1, h2⟩ := ih (i + 2)
      refine ⟨fun t g hv => ?_, h2⟩
      obtain ⟨idx, h3, h4⟩ := h1 t g hv
      refine ⟨idx + 2, ?_, by simpa using h4⟩
      rw [h3]; congr 2; omega

/-- A placeholder that can be printed compiles to a formatter that prints it. -/
theorem made_output (shw : List Arg → Bytes) (p : Placeholder) (pairs : Pairs) (out : Bytes)
    (h : p.output pairs = some out) (rest : Bytes) :
    ∃ f, p.made (parseVariable (kvOf pairs)) (parseFunc (kvOf pairs)) rest = .ok (some f, strSrc rest) ∧
      ∀ space, f.format shw (kvOf pairs) space = .ok (space ++ out) := by
  unfold Placeholder.output at h
  cases hl : pairs.lookup p.name with
  | none => rw [hl] at h; simp at h
  | some v =>
    rw [hl] at h
    unfold Placeholder.made
    cases hf : p.func with
    | none =>
      simp only [hf] at h
      obtain ⟨idx, h1, h2⟩ := (findValueIndex_pairs p.name pairs 0).2 v hl
      rw [Nat.zero_add] at h1
      have e : parseVariable (kvOf pairs) p.name = formatterFor idx v := by
        unfold parseVariable
        rw [h1]
        simp only
        rw [h2]
      cases v with
      | nil => simp [showValue] at h
      | str s =>
        simp only [showValue, Option.some.injEq] at h
        exact ⟨.str idx, by simp [e, formatterFor], fun sp => by simp [Fmt1.format, h2, h]⟩
      | bytes b =>
        simp only [showValue, Option.some.injEq] at h
        refine ⟨.bytes idx, by simp [e, formatterFor], fun sp => ?_⟩
        simp only [Fmt1.format, h2]
        rw [← h, Jsonfmt.msgWriteBytes_eq, Jsonfmt.msgWriteBytes_eq []]
        simp
      | stringer t =>
        simp only [showValue, Option.some.injEq] at h
        exact ⟨.stringer idx, by simp [e, formatterFor], fun sp => by simp [Fmt1.format, h2, h]⟩
      | time t g =>
        simp only [showValue, Option.some.injEq] at h
        exact ⟨.stringer idx, by simp [e, formatterFor], fun sp => by simp [Fmt1.format, h2, h]⟩
      | other ty j =>
        simp only [showValue, Option.some.injEq] at h
        exact ⟨.json idx ty, by simp [e, formatterFor], fun sp => by simp [Fmt1.format, h2, h]⟩
    | some f =>
      simp only [hf] at h
      cases v with
      | time t g =>
        simp only at h
        by_cases hn : f.name = asc "goTime"
        · rw [if_pos hn] at h
          injection h with h
          have h : g (trimSpace (f.args.headD rfc3339)) = out := h
          obtain ⟨idx, h1, h2⟩ := (goTimeFind_pairs p.name (f.args.headD rfc3339) pairs 0).1 t g hl
          rw [Nat.zero_add] at h1
          refine ⟨.goTime idx (trimSpace (f.args.headD rfc3339)), ?_, fun sp => ?_⟩
          · simp only [parseFunc, if_pos hn, h1]
          · simp only [Fmt1.format, h2, h]
        · rw [if_neg hn] at h; simp at h
      | str _ | bytes _ | stringer _ | other _ _ | nil => simp at h

theorem formatAll_append (shw : List Arg → Bytes) (kv : List Arg) (fs : List Fmt1) (f : Fmt1) (space a out : Bytes)
    (h : formatAll shw kv space fs = .ok a) (hf : f.format shw kv a = .ok out) :
    formatAll shw kv space (fs ++ [f]) = .ok out := by
  induction fs generalizing space with
  | nil =>
    simp only [formatAll, Except.ok.injEq] at h
    subst h
    simp [formatAll, hf]
  | cons g fs ih =>
    rw [List.cons_append, formatAll]
    rw [formatAll] at h
    cases hg : g.format shw kv space with
    | error b => rw [hg] at h; simp at h
    | ok sp =>
      rw [hg] at h
      exact ih sp h

theorem partsText_head (parts : List (Placeholder × Bytes)) (rest : Bytes) (hr : ∀ c ∈ rest.head?, c = 123) :
    ∀ c ∈ (partsText parts ++ rest).head?, c = 123 := by
  cases parts with
  | nil => exact hr
  | cons q parts => simp [partsText, Placeholder.text]

/-- Literal text, possibly empty. -/
theorem parse_literal (shw : List Arg → Bytes) (kv : List Arg) (pv : Bytes → Res Made)
    (pf : Bytes → Bytes → List Bytes → Made) (lit rest : Bytes) (hl : ∀ c ∈ lit, c ≠ 123)
    (hr : ∀ c ∈ rest.head?, c = 123) (fuel : Nat) (left : Option Formatter) (out : Bytes)
    (hleft : formatAll shw kv [] (listOf left) = .ok out) :
    ∃ fuel' left', fuel ≤ fuel' ∧ formatAll shw kv [] (listOf left') = .ok (out ++ lit) ∧
      (left'.isSome = true ↔ left.isSome = true ∨ lit ≠ []) ∧
      parseLoop pv pf (fuel + 1) (strSrc (lit ++ rest)) left = parseLoop pv pf fuel' (strSrc rest) left' := by
  by_cases h0 : lit = []
  · subst h0
    exact ⟨fuel + 1, left, by omega, by simpa using hleft, by simp, rfl⟩
  · obtain ⟨l, h1, h2⟩ := parseLoop_part pv pf (r := lit ++ rest) (by simp [h0])
      (parsePart_literal pv pf lit rest h0 hl hr) fuel left
    refine ⟨fuel, some l, by omega, ?_, by simp [h0], h2⟩
    show formatAll shw kv [] l.list = _
    rw [h1]
    exact formatAll_append shw kv _ _ _ _ _ hleft rfl

/-- Parsing placeholders and literals that can be printed, followed by `rest`. -/
theorem parse_parts (shw : List Arg → Bytes) (pairs : Pairs) (rest : Bytes) (hr : ∀ c ∈ rest.head?, c = 123) :
    ∀ (parts : List (Placeholder × Bytes)) (fuel : Nat) (left : Option Formatter) (out tail : Bytes),
    (∀ q ∈ parts, q.1.wf ∧ ∀ c ∈ q.2, c ≠ 123) → partsOutput pairs parts = some tail →
    formatAll shw (kvOf pairs) [] (listOf left) = .ok out →
    ∃ fuel' left', fuel ≤ fuel' ∧ formatAll shw (kvOf pairs) [] (listOf left') = .ok (out ++ tail) ∧
      (left'.isSome = true ↔ left.isSome = true ∨ parts ≠ []) ∧
      parseLoop (parseVariable (kvOf pairs)) (parseFunc (kvOf pairs)) (fuel + 2 * parts.length)
        (strSrc (partsText parts ++ rest)) left =
      parseLoop (parseVariable (kvOf pairs)) (parseFunc (kvOf pairs)) fuel' (strSrc rest) left' := by
  intro parts
  induction parts with
  | nil =>
    intro fuel left out tail _ ht hleft
    simp only [partsOutput, Option.some.injEq] at ht
    subst ht
    exact ⟨fuel, left, by omega, by simpa using hleft, by simp, rfl⟩
  | cons q parts ih =>
    obtain ⟨p, lit⟩ := q
    intro fuel left out tail h ht hleft
    obtain ⟨hp, hlit⟩ := h (p, lit) (by simp)
    simp only [partsOutput] at ht
    cases ha : p.output pairs with
    | none => rw [ha] at ht; simp at ht
    | some a =>
      cases hb : partsOutput pairs parts with
      | none => rw [ha, hb] at ht; simp at ht
      | some b =>
        rw [ha, hb] at ht
        simp only [Option.some.injEq] at ht
        subst ht
        obtain ⟨f, hf1, hf2⟩ := made_output shw p pairs a ha (lit ++ (partsText parts ++ rest))
        have e : partsText ((p, lit) :: parts) ++ rest = p.text ++ (lit ++ (partsText parts ++ rest)) := by
          simp [partsText]
        have e2 : fuel + 2 * ((p, lit) :: parts).length = (fuel + 2 * parts.length + 1) + 1 := by
          simp only [List.length_cons]; omega
        rw [e, e2]
        have hne : p.text ++ (lit ++ (partsText parts ++ rest)) ≠ [] := by simp [Placeholder.text]
        obtain ⟨l, h1, h2⟩ := parseLoop_part _ _ hne
          ((parsePart_placeholder _ _ p hp _).trans hf1) (fuel + 2 * parts.length + 1) left
        rw [h2]
        have hl : formatAll shw (kvOf pairs) [] (listOf (some l)) = .ok (out ++ a) := by
          show formatAll shw (kvOf pairs) [] l.list = _
          rw [h1]
          exact formatAll_append shw _ _ _ _ _ _ hleft (hf2 out)
        obtain ⟨k, l', hk, h3, h4, h5⟩ := parse_literal shw (kvOf pairs) (parseVariable (kvOf pairs))
          (parseFunc (kvOf pairs)) lit (partsText parts ++ rest) hlit (partsText_head parts rest hr)
          (fuel + 2 * parts.length) (some l) (out ++ a) hl
        rw [h5]
        obtain ⟨j, rfl⟩ : ∃ j, k = j + 2 * parts.length := ⟨k - 2 * parts.length, by omega⟩
        obtain ⟨k2, l2, hk2, h6, h7, h8⟩ := ih j l' (out ++ a ++ lit) b
          (fun x hx => h x (by simp [hx])) hb h3
        refine ⟨k2, l2, by omega, ?_, ?_, h8⟩
        · rw [h6]; simp
        · rw [h7]; simp at h4; simp [h4]

theorem parts_length (parts : List (Placeholder × Bytes)) : 2 * parts.length ≤ (partsText parts).length := by
  induction parts with
  | nil => simp
  | cons q parts ih =>
    obtain ⟨p, lit⟩ := q
    have : 2 ≤ p.text.length := by simp [Placeholder.text]; omega
    simp only [partsText, List.length_cons, List.length_append]; omega

/-- Parsing a whole template that can be printed, followed by `rest`. -/
theorem parse_template (shw : List Arg → Bytes) (pairs : Pairs) (t : Template) (ht : t.wf) (out rest : Bytes)
    (ho : t.output pairs = some out) (hr : ∀ c ∈ rest.head?, c = 123) (extra : Nat) :
    ∃ fuel left, extra ≤ fuel ∧ formatAll shw (kvOf pairs) [] (listOf left) = .ok out ∧
      (left.isSome = true ↔ t.text ≠ []) ∧
      parseLoop (parseVariable (kvOf pairs)) (parseFunc (kvOf pairs)) (t.text.length + 1 + extra)
        (strSrc (t.text ++ rest)) none =
      parseLoop (parseVariable (kvOf pairs)) (parseFunc (kvOf pairs)) fuel (strSrc rest) left := by
  obtain ⟨h1, h2⟩ := ht
  unfold Template.output at ho
  cases hp : partsOutput pairs t.parts with
  | none => rw [hp] at ho; simp at ho
  | some tail =>
    rw [hp] at ho
    simp only [Option.map_some, Option.some.injEq] at ho
    subst ho
    have hlen := parts_length t.parts
    have e : t.text ++ rest = t.head ++ (partsText t.parts ++ rest) := by simp [Template.text]
    have e2 : t.text.length + 1 + extra = (t.head.length + (partsText t.parts).length + extra) + 1 := by
      simp [Template.text]; omega
    rw [e, e2]
    obtain ⟨k, l, hk, h3, h4, h5⟩ := parse_literal shw (kvOf pairs) (parseVariable (kvOf pairs))
      (parseFunc (kvOf pairs)) t.head (partsText t.parts ++ rest) h1 (partsText_head t.parts rest hr)
      (t.head.length + (partsText t.parts).length + extra) none [] rfl
    rw [h5]
    obtain ⟨j, rfl⟩ : ∃ j, k = j + 2 * t.parts.length := ⟨k - 2 * t.parts.length, by omega⟩
    obtain ⟨k2, l2, hk2, h6, h7, h8⟩ := parse_parts shw pairs rest hr t.parts j l _ tail h2 hp h3
    refine ⟨k2, l2, by omega, ?_, ?_, h8⟩
    · rw [h6]; simp
    · rw [h7, h4]
      unfold Template.text
      cases t.parts with
      | nil => simp [partsText]
      | cons q ps => simp [partsText, Placeholder.text]

end Verif.Msgfmt
