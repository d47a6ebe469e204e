import Verif.Msgfmt.TemplateSpec
import Verif.Parse.Utf8Lemmas

/-!
# The parser source over a string, operation by operation
-/

namespace Verif.Msgfmt
open Verif.Parse Verif.Spec

/-- A string source with `r` left to read (proof device). -/
def strSrc (r : Bytes) : Source :=
  { err := if r = [] then some .eof else none, reader := none, current := r, nextList := [] }

theorem newSourceString_str {r : Bytes} (h : r ≠ []) : newSourceString r = strSrc r := by
  simp [newSourceString, strSrc, h]

theorem strSrc_err {r : Bytes} (h : r ≠ []) : (strSrc r).err = none := by simp [strSrc, h]

theorem strSrc_bytesLeft (r : Bytes) : (strSrc r).bytesLeft = r.length := by
  simp [strSrc, Source.bytesLeft]

theorem consumeN_str (r : Bytes) (n : Nat) (h : n ≤ r.length) :
    (strSrc r).consumeN n = .ok (strSrc (r.drop n)) := by
  unfold Source.consumeN
  have hc : (strSrc r).chunks + 2 = 2 := rfl
  rw [hc, consumeLoop]
  have hcur : (strSrc r).current = r := rfl
  rw [hcur]
  by_cases h0 : n ≠ 0 ∧ n ≥ r.length
  · rw [if_pos h0, consumeLoop]
    have hn : n = r.length := by omega
    have hr : r ≠ [] := by rintro rfl; simp at hn; exact h0.1 hn
    have hz : n - r.length = 0 := by omega
    rw [hz, if_neg (by simp)]
    simp [strSrc, Source.consume, Source.report, hn, hr]
  · rw [if_neg h0]
    by_cases hz : n = 0
    · subst hz; simp [strSrc]
    · have hl : n < r.length := by omega
      have hr : r ≠ [] := by rintro rfl; simp at hl
      have hd : r.drop n ≠ [] := by
        intro hh; rw [List.drop_eq_nil_iff] at hh; omega
      simp [strSrc, hr, hd]

theorem consumeN_str_hang (r : Bytes) (n : Nat) (h : r.length < n) :
    (strSrc r).consumeN n = .error .hang := by
  unfold Source.consumeN
  have hc : (strSrc r).chunks + 2 = 2 := rfl
  rw [hc, consumeLoop]
  have hcur : (strSrc r).current = r := rfl
  rw [hcur, if_pos ⟨by omega, by omega⟩, consumeLoop]
  have h2 : (strSrc r).consume.current = [] := by
    simp only [strSrc, Source.consume, Source.report]
    split <;> rfl
  rw [h2, if_pos ⟨by omega, by simp⟩, consumeLoop]

theorem consume1_str (c : UInt8) (r : Bytes) : (strSrc (c :: r)).consume1 c = .ok (strSrc r) := by
  unfold Source.consume1
  have hcur : (strSrc (c :: r)).current = c :: r := rfl
  rw [hcur]
  show (if c ≠ c then _ else strSrc (c :: r)).consumeN 1 = _
  rw [if_neg (by simp), consumeN_str _ _ (by simp)]
  rfl

theorem peek1_str (c : UInt8) (r : Bytes) : (strSrc (c :: r)).peek1 = .ok c := rfl

theorem peekN_str (r : Bytes) (n : Nat) : ((strSrc r).peekN n).2 = strSrc r ∧
    ((strSrc r).peekN n).1.1 = r.take n := by
  unfold Source.peekN
  have hcur : (strSrc r).current = r := rfl
  have hrd : (strSrc r).reader = none := rfl
  rw [hcur, hrd]
  by_cases h : n ≤ r.length
  · rw [if_pos h]; exact ⟨rfl, rfl⟩
  · rw [if_neg h]
    refine ⟨rfl, ?_⟩
    show r = r.take n
    exact (List.take_of_length_le (by omega)).symm

theorem peekRune_str {r : Bytes} (h : r ≠ []) : (strSrc r).peekRune = (decodeRune r, strSrc r) := by
  obtain ⟨b, t, rfl⟩ : ∃ b t, r = b :: t := by cases r <;> simp_all
  unfold Source.peekRune
  have hcur : (strSrc (b :: t)).current = b :: t := rfl
  rw [hcur]
  show (if first b ≥ 0xF0 then _ else _) = _
  by_cases h1 : first b ≥ 0xF0
  · rw [if_pos h1]
  · rw [if_neg h1]
    have h2 := (first_need b).2 h1
    obtain ⟨h3, h4⟩ := peekN_str (b :: t) (first b &&& 7).toNat
    show (decodeRune ((strSrc (b :: t)).peekN (first b &&& 7).toNat).1.1,
      ((strSrc (b :: t)).peekN (first b &&& 7).toNat).2) = _
    rw [h3, h4, decode_take b t _ (by omega)]

theorem peekRune_str_nil : (strSrc []).peekRune = ((runeError, 1), strSrc []) := rfl

/-! ### Literals -/

theorem scanAny1_str (b1 : UInt8) (rest : Bytes) (hr : ∀ c ∈ rest.head?, c = b1) : ∀ (lit : Bytes) (i : Nat) (sp : Bytes),
    (∀ c ∈ lit, c ≠ b1) →
    scanAny1 b1 i sp (lit ++ rest) =
      if rest = [] then .more (sp ++ lit) else .stop (i + lit.length) (sp ++ lit) := by
  intro lit
  induction lit with
  | nil =>
    intro i sp _
    cases rest with
    | nil => simp [scanAny1]
    | cons c t =>
      have : c = b1 := hr c (by simp)
      simp [scanAny1, this]
  | cons c lit ih =>
    intro i sp h
    have hc : c ≠ b1 := h c (by simp)
    have := ih (i + 1) (sp ++ [c]) (fun x hx => h x (by simp [hx]))
    show (if c = b1 then _ else scanAny1 b1 (i + 1) (sp ++ [c]) (lit ++ rest)) = _
    rw [if_neg hc, this]
    simp only [List.append_assoc, List.singleton_append, List.length_cons]
    congr 2 <;> omega

theorem scanAny2_str (b1 b2 : UInt8) (rest : Bytes) (hr : ∀ c ∈ rest.head?, c = b1 ∨ c = b2) :
    ∀ (lit : Bytes) (i : Nat) (sp : Bytes), (∀ c ∈ lit, c ≠ b1 ∧ c ≠ b2) →
    scanAny2 b1 b2 i sp (lit ++ rest) =
      if rest = [] then .more (sp ++ lit) else .stop (i + lit.length) (sp ++ lit) := by
  intro lit
  induction lit with
  | nil =>
    intro i sp _
    cases rest with
    | nil => simp [scanAny2]
    | cons c t =>
      have : c = b1 ∨ c = b2 := hr c (by simp)
      simp [scanAny2, this]
  | cons c lit ih =>
    intro i sp h
    have hc : ¬ (c = b1 ∨ c = b2) := by have := h c (by simp); simp [this]
    have := ih (i + 1) (sp ++ [c]) (fun x hx => h x (by simp [hx]))
    show (if c = b1 ∨ c = b2 then _ else scanAny2 b1 b2 (i + 1) (sp ++ [c]) (lit ++ rest)) = _
    rw [if_neg hc, this]
    simp only [List.append_assoc, List.singleton_append, List.length_cons]
    congr 2 <;> omega

theorem chunkLoop_str (scan : Bytes → Bytes → Scan Bytes) (lit rest : Bytes)
    (hs : scan [] (lit ++ rest) = if rest = [] then .more lit else .stop lit.length lit) :
    chunkLoop scan [] 2 (strSrc (lit ++ rest)) [] = .ok (lit, strSrc rest) := by
  by_cases h0 : lit ++ rest = []
  · have h1 : lit = [] := by simp_all
    have h2 : rest = [] := by simp_all
    subst h1; subst h2; rfl
  · rw [chunkLoop, if_neg (by simp [strSrc_err h0])]
    have hcur : (strSrc (lit ++ rest)).current = lit ++ rest := rfl
    rw [hcur, hs]
    by_cases hr : rest = []
    · rw [if_pos hr]
      subst hr
      show chunkLoop scan [] 1 (strSrc (lit ++ [])).consume lit = _
      have h2 : (strSrc (lit ++ [])).consume = strSrc [] := by
        simp only [List.append_nil] at h0
        simp [strSrc, Source.consume, Source.report, h0]
      rw [h2]; rfl
    · rw [if_neg hr]
      show (match (strSrc (lit ++ rest)).consumeN lit.length with
        | .ok s' => Except.ok (lit, s') | .error f => .error f) = _
      rw [consumeN_str _ _ (by simp)]
      simp

theorem anyExcept1_str (b1 : UInt8) (lit rest : Bytes) (hl : ∀ c ∈ lit, c ≠ b1) (hr : ∀ c ∈ rest.head?, c = b1) :
    anyExcept1 (strSrc (lit ++ rest)) [] b1 = .ok (lit, strSrc rest) := by
  unfold anyExcept1
  have hc : (strSrc (lit ++ rest)).chunks + 2 = 2 := rfl
  rw [hc]
  exact chunkLoop_str _ lit rest (by simpa using scanAny1_str b1 rest hr lit 0 [] hl)

theorem anyExcept2_str (b1 b2 : UInt8) (lit rest : Bytes) (hl : ∀ c ∈ lit, c ≠ b1 ∧ c ≠ b2)
    (hr : ∀ c ∈ rest.head?, c = b1 ∨ c = b2) :
    anyExcept2 (strSrc (lit ++ rest)) [] b1 b2 = .ok (lit, strSrc rest) := by
  unfold anyExcept2
  have hc : (strSrc (lit ++ rest)).chunks + 2 = 2 := rfl
  rw [hc]
  exact chunkLoop_str _ lit rest (by simpa using scanAny2_str b1 b2 rest hr lit 0 [] hl)

/-! ### White space -/

theorem isSpaceRune_white {n : Nat} (h : white n) : isSpaceRune n = true := by
  unfold white at h
  simp only [isSpaceRune, Bool.or_eq_true, Bool.and_eq_true, decide_eq_true_eq, beq_iff_eq]
  omega

theorem white_scalar {n : Nat} (h : white n) : isScalar n = true := by
  unfold white at h
  simp only [isScalar, Bool.or_eq_true, Bool.and_eq_true, decide_eq_true_eq]
  omega

theorem pattern_ends {n : Nat} (h : whiteEnds n) : patternWhiteSpace n = true := by
  unfold whiteEnds at h
  simp only [patternWhiteSpace, Bool.or_eq_true, Bool.and_eq_true, decide_eq_true_eq, beq_iff_eq]
  omega

theorem spaceByte_lt {b : UInt8} (h : spaceByte b) : b.toNat < 0x80 := by
  rcases h with h | ⟨_, h⟩ <;> omega

/-- The remaining input does not go on with white space. -/
def noSpaceAhead (rest : Bytes) : Prop := rest = [] ∨ isSpaceRune (decodeRune rest).1 = false

theorem flatMap_length (rs : List Nat) : rs.length ≤ (rs.flatMap utf8Encode).length := by
  induction rs with
  | nil => simp
  | cons n rs ih =>
    have := (encode_length n).1
    simp only [List.flatMap_cons, List.length_append, List.length_cons]; omega

theorem encode_ne_nil (n : Nat) (t : Bytes) : utf8Encode n ++ t ≠ [] := by
  have := (encode_length n).1
  intro hh
  rw [List.append_eq_nil_iff] at hh
  rw [hh.1] at this; simp at this

theorem skipLoop_str (rest : Bytes) (hr : noSpaceAhead rest) : ∀ (rs : List Nat) (fuel count : Nat),
    (∀ n ∈ rs, white n) → rs.length < fuel →
    ∃ k, skipUniSpaceLoop isSpaceRune fuel (strSrc (rs.flatMap utf8Encode ++ rest)) count = .ok (k, strSrc rest) := by
  intro rs
  induction rs with
  | nil =>
    intro fuel count _ hf
    obtain ⟨f, rfl⟩ : ∃ f, fuel = f + 1 := ⟨fuel - 1, by simp at hf; omega⟩
    rw [List.flatMap_nil, List.nil_append, skipUniSpaceLoop]
    by_cases h0 : rest = []
    · subst h0; exact ⟨_, rfl⟩
    · rw [if_neg (by simp [strSrc_err h0]), peekRune_str h0]
      rcases hr with hr | hr
      · exact absurd hr h0
      · refine ⟨count, ?_⟩
        show (if isSpaceRune (decodeRune rest).1 then _ else _) = _
        rw [if_neg (by simp [hr])]
  | cons n rs ih =>
    intro fuel count h hf
    obtain ⟨f, rfl⟩ : ∃ f, fuel = f + 1 := ⟨fuel - 1, by simp at hf; omega⟩
    have hn := h n (by simp)
    have hne := encode_ne_nil n (rs.flatMap utf8Encode ++ rest)
    rw [List.flatMap_cons, List.append_assoc, skipUniSpaceLoop, if_neg (by simp [strSrc_err hne]), peekRune_str hne,
      decode_encode n (white_scalar hn)]
    obtain ⟨k, hk⟩ := ih f (count + (utf8Encode n).length) (fun x hx => h x (by simp [hx])) (by simp at hf; omega)
    refine ⟨k, ?_⟩
    simp only [isSpaceRune_white hn, if_true]
    rw [consumeN_str _ _ (by simp), List.drop_left]
    exact hk

theorem skip_str (sp rest : Bytes) (hs : Blank sp) (hr : noSpaceAhead rest) :
    ∃ k, skipUnicodeSpace (strSrc (sp ++ rest)) isSpaceRune = .ok (k, strSrc rest) := by
  obtain ⟨rs, h, rfl⟩ := hs
  unfold skipUnicodeSpace
  apply skipLoop_str rest hr rs _ 0 h
  rw [strSrc_bytesLeft, List.length_append]
  have := flatMap_length rs
  omega

theorem noSpace_byte (c : UInt8) (t : Bytes) (h : c.toNat < 0x80) (hs : ¬ spaceByte c) : noSpaceAhead (c :: t) := by
  right
  rw [decode_1 _ _ h]
  unfold spaceByte at hs
  simp [isSpaceRune]
  omega

/-! ### Identifiers -/

/-- The remaining input goes on with something that ends a name. -/
def sepAhead (r : Bytes) : Prop :=
  r ≠ [] ∧ (patternWhiteSpace (decodeRune r).1 = true ∨ patternSyntax (decodeRune r).1 = true)

theorem idLoop_str (r : Bytes) (hr : sepAhead r) : ∀ (rs : List Nat) (fuel : Nat) (sp : List Nat),
    (∀ n ∈ rs, idRune n) → rs.length < fuel →
    unicodeRangesLoop [] [patternWhiteSpace, patternSyntax] fuel (strSrc (rs.flatMap utf8Encode ++ r)) sp =
      .ok (sp ++ rs, strSrc (r)) := by
  intro rs
  induction rs with
  | nil =>
    intro fuel sp _ hf
    obtain ⟨f, rfl⟩ : ∃ f, fuel = f + 1 := ⟨fuel - 1, by simp at hf; omega⟩
    show unicodeRangesLoop [] [patternWhiteSpace, patternSyntax] (f + 1) (strSrc r) sp = _
    rw [unicodeRangesLoop, peekRune_str hr.1]
    show (if ([patternWhiteSpace, patternSyntax].any fun t => t (decodeRune r).1) then _ else _) = _
    rw [if_pos (by simpa using hr.2)]
    simp
  | cons n rs ih =>
    intro fuel sp h hf
    obtain ⟨f, rfl⟩ : ∃ f, fuel = f + 1 := ⟨fuel - 1, by simp at hf; omega⟩
    obtain ⟨h1, h2, h3⟩ := h n (by simp)
    have hne : utf8Encode n ++ (rs.flatMap utf8Encode ++ r) ≠ [] := by
      have := (encode_length n).1
      intro hh
      rw [List.append_eq_nil_iff] at hh
      rw [hh.1] at this; simp at this
    rw [List.flatMap_cons, List.append_assoc, unicodeRangesLoop, peekRune_str hne, decode_encode n h1]
    show (if ([patternWhiteSpace, patternSyntax].any fun t => t n) then _ else _) = _
    rw [if_neg (by simp [h2, h3]), if_pos (by rfl)]
    show (match (strSrc (utf8Encode n ++ (rs.flatMap utf8Encode ++ r))).consumeN (utf8Encode n).length with
      | .error f => Except.error f
      | .ok s' => unicodeRangesLoop [] [patternWhiteSpace, patternSyntax] f s' (sp ++ [n])) = _
    rw [consumeN_str _ _ (by simp), List.drop_left]
    show unicodeRangesLoop [] [patternWhiteSpace, patternSyntax] f _ (sp ++ [n]) = _
    rw [ih f _ (fun x hx => h x (by simp [hx])) (by simp at hf; omega)]
    simp

theorem id_str (r : Bytes) (hr : sepAhead r) (rs : List Nat)
    (h : ∀ n ∈ rs, idRune n) :
    unicodeRanges (strSrc (rs.flatMap utf8Encode ++ r)) [] [] [patternWhiteSpace, patternSyntax] =
      .ok (rs, strSrc (r)) := by
  unfold unicodeRanges
  have := flatMap_length rs
  rw [idLoop_str r hr rs _ [] h (by rw [strSrc_bytesLeft, List.length_append]; omega)]
  simp

/-- A name that runs to the end of the format is never read to its end: past the end the
replacement character is seen, which is in neither table, and consuming it never ends. -/
theorem idLoop_hang : ∀ (rs : List Nat) (fuel : Nat) (sp : List Nat), (∀ n ∈ rs, idRune n) →
    unicodeRangesLoop [] [patternWhiteSpace, patternSyntax] fuel (strSrc (rs.flatMap utf8Encode)) sp =
      .error .hang := by
  intro rs
  induction rs with
  | nil =>
    intro fuel sp _
    cases fuel with
    | zero => rfl
    | succ f =>
      show unicodeRangesLoop [] [patternWhiteSpace, patternSyntax] (f + 1) (strSrc []) sp = _
      rw [unicodeRangesLoop, peekRune_str_nil]
      show (if ([patternWhiteSpace, patternSyntax].any fun t => t runeError) then _ else _) = _
      rw [if_neg (by decide), if_pos (by rfl)]
      show (match (strSrc []).consumeN 1 with
        | .error f => Except.error f
        | .ok s' => unicodeRangesLoop [] [patternWhiteSpace, patternSyntax] f s' (sp ++ [runeError])) = _
      rw [consumeN_str_hang _ _ (by simp)]
  | cons n rs ih =>
    intro fuel sp h
    cases fuel with
    | zero => rfl
    | succ f =>
      obtain ⟨h1, h2, h3⟩ := h n (by simp)
      have hne : utf8Encode n ++ rs.flatMap utf8Encode ≠ [] := by
        have := (encode_length n).1
        intro hh
        rw [List.append_eq_nil_iff] at hh
        rw [hh.1] at this; simp at this
      rw [List.flatMap_cons, unicodeRangesLoop, peekRune_str hne, decode_encode n h1]
      show (if ([patternWhiteSpace, patternSyntax].any fun t => t n) then _ else _) = _
      rw [if_neg (by simp [h2, h3]), if_pos (by rfl)]
      show (match (strSrc (utf8Encode n ++ rs.flatMap utf8Encode)).consumeN (utf8Encode n).length with
        | .error f => Except.error f
        | .ok s' => unicodeRangesLoop [] [patternWhiteSpace, patternSyntax] f s' (sp ++ [n])) = _
      rw [consumeN_str _ _ (by simp), List.drop_left]
      exact ih f _ (fun x hx => h x (by simp [hx]))

end Verif.Msgfmt
