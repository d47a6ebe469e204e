import Verif.Basic

/-!
# C60: the failed statement shown when a check fails

Model of test/report.go.
-/

namespace Verif.Report

/-! ### Model -/

/-- `bytes.Split(content, "\n")` of the standard library as called at test/report.go 17: one part more than there are
newlines. -/
def split : Bytes → List Bytes
  | [] => [[]]
  | c :: cs =>
    if c = 10 then [] :: split cs
    else match split cs with
      | [] => [[c]]
      | l :: ls => (c :: l) :: ls

/-- The loop of `ExtractFailedLines`, test/report.go 23-30.  `trim` is `bytes.TrimSpace` of the standard library. -/
def loop (trim : Bytes → Bytes) : List Bytes → Int → Bytes → Bytes
  | [], _, report => report
  | l :: ls, openBraces, report =>
    let report := report ++ trim l
    let openBraces := openBraces + l.count 40 - l.count 41
    if openBraces = 0 then report else loop trim ls openBraces report

/-- `ExtractFailedLines`, test/report.go 11-32; `none` stands for a file that cannot be read. -/
def extractFailedLines (trim : Bytes → Bytes) (file : Option Bytes) (line : Int) : Bytes :=
  match file with
  | none => asc "check failed"
  | some content =>
    let line := line - 1
    let lines := split content
    if line < 0 ∨ line ≥ lines.length then asc "check failed"
    else loop trim (lines.drop line.toNat) 0 (asc "failed: ")

/-! ### Specification -/

/-- The lines of a text: joined by newlines they give it, and none of them has a newline in it. -/
def LinesOf (text : Bytes) (lines : List Bytes) : Prop :=
  lines ≠ [] ∧ List.intercalate [10] lines = text ∧ ∀ l ∈ lines, (10 : UInt8) ∉ l

/-- As many parentheses are closed as are opened. -/
def Balanced (lines : List Bytes) : Prop := lines.flatten.count 40 = lines.flatten.count 41

/-! ### Proofs -/

theorem split_ne (text : Bytes) : split text ≠ [] := by
  cases text with
  | nil => simp [split]
  | cons c cs =>
    simp only [split]
    split
    · simp
    · split <;> simp

theorem split_lines (text : Bytes) : LinesOf text (split text) := by
  refine ⟨split_ne text, ?_⟩
  induction text with
  | nil => simp [split, List.intercalate]
  | cons c cs ih =>
    simp only [split]
    split
    · rename_i hc
      subst hc
      obtain ⟨ih1, ih2⟩ := ih
      refine ⟨?_, ?_⟩
      · cases h : split cs with
        | nil => exact absurd h (split_ne cs)
        | cons l ls => rw [h] at ih1; rw [← ih1]; rfl
      · intro l hl
        rcases List.mem_cons.mp hl with rfl | hl
        · simp
        · exact ih2 l hl
    · rename_i hc
      obtain ⟨ih1, ih2⟩ := ih
      cases h : split cs with
      | nil => exact absurd h (split_ne cs)
      | cons l ls =>
        rw [h] at ih1 ih2
        refine ⟨?_, ?_⟩
        · rw [← ih1]; cases ls <;> rfl
        · intro x hx
          rcases List.mem_cons.mp hx with rfl | hx
          · intro hm
            rcases List.mem_cons.mp hm with hm | hm
            · exact hc hm.symm
            · exact ih2 l (by simp) hm
          · exact ih2 x (by simp [hx])

theorem loop_spec (trim : Bytes → Bytes) (ls : List Bytes) (hne : ls ≠ []) (o : Int) (rep : Bytes) :
    ∃ k, 0 < k ∧ k ≤ ls.length ∧ loop trim ls o rep = rep ++ (ls.take k).flatMap trim ∧
      (∀ j, 0 < j → j < k → o + (ls.take j).flatten.count 40 - (ls.take j).flatten.count 41 ≠ 0) ∧
      (o + (ls.take k).flatten.count 40 - (ls.take k).flatten.count 41 = 0 ∨ k = ls.length) := by
  induction ls generalizing o rep with
  | nil => exact absurd rfl hne
  | cons l ls ih =>
    simp only [loop]
    split
    · rename_i h
      refine ⟨1, by omega, by simp, by simp, by intro j; omega, .inl (by simpa using h)⟩
    · rename_i h
      by_cases hls : ls = []
      · subst hls
        refine ⟨1, by omega, by simp, by simp [loop], by intro j; omega, .inr (by simp)⟩
      · obtain ⟨k, hk0, hk, hr, hj, he⟩ := ih hls (o + l.count 40 - l.count 41) (rep ++ trim l)
        refine ⟨k + 1, by omega, by simpa using hk, by simp [hr], ?_, ?_⟩
        · intro j hj0 hjk
          obtain ⟨i, rfl⟩ : ∃ i, j = i + 1 := ⟨j - 1, by omega⟩
          by_cases hi : i = 0
          · subst hi; simpa using h
          · have := hj i (by omega) (by omega)
            simp only [List.take_succ_cons, List.flatten_cons, List.count_append, Int.natCast_add]
            omega
        · rcases he with he | he
          · left
            simp only [List.take_succ_cons, List.flatten_cons, List.count_append, Int.natCast_add]
            omega
          · right; simp [he]

/-- The lines of a text are determined by it. -/
theorem lines_unique (text : Bytes) (ls : List Bytes) (h : LinesOf text ls) : ls = split text := by
  obtain ⟨hne, hj, hm⟩ := h
  induction ls generalizing text with
  | nil => exact absurd rfl hne
  | cons l ls ih =>
    induction l generalizing text with
    | nil =>
      cases ls with
      | nil => simp [List.intercalate] at hj; subst hj; simp [split]
      | cons l2 ls =>
        have : text = 10 :: List.intercalate [10] (l2 :: ls) := by rw [← hj]; rfl
        subst this
        simp only [split, if_true]
        rw [← ih _ (by simp) rfl (fun l hl => hm l (by simp [hl]))]
    | cons c l ihl =>
      have ht : text = c :: List.intercalate [10] (l :: ls) := by rw [← hj]; cases ls <;> rfl
      have hc : c ≠ 10 := by
        intro h; subst h; exact hm _ (List.mem_cons_self ..) (by simp)
      subst ht
      simp only [split, if_neg hc]
      rw [← ihl _ (by simp) rfl (by
        intro x hx
        rcases List.mem_cons.mp hx with rfl | hx
        · intro h; exact hm _ (List.mem_cons_self ..) (by simp [h])
        · exact hm x (by simp [hx]))]

/-- C60: the report has the trimmed lines from the given one to the first line at which the parentheses are balanced, or to
the end of the file. -/
theorem report (trim : Bytes → Bytes) (content : Bytes) (lines : List Bytes) (hl : LinesOf content lines)
    (line : Nat) (hline : line < lines.length) :
      ∃ k, 0 < k ∧ line + k ≤ lines.length ∧
        extractFailedLines trim (some content) (line + 1) =
          asc "failed: " ++ ((lines.drop line).take k).flatMap trim ∧
        (∀ j, 0 < j → j < k → ¬ Balanced ((lines.drop line).take j)) ∧
        (Balanced ((lines.drop line).take k) ∨ line + k = lines.length) := by
  obtain rfl := lines_unique content lines hl
  obtain ⟨k, hk0, hk, hr, hj, he⟩ := loop_spec trim ((split content).drop line)
    (by intro h; rw [List.drop_eq_nil_iff] at h; omega) 0 (asc "failed: ")
  rw [List.length_drop] at hk he
  refine ⟨k, hk0, by omega, ?_, ?_, ?_⟩
  · simp only [extractFailedLines]
    rw [if_neg (by omega), show ((line : Int) + 1 - 1).toNat = line by omega]
    exact hr
  · intro j h0 h1 hb
    exact hj j h0 h1 (by unfold Balanced at hb; omega)
  · rcases he with he | he
    · left; unfold Balanced; omega
    · right; omega

/-- C60: a line that is not in the file, or a file that cannot be read, gives the generic text. -/
theorem out_of_range (trim : Bytes → Bytes) (content : Bytes) (lines : List Bytes) (hl : LinesOf content lines)
    (line : Int) :
    extractFailedLines trim none line = asc "check failed" ∧
    (line ≤ 0 ∨ line > lines.length → extractFailedLines trim (some content) line = asc "check failed") := by
  refine ⟨rfl, fun h => ?_⟩
  obtain rfl := lines_unique content lines hl
  simp only [extractFailedLines]
  rw [if_pos (by omega)]

/-! ### Cases -/

/-- Blanks and tabs around a line. -/
def trimBlanks (l : Bytes) : Bytes :=
  ((l.dropWhile (fun c => c = 32 ∨ c = 9)).reverse.dropWhile (fun c => c = 32 ∨ c = 9)).reverse

/-- A call over three lines, from its first line. -/
example : extractFailedLines trimBlanks (some (asc "x := 1\n\tmust.Equal(1,\n\t\tf(\n\t\t2))\n}")) 2 =
    asc "failed: must.Equal(1,f(2))" := by decide

/-- The parentheses are never balanced: all lines to the end of the file. -/
example : extractFailedLines trimBlanks (some (asc "f(\n b")) 1 = asc "failed: f(b" := by decide

/-- A line after the last one. -/
example : extractFailedLines trimBlanks (some (asc "a\nb")) 3 = asc "check failed" := by decide

example : LinesOf (asc "a\nb") [asc "a", asc "b"] := ⟨by decide, by decide, by decide⟩

end Verif.Report
