import Verif.Spew.Ends

/-!
# go-spew: hex dumps show every byte

`hex.Dump` as indented at /repo/test/go-spew/spew/dump.go 224-231.
-/

namespace Verif.Spew

/-! ## Specification -/

/-- The usual indents: blanks and tabs. -/
def Blank (ind : Bytes) : Prop := ∀ c ∈ ind, c = 32 ∨ c = 9

/-- The rows of a hex dump, each behind an indent; `k` bounds the rows. -/
def indentedRows (ind : Bytes) : Nat → Nat → Bytes → Bytes
  | 0, _, _ => []
  | _, _, [] => []
  | k + 1, off, s => ind ++ dumpLine off (s.take 16) ++ indentedRows ind k (off + 16) (s.drop 16)

/-! ## Proofs -/

theorem Blank.no_lf {ind : Bytes} (h : Blank ind) : 10 ∉ ind := by
  intro hc
  rcases h 10 hc with h | h <;> exact absurd h (by decide)

theorem Blank.rep {ind : Bytes} (h : Blank ind) (n : Nat) : Blank (rep ind n) := by
  intro c hc
  simp only [Spew.rep, List.mem_flatten] at hc
  obtain ⟨l, hl, hc⟩ := hc
  rw [List.eq_of_mem_replicate hl] at hc
  exact h c hc

theorem rep_subset {ind : Bytes} {n : Nat} : ∀ c ∈ rep ind n, c ∈ ind := by
  intro c hc
  simp only [Spew.rep, List.mem_flatten] at hc
  obtain ⟨l, hl, hc⟩ := hc
  rw [List.eq_of_mem_replicate hl] at hc
  exact hc

theorem hexDigit_ne_lf : ∀ n < 16, hexDigit n ≠ 10 := by decide

theorem hexByte_no_lf (b : UInt8) : 10 ∉ hexByte b := by
  have h1 := hexDigit_ne_lf (b.toNat / 16) (by have := b.toNat_lt; omega)
  have h2 := hexDigit_ne_lf (b.toNat % 16) (by omega)
  simp only [hexByte, List.mem_cons, List.not_mem_nil, or_false, not_or]
  exact ⟨fun h => h1 h.symm, fun h => h2 h.symm⟩

theorem gap_no_lf (i : Nat) : (10 : UInt8) ∉ (if i = 7 ∨ i = 15 then asc " " else []) := by
  split <;> decide

theorem columns_no_lf : ∀ (k i : Nat) (s : Bytes), 10 ∉ columns k i s := by
  intro k
  induction k with
  | zero => intro i s; simp [columns]
  | succ k ih =>
    intro i s
    cases s with
    | nil =>
      simp only [columns, List.mem_append, not_or]
      exact ⟨⟨by decide, gap_no_lf i⟩, ih _ _⟩
    | cons b s =>
      simp only [columns, List.mem_append, not_or]
      exact ⟨⟨⟨hexByte_no_lf b, by decide⟩, gap_no_lf i⟩, ih _ _⟩

theorem toChar_ne_lf (b : UInt8) : toChar b ≠ 10 := by
  unfold toChar
  split
  · decide
  · rename_i h
    intro hb
    rw [hb] at h
    exact h (by decide)

theorem offset_no_lf (n : Nat) : 10 ∉ offset n := by
  simp only [offset, List.mem_flatMap, not_exists, not_and]
  exact fun b _ => hexByte_no_lf _

/-- A line of a hex dump is one line. -/
theorem dumpLine_line (off : Nat) (row : Bytes) : ∃ l, dumpLine off row = l ++ [10] ∧ 10 ∉ l := by
  refine ⟨offset off ++ asc "  " ++ columns 16 0 row ++ asc "|" ++ row.map toChar ++ asc "|", ?_, ?_⟩
  · simp [dumpLine, asc]
  · simp only [List.mem_append, not_or, List.mem_map, not_exists, not_and]
    exact ⟨⟨⟨⟨⟨offset_no_lf off, by decide⟩, columns_no_lf _ _ _⟩, by decide⟩, fun b _ => toChar_ne_lf b⟩, by decide⟩

theorem afterLines_no_lf {ind s : Bytes} (h : 10 ∉ s) : afterLines ind s = s := by
  induction s with
  | nil => rfl
  | cons c s ih =>
    simp only [List.mem_cons, not_or] at h
    simp only [afterLines, List.flatMap_cons] at ih ⊢
    rw [if_neg (fun hc => h.1 hc.symm), ih h.2]
    rfl

theorem afterLines_append (ind s t : Bytes) : afterLines ind (s ++ t) = afterLines ind s ++ afterLines ind t := by
  simp [afterLines]

theorem afterLines_dumpLine (ind : Bytes) (off : Nat) (row : Bytes) :
    afterLines ind (dumpLine off row) = dumpLine off row ++ ind := by
  obtain ⟨l, hl, hn⟩ := dumpLine_line off row
  rw [hl, afterLines_append, afterLines_no_lf hn]
  simp [afterLines]

theorem afterLines_rows (ind : Bytes) : ∀ (k off : Nat) (s : Bytes),
    ind ++ afterLines ind (dumpRows k off s) = indentedRows ind k off s ++ ind := by
  intro k
  induction k with
  | zero => intro off s; simp [dumpRows, indentedRows, afterLines]
  | succ k ih =>
    intro off s
    cases s with
    | nil => simp [dumpRows, indentedRows, afterLines]
    | cons c s =>
      rw [dumpRows, indentedRows, afterLines_append, afterLines_dumpLine]
      · simp only [List.append_assoc]
        rw [← ih]
      · simp
      · simp

theorem rows_end (ind : Bytes) : ∀ (k off : Nat) (s : Bytes), s ≠ [] → k ≠ 0 → ∃ l, indentedRows ind k off s = l ++ [10] := by
  intro k
  induction k with
  | zero => intro off s _ h; exact absurd rfl h
  | succ k ih =>
    intro off s hs _
    obtain ⟨c, s, rfl⟩ := List.exists_cons_of_ne_nil hs
    rw [indentedRows]
    · by_cases hz : (c :: s).drop 16 = [] ∨ k = 0
      · obtain ⟨l, hl, -⟩ := dumpLine_line off ((c :: s).take 16)
        refine ⟨ind ++ l, ?_⟩
        have : indentedRows ind k (off + 16) ((c :: s).drop 16) = [] := by
          rcases hz with hz | hz
          · rw [hz]; cases k <;> rfl
          · rw [hz]; rfl
        rw [this, hl]; simp
      · have hz := not_or.1 hz
        obtain ⟨l, hl⟩ := ih (off + 16) _ hz.1 hz.2
        exact ⟨ind ++ dumpLine off ((c :: s).take 16) ++ l, by rw [hl]; simp⟩
    · simp

theorem trimRight_end {cut l ind : Bytes} (h : ∀ c ∈ ind, c ∈ cut) (hc : 10 ∉ cut) :
    trimRight cut (l ++ [10] ++ ind) = l ++ [10] := by
  unfold trimRight
  rw [List.reverse_append]
  have : ∀ (x y : Bytes), (∀ c ∈ x, c ∈ cut) → (x ++ 10 :: y).dropWhile (cut.contains ·) = 10 :: y := by
    intro x y hx
    induction x with
    | nil => simp [hc]
    | cons c x ih =>
      have := hx c (by simp)
      simp only [List.cons_append]
      rw [List.dropWhile_cons_of_pos (by simpa using this)]
      exact ih fun d hd => hx d (by simp [hd])
  have e : (l ++ [10]).reverse = 10 :: l.reverse := by simp
  rw [e, this _ _ (fun c hc => h c (by simpa using hc))]
  simp

/-- **C105**: the hex dump of bytes is the lines of `hex.Dump`, each behind the indent, and nothing is lost by
trimming. -/
theorem blobText_rows {E : Env} (h : Blank E.indent) (D : Nat) (b : Bytes) :
    blobText E D b = indentedRows (rep E.indent D) b.length 0 b := by
  unfold blobText
  split
  · rename_i hb; subst hb; rfl
  · rename_i hb
    rw [afterLines_append, afterLines_no_lf (h.rep D).no_lf]
    unfold hexDump
    rw [afterLines_rows]
    obtain ⟨l, hl⟩ := rows_end (rep E.indent D) b.length 0 b hb (by
      intro hz; exact hb (List.eq_nil_of_length_eq_zero hz))
    rw [hl]
    exact trimRight_end rep_subset h.no_lf

/-! ### Reading a hex dump back -/

theorem hexByte_value (acc n : Nat) (h : n < 256) (t : Bytes) : hexValue acc (hexByte (UInt8.ofNat n) ++ t) = hexValue (acc * 256 + n) t := by
  have e : (UInt8.ofNat n).toNat = n := by simp [UInt8.toNat_ofNat']; omega
  simp only [hexByte, e, List.cons_append, List.nil_append, hexValue, hexDigit_value (show n / 16 < 16 by omega), hexDigit_value (show n % 16 < 16 by omega)]
  congr 1; omega

/-- **C105**: each line of the dump begins with eight digits that say in hexadecimal how many bytes come before it, as long as these are fewer than four gigabytes. -/
theorem line_offset (off : Nat) (row : Bytes) (h : off < 4294967296) :
    ∃ ds rest, dumpLine off row = ds ++ asc "  " ++ rest ∧ ds.length = 8 ∧ hexValue 0 ds = some off := by
  refine ⟨offset off, columns 16 0 row ++ asc "|" ++ row.map toChar ++ asc "|\n", by simp [dumpLine, List.append_assoc], rfl, ?_⟩
  simp only [offset, List.flatMap_cons, List.flatMap_nil]
  rw [hexByte_value _ _ (by omega), hexByte_value _ _ (by omega), hexByte_value _ _ (by omega), hexByte_value _ _ (by omega)]
  simp only [hexValue, Option.some.injEq]
  omega

example : dumpLine 0xabcdef12 [0] = asc "abcdef12  00                                                |.|\n" := by decide +kernel

theorem hexDigit_inj : ∀ m < 16, ∀ n < 16, hexDigit m = hexDigit n → m = n := by decide

theorem hexByte_inj {a b : UInt8} (h : hexByte a = hexByte b) : a = b := by
  have ha := a.toNat_lt
  have hb := b.toNat_lt
  simp only [hexByte, List.cons.injEq, and_true] at h
  have h1 := hexDigit_inj _ (by omega) _ (by omega) h.1
  have h2 := hexDigit_inj _ (by omega) _ (by omega) h.2
  apply UInt8.toNat_inj.1
  omega

theorem columns_inj : ∀ (k i : Nat) (s t x y : Bytes), s.length = t.length → s.length ≤ k →
    columns k i s ++ x = columns k i t ++ y → s = t ∧ x = y := by
  intro k
  induction k with
  | zero =>
    intro i s t x y h1 h2 h
    have hs : s = [] := List.eq_nil_of_length_eq_zero (by omega)
    have ht : t = [] := List.eq_nil_of_length_eq_zero (by omega)
    subst hs; subst ht
    exact ⟨rfl, by simpa [columns] using h⟩
  | succ k ih =>
    intro i s t x y h1 h2 h
    cases s with
    | nil =>
      have ht : t = [] := List.eq_nil_of_length_eq_zero (by simpa using h1.symm)
      subst ht
      exact ⟨rfl, by simpa using h⟩
    | cons a s =>
      cases t with
      | nil => simp at h1
      | cons b t =>
        simp only [columns, List.append_assoc] at h
        have hlen : (hexByte a).length = (hexByte b).length := rfl
        obtain ⟨e1, e2⟩ := List.append_inj h hlen
        have hab := hexByte_inj e1
        have e3 := List.append_cancel_left (List.append_cancel_left e2)
        obtain ⟨e4, e5⟩ := ih (i + 1) s t x y (by simpa using h1) (by simpa using h2) e3
        exact ⟨by rw [hab, e4], e5⟩

theorem dumpLine_inj {off : Nat} {s t x y : Bytes} (h1 : s.length = t.length) (h2 : s.length ≤ 16)
    (h : dumpLine off s ++ x = dumpLine off t ++ y) : s = t ∧ x = y := by
  simp only [dumpLine, List.append_assoc] at h
  have h := List.append_cancel_left (List.append_cancel_left h)
  obtain ⟨rfl, h⟩ := columns_inj 16 0 s t _ _ h1 h2 h
  exact ⟨rfl, List.append_cancel_left (List.append_cancel_left (List.append_cancel_left h))⟩

theorem indentedRows_inj (ind : Bytes) : ∀ (k off : Nat) (s t x y : Bytes), s.length = t.length → s.length ≤ k →
    indentedRows ind k off s ++ x = indentedRows ind k off t ++ y → s = t ∧ x = y := by
  intro k
  induction k with
  | zero =>
    intro off s t x y h1 h2 h
    have hs : s = [] := List.eq_nil_of_length_eq_zero (by omega)
    have ht : t = [] := List.eq_nil_of_length_eq_zero (by omega)
    subst hs; subst ht
    exact ⟨rfl, by simpa [indentedRows] using h⟩
  | succ k ih =>
    intro off s t x y h1 h2 h
    cases s with
    | nil =>
      have ht : t = [] := List.eq_nil_of_length_eq_zero (by simpa using h1.symm)
      subst ht
      exact ⟨rfl, by simpa using h⟩
    | cons a s =>
      cases t with
      | nil => simp at h1
      | cons b t =>
        rw [indentedRows, indentedRows] at h
        · simp only [List.append_assoc] at h
          have h := List.append_cancel_left h
          obtain ⟨e1, e2⟩ := dumpLine_inj (by simp only [List.length_take]; rw [h1])
            (by simp only [List.length_take]; omega) h
          obtain ⟨e3, e4⟩ := ih (off + 16) _ _ x y (by simp only [List.length_drop]; rw [h1])
            (by simp only [List.length_drop, List.length_cons] at h2 ⊢; omega) e2
          refine ⟨?_, e4⟩
          rw [← List.take_append_drop 16 (a :: s), e1, e3, List.take_append_drop]
        · simp
        · simp

/-- **C105**: the hex dump shows every byte: two dumps of the same length at the same depth agree only if the
bytes do, whatever follows. -/
theorem blobText_inj {E : Env} (hi : Blank E.indent) {D : Nat} {s t x y : Bytes} (h1 : s.length = t.length)
    (h : blobText E D s ++ x = blobText E D t ++ y) : s = t ∧ x = y := by
  rw [blobText_rows hi, blobText_rows hi, ← h1] at h
  exact indentedRows_inj _ _ _ _ _ _ _ h1 (Nat.le_refl _) h

/-- Seventeen bytes, hence two lines, at depth 1; the last byte of the first line is a space. -/
example : Blank (asc " ") ∧
    blobText (Env.sample (fun _ => .invalid) (fun _ => []) (fun _ => [])) 1 (asc "abcdefghijklmno p") =
      asc " 00000000  61 62 63 64 65 66 67 68  69 6a 6b 6c 6d 6e 6f 20  |abcdefghijklmno |\n 00000010  70                                                |p|\n" := by
  refine ⟨?_, by decide +kernel⟩
  simp [Blank, asc]

end Verif.Spew
