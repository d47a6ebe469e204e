import Verif.Spew.Blob

/-!
# The columns of a hex dump

Where the bytes stand in the lines of a hex dump (`hex.Dump`, test/go-spew/spew/dump.go 229), for the claim on blobs.
-/

namespace Verif.Spew

theorem hexByte_length (b : UInt8) : (hexByte b).length = 2 := rfl

theorem columns_length : ∀ (k i : Nat) (s : Bytes), i + k = 16 →
    (columns k i s).length = 3 * k + (if i ≤ 7 then 2 else if i ≤ 15 then 1 else 0) := by
  intro k
  induction k with
  | zero => intro i s h; simp only [columns, List.length_nil]; rw [if_neg (by omega), if_neg (by omega)]
  | succ k ih =>
    intro i s h
    have hg : (if i = 7 ∨ i = 15 then asc " " else []).length = if i = 7 ∨ i = 15 then 1 else 0 := by split <;> rfl
    have key : (if i = 7 ∨ i = 15 then 1 else 0) + (if i + 1 ≤ 7 then 2 else if i + 1 ≤ 15 then 1 else 0) =
        (if i ≤ 7 then 2 else if i ≤ 15 then 1 else 0) := by
      have h16 : i ≤ 15 := by omega
      clear hg ih h
      revert i
      decide
    have h3 : (asc "   ").length = 3 := rfl
    have h1 : (asc " ").length = 1 := rfl
    cases s with
    | nil =>
      simp only [columns, List.length_append, ih (i + 1) [] (by omega), hg, h3]
      omega
    | cons b s =>
      simp only [columns, List.length_append, ih (i + 1) s (by omega), hg, h1, hexByte_length]
      omega

theorem drop_length_append {α : Type} (a b : List α) (n m : Nat) (h : a.length = n) : (a ++ b).drop (n + m) = b.drop m := by
  subst h
  rw [List.drop_append, List.drop_of_length_le (Nat.le_add_right _ _), List.nil_append, Nat.add_sub_cancel_left]

theorem columns_at : ∀ (k i : Nat) (s : Bytes) (j : Nat) (b : UInt8), i + k = 16 → s[j]? = some b → j < k →
    ∃ rest, (columns k i s).drop (3 * j + if i ≤ 7 ∧ 7 < i + j then 1 else 0) = hexByte b ++ 32 :: rest := by
  intro k
  induction k with
  | zero => intro i s j b _ _ hj; omega
  | succ k ih =>
    intro i s j b h hb hj
    cases s with
    | nil => simp at hb
    | cons c s =>
      rw [columns]
      cases j with
      | zero =>
        simp only [List.getElem?_cons_zero, Option.some.injEq] at hb
        subst hb
        rw [if_neg (by omega)]
        refine ⟨(if i = 7 ∨ i = 15 then asc " " else []) ++ columns k (i + 1) s, ?_⟩
        simp [asc]
      | succ j =>
        rw [List.getElem?_cons_succ] at hb
        obtain ⟨rest, hr⟩ := ih (i + 1) s j b (by omega) hb (by omega)
        refine ⟨rest, ?_⟩
        rw [← hr]
        by_cases hg : i = 7 ∨ i = 15
        · rw [if_pos hg]
          have hl : (hexByte c ++ asc " " ++ asc " ").length = 4 := rfl
          have e : 3 * (j + 1) + (if i ≤ 7 ∧ 7 < i + (j + 1) then 1 else 0) = 4 + (3 * j + if i + 1 ≤ 7 ∧ 7 < i + 1 + j then 1 else 0) := by
            split <;> split <;> omega
          rw [e, drop_length_append _ _ 4 _ hl]
        · rw [if_neg hg]
          have hl : (hexByte c ++ asc " " ++ []).length = 3 := rfl
          have e : 3 * (j + 1) + (if i ≤ 7 ∧ 7 < i + (j + 1) then 1 else 0) = 3 + (3 * j + if i + 1 ≤ 7 ∧ 7 < i + 1 + j then 1 else 0) := by
            split <;> split <;> omega
          rw [e, drop_length_append _ _ 3 _ hl]

theorem offset_length (n : Nat) : (offset n).length = 8 := rfl

/-- The layout of a line of a hex dump: the two digits of byte `j` stand in column `10 + 3 j`, one further from the ninth byte on, with a blank behind
them; the bytes as characters stand between bars from column 60 on, whatever their number. -/
theorem line_columns (off : Nat) (row : Bytes) (h : row.length ≤ 16) :
    (∀ j b, row[j]? = some b → ∃ c d rest, (dumpLine off row).drop (10 + 3 * j + if 7 < j then 1 else 0) = c :: d :: 32 :: rest ∧
      hexValue 0 [c, d] = some b.toNat) ∧
    (dumpLine off row).drop 60 = 124 :: row.map toChar ++ [124, 10] := by
  have h10 : (offset off ++ asc "  ").length = 10 := rfl
  have e : dumpLine off row = (offset off ++ asc "  ") ++ (columns 16 0 row ++ (asc "|" ++ row.map toChar ++ asc "|\n")) := by
    simp [dumpLine, List.append_assoc]
  constructor
  · intro j b hb
    have hj : j < row.length := (List.getElem?_eq_some_iff.mp hb).1
    obtain ⟨rest, hr⟩ := columns_at 16 0 row j b rfl hb (by omega)
    have hc := columns_length 16 0 row rfl
    refine ⟨hexDigit (b.toNat / 16), hexDigit (b.toNat % 16), rest ++ (asc "|" ++ row.map toChar ++ asc "|\n"), ?_, ?_⟩
    · rw [e, Nat.add_assoc, drop_length_append _ _ 10 _ h10]
      have hp : (if 0 ≤ 7 ∧ 7 < 0 + j then 1 else 0) = (if 7 < j then 1 else 0) := by simp
      rw [hp] at hr
      rw [List.drop_append_of_le_length (by
        rw [hc]
        have : (if 7 < j then 1 else 0) ≤ 1 := by split <;> omega
        omega), hr]
      rfl
    · have h1 : b.toNat / 16 < 16 := by have := b.toNat_lt; omega
      have h2 : b.toNat % 16 < 16 := Nat.mod_lt _ (by omega)
      simp only [hexValue, hexDigit_value h1, hexDigit_value h2, Option.some.injEq]
      omega
  · have hc : (columns 16 0 row).length = 50 := columns_length 16 0 row rfl
    rw [e, show 60 = 10 + (50 + 0) from rfl, drop_length_append _ _ 10 _ h10, drop_length_append _ _ 50 _ hc]
    simp [asc]

/-- The line of `"hello, world"`: the 'o' of "world" is byte 8, in column 35. -/
example : (dumpLine 16 (asc "hello, world")).drop (10 + 3 * 8 + 1) = asc "6f 72 6c 64              |hello, world|\n" := by decide +kernel

end Verif.Spew
