import Verif.Basic

/-!
# go-spew: numbers in hexadecimal and hex dumps

Models `printHexPtr` of /repo/test/go-spew/spew/common.go (183-215) and the part of the standard
library's `hex.Dump` used at /repo/test/go-spew/spew/dump.go 229.
-/

namespace Verif.Spew

/-- One digit of `hexDigits`, common.go 68: `hexDigits[n]`, for `n < 16`. -/
def hexDigit (n : Nat) : UInt8 := if n < 10 then UInt8.ofNat (48 + n) else UInt8.ofNat (87 + n)

/-- The loop at common.go 199-204: `i` is the index written next, `num` what is left, `acc` the bytes
already in `buf[i+1:]`.  `none` is the panic of writing below the start of the buffer; otherwise the
index of the first digit and `buf` from there. -/
def hexLoop : Nat → Nat → Bytes → Option (Nat × Bytes)
  | i, num, acc =>
    if 16 ≤ num then
      match i with
      | 0 => none
      | i + 1 => hexLoop i (num / 16) (hexDigit (num % 16) :: acc)
    else some (i, hexDigit num :: acc)

/-- `printHexPtr`, common.go 185-215; `none` is an index out of range.  Simplification: the writer is
left out, the result is what is written. -/
def printHexPtr (num : Nat) : Option Bytes :=
  if num = 0 then some (asc "<nil>")
  else match hexLoop 17 num [] with
    | none => none
    | some (i, ds) => if i < 2 then none else some (asc "0x" ++ ds)

/-! ## Specification: what a number in hexadecimal is -/

/-- The value of one lower-case hexadecimal digit. -/
def hexDigitValue (c : UInt8) : Option Nat :=
  if 48 ≤ c ∧ c ≤ 57 then some (c.toNat - 48)
  else if 97 ≤ c ∧ c ≤ 102 then some (c.toNat - 87) else none

/-- The value of a text of lower-case hexadecimal digits, most significant first. -/
def hexValue : Nat → Bytes → Option Nat
  | acc, [] => some acc
  | acc, c :: s => match hexDigitValue c with
    | none => none
    | some d => hexValue (acc * 16 + d) s

/-- `t` is the usual way of writing `n` in hexadecimal: digits only, none too many. -/
def IsHex (t : Bytes) (n : Nat) : Prop :=
  hexValue 0 t = some n ∧ t ≠ [] ∧ (t.head? = some 48 → n = 0)

/-! ## Proofs -/

theorem hexDigit_value {n : Nat} (h : n < 16) : hexDigitValue (hexDigit n) = some n := by
  revert n; decide

theorem hexDigit_zero {n : Nat} (h : n < 16) : hexDigit n = 48 → n = 0 := by
  revert n; decide

theorem hexValue_append (s : Bytes) : ∀ (t : Bytes) (a b : Nat), hexValue a s = some b →
    hexValue a (s ++ t) = hexValue b t := by
  induction s with
  | nil => intro t a b h; simp only [hexValue, Option.some.injEq] at h; subst h; rfl
  | cons c s ih =>
    intro t a b h
    simp only [List.cons_append, hexValue] at h ⊢
    split at h
    · exact absurd h (by simp)
    · exact ih _ _ _ h

/-- What the loop leaves: the digits of `num` in front of what was there. -/
theorem hexLoop_spec : ∀ (k i num : Nat) (acc : Bytes), num < 16 ^ (k + 1) → k ≤ i →
    ∃ ds, hexLoop i num acc = some (i + 1 - ds.length, ds ++ acc) ∧ ds ≠ [] ∧ ds.length ≤ k + 1 ∧
      hexValue 0 ds = some num ∧ (ds.head? = some 48 → num = 0) := by
  intro k
  induction k with
  | zero =>
    intro i num acc h _
    have h : num < 16 := by simpa using h
    refine ⟨[hexDigit num], ?_, by simp, by simp, by simp [hexValue, hexDigit_value h], ?_⟩
    · unfold hexLoop; rw [if_neg (by omega)]; rfl
    · simpa using hexDigit_zero h
  | succ k ih =>
    intro i num acc h hi
    by_cases hn : 16 ≤ num
    · obtain ⟨i, rfl⟩ : ∃ j, i = j + 1 := ⟨i - 1, by omega⟩
      obtain ⟨ds, h1, h2, h3, h4, h5⟩ := ih i (num / 16) (hexDigit (num % 16) :: acc)
        (by rw [Nat.div_lt_iff_lt_mul (by omega)]; rw [Nat.pow_succ] at h; exact h) (by omega)
      refine ⟨ds ++ [hexDigit (num % 16)], ?_, by simp, by simpa using h3, ?_, ?_⟩
      · rw [hexLoop, if_pos hn]
        simp only [h1, List.length_append, List.append_assoc, List.singleton_append, List.length_cons,
          List.length_nil, Option.some.injEq, Prod.mk.injEq, and_true]
        omega
      · rw [hexValue_append ds _ _ _ h4]
        simp only [hexValue, hexDigit_value (Nat.mod_lt num (by omega : 0 < 16))]
        congr 1; omega
      · intro hh
        cases ds with
        | nil => exact absurd rfl h2
        | cons d ds =>
          have := h5 (by simpa using hh)
          omega
    · refine ⟨[hexDigit num], ?_, by simp, by simp, by simp [hexValue, hexDigit_value (by omega : num < 16)], ?_⟩
      · unfold hexLoop; rw [if_neg hn]; rfl
      · simpa using hexDigit_zero (by omega : num < 16)

/-- **C106**: every address other than nil is printed as `0x` and the usual hexadecimal digits of it;
the 18 bytes of the buffer always suffice. -/
theorem printHexPtr_exact {n : Nat} (h0 : n ≠ 0) (h : n < 2 ^ 64) :
    ∃ t, printHexPtr n = some (asc "0x" ++ t) ∧ IsHex t n ∧ t.length ≤ 16 := by
  obtain ⟨ds, h1, h2, h3, h4, h5⟩ := hexLoop_spec 15 17 n [] (by simpa using h) (by omega)
  refine ⟨ds, ?_, ⟨h4, h2, h5⟩, h3⟩
  rw [printHexPtr, if_neg h0, h1]
  simp only [List.append_nil]
  rw [if_neg (by omega)]

/-- **C106**: the nil pointer is printed as `<nil>`. -/
theorem printHexPtr_nil : printHexPtr 0 = some (asc "<nil>") := rfl

/-- **C106**: two different addresses are never printed alike. -/
theorem printHexPtr_injective {m n : Nat} (hm : m < 2 ^ 64) (hn : n < 2 ^ 64)
    (h : printHexPtr m = printHexPtr n) : m = n := by
  by_cases m0 : m = 0
  · by_cases n0 : n = 0
    · omega
    · obtain ⟨t, ht, -, -⟩ := printHexPtr_exact n0 hn
      rw [m0, printHexPtr_nil, ht] at h
      exact absurd h (by simp [asc])
  · obtain ⟨s, hs, is, -⟩ := printHexPtr_exact m0 hm
    by_cases n0 : n = 0
    · rw [n0, printHexPtr_nil, hs] at h
      exact absurd h (by simp [asc])
    · obtain ⟨t, ht, it, -⟩ := printHexPtr_exact n0 hn
      rw [hs, ht] at h
      have : s = t := by simpa using h
      subst this
      have := is.1.symm.trans it.1
      simpa using this

/-- An address of 48 bits and the largest one of all. -/
example : printHexPtr 0xc000012340 = some (asc "0xc000012340") ∧
    printHexPtr (2 ^ 64 - 1) = some (asc "0xffffffffffffffff") := by decide

/-! ## `hex.Dump` -/

/-- A byte as `hex.Dump` shows it on the right (Go's encoding/hex `toChar`, used at dump.go 229). -/
def toChar (b : UInt8) : UInt8 := if b < 32 ∨ 126 < b then 46 else b

/-- The two digits of a byte, as `hex.Dump` at dump.go 229 writes them. -/
def hexByte (b : UInt8) : Bytes := [hexDigit (b.toNat / 16), hexDigit (b.toNat % 16)]

/-- The eight digits of the offset in front of a line of `hex.Dump`, dump.go 229 (the counter is an
`uint32` there). -/
def offset (n : Nat) : Bytes :=
  [n / 0x1000000 % 256, n / 0x10000 % 256, n / 0x100 % 256, n % 256].flatMap fun b => hexByte (UInt8.ofNat b)

/-- The bytes of one line with their gaps, `i` counting the columns (Go's `dumper.Write`, used at
dump.go 229): a gap of two after the eighth byte and after the sixteenth; missing bytes are blank. -/
def columns : Nat → Nat → Bytes → Bytes
  | 0, _, _ => []
  | k + 1, i, [] => asc "   " ++ (if i = 7 ∨ i = 15 then asc " " else []) ++ columns k (i + 1) []
  | k + 1, i, b :: s => hexByte b ++ asc " " ++ (if i = 7 ∨ i = 15 then asc " " else []) ++ columns k (i + 1) s

/-- One line of `hex.Dump` at dump.go 229. -/
def dumpLine (off : Nat) (row : Bytes) : Bytes :=
  offset off ++ asc "  " ++ columns 16 0 row ++ asc "|" ++ row.map toChar ++ asc "|\n"

/-- `hex.Dump`, standard library, used at dump.go 229: rows of sixteen bytes; `k` bounds the rows. -/
def dumpRows : Nat → Nat → Bytes → Bytes
  | 0, _, _ => []
  | _, _, [] => []
  | k + 1, off, s => dumpLine off (s.take 16) ++ dumpRows k (off + 16) (s.drop 16)

/-- `hex.Dump(buf)`, standard library, used at dump.go 229. -/
def hexDump (s : Bytes) : Bytes := dumpRows s.length 0 s

/-- The familiar picture. -/
example : hexDump (asc "hello, world 12\n!") =
    asc "00000000  68 65 6c 6c 6f 2c 20 77  6f 72 6c 64 20 31 32 0a  |hello, world 12.|\n00000010  21                                                |!|\n" := by
  decide +kernel

end Verif.Spew
