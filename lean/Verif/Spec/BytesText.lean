import Verif.Spec.JsonString

/-!
# Specification: reading escaped bytes back
-/

namespace Verif.Spec

/-- Bytes that may not appear raw in a JSON string. -/
def NeedsEscape (c : UInt8) : Prop := c < 32 ∨ c = 34 ∨ c = 92

/-- A byte the `[]byte` writers print as itself in JSON: printable ASCII other than
quote and backslash (DEL included). -/
def JsonSafe (c : UInt8) : Prop := 32 ≤ c ∧ c < 128 ∧ c ≠ 34 ∧ c ≠ 92

/-- A byte a message format prints as itself: ASCII from the space on other than
backslash and vertical bar. -/
def MsgSafe (c : UInt8) : Prop := 32 ≤ c ∧ c < 128 ∧ c ≠ 92 ∧ c ≠ 124

/-- The only byte of `s` that is not safe is its last one. -/
def OnlyLast (Safe : UInt8 → Prop) (s : Bytes) : Prop :=
  ∃ p c, s = p ++ [c] ∧ (∀ x ∈ p, Safe x) ∧ ¬ Safe c

/-- Somewhere after an escaped byte, a byte from 0x80 on directly follows a safe
byte. -/
def HighAfterSafe (Safe : UInt8 → Prop) (s : Bytes) : Prop :=
  ∃ a u b x h t, s = a ++ u :: (b ++ x :: h :: t) ∧ ¬ Safe u ∧ Safe x ∧ 128 ≤ h

/-- Replaces each `\xNN` in a text by the byte `NN`. -/
def unhex : Bytes → Bytes
  | 92 :: 120 :: a :: b :: r =>
    match hexVal a, hexVal b with
    | some x, some y => UInt8.ofNat (16 * x + y) :: unhex r
    | _, _ => 92 :: 120 :: a :: b :: unhex r
  | c :: r => c :: unhex r
  | [] => []

/-- Reads the text a message prints for bytes: `\\`, `\"`, `\n`, `\r`, `\t` and
`\xNN`; any other byte stands for itself. -/
def unescape : Bytes → Option Bytes
  | [] => some []
  | 92 :: 120 :: a :: b :: r =>
    match hexVal a, hexVal b with
    | some x, some y => (unescape r).map (UInt8.ofNat (16 * x + y) :: ·)
    | _, _ => none
  | 92 :: e :: r =>
    if e = 92 then (unescape r).map (92 :: ·)
    else if e = 34 then (unescape r).map (34 :: ·)
    else if e = 110 then (unescape r).map (10 :: ·)
    else if e = 114 then (unescape r).map (13 :: ·)
    else if e = 116 then (unescape r).map (9 :: ·)
    else none
  | c :: r => if c = 92 then none else (unescape r).map (c :: ·)

end Verif.Spec
