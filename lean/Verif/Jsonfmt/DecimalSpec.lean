import Verif.Basic

/-!
# Specification: canonical decimal text

Independent of the writers: a text is the canonical decimal of `n` when it is a
non-empty run of digits, has no superfluous leading zero and its positional
value is `n`.
-/

namespace Verif.Spec

/-- Positional value of a text of decimal digits (most significant first). -/
def decimalValue (t : Bytes) : Nat :=
  t.foldl (fun acc c => 10 * acc + (c.toNat - 48)) 0

/-- Is the byte one of `'0'..'9'`? -/
def isDigit (c : UInt8) : Bool := 48 ≤ c && c ≤ 57

/-- `t` is the decimal text of `n` with no superfluous leading zero. -/
def CanonicalDecimal (t : Bytes) (n : Nat) : Prop :=
  t ≠ [] ∧ (∀ c ∈ t, isDigit c = true) ∧ decimalValue t = n ∧
    (t.head? = some 48 → t = [48])

/-- `t` is the canonical decimal text of the integer `z`:
a minus sign exactly for negatives. -/
def CanonicalInt (t : Bytes) (z : Int) : Prop :=
  if z < 0 then ∃ u, t = 45 :: u ∧ CanonicalDecimal u z.natAbs
  else CanonicalDecimal t z.natAbs

end Verif.Spec
