import Verif.Spec.Utf8

/-!
# Specification: JSON string tokens (RFC 8259, section 7)

`parseJsonString` reads one string token at the start of the input and returns
the bytes it denotes and the rest of the input.  It rejects raw control bytes,
raw quotes and unknown escapes.  Bytes from 0x80 on stand for themselves (UTF-8
validity of the text is not part of this specification).  `\u` escapes of
surrogates are rejected, so the specification is stricter than the RFC there.
-/

namespace Verif.Spec

/-- Value of a hexadecimal digit. -/
def hexVal (c : UInt8) : Option Nat :=
  if 48 ≤ c && c ≤ 57 then some (c.toNat - 48)
  else if 97 ≤ c && c ≤ 102 then some (c.toNat - 87)
  else if 65 ≤ c && c ≤ 70 then some (c.toNat - 55)
  else none

/-- Value of four hexadecimal digits. -/
def hex4 (a b c d : UInt8) : Option Nat := do
  let a ← hexVal a
  let b ← hexVal b
  let c ← hexVal c
  let d ← hexVal d
  return ((a * 16 + b) * 16 + c) * 16 + d

/-- The byte denoted by a two character escape `\e`. -/
def simpleEscape (e : UInt8) : Option UInt8 :=
  if e = 34 then some 34        -- \"
  else if e = 92 then some 92   -- \\
  else if e = 47 then some 47   -- \/
  else if e = 98 then some 8    -- \b
  else if e = 102 then some 12  -- \f
  else if e = 110 then some 10  -- \n
  else if e = 114 then some 13  -- \r
  else if e = 116 then some 9   -- \t
  else none

/-- Reads string characters up to the closing quote. -/
def parseStringBody : Bytes → Option (Bytes × Bytes)
  | [] => none
  | 34 :: r => some ([], r)
  | 92 :: 117 :: a :: b :: c :: d :: r =>
    match hex4 a b c d with
    | none => none
    | some n =>
      if isScalar n then
        match parseStringBody r with
        | none => none
        | some (v, r') => some (utf8Encode n ++ v, r')
      else none
  | 92 :: e :: r =>
    match simpleEscape e with
    | none => none
    | some x =>
      match parseStringBody r with
      | none => none
      | some (v, r') => some (x :: v, r')
  | c :: r =>
    if c < 32 ∨ c = 92 then none
    else
      match parseStringBody r with
      | none => none
      | some (v, r') => some (c :: v, r')

/-- Reads one string token. -/
def parseJsonString : Bytes → Option (Bytes × Bytes)
  | 34 :: r => parseStringBody r
  | _ => none

end Verif.Spec
