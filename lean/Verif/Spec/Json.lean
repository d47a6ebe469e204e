import Verif.Spec.JsonString
import Verif.Jsonfmt.DecimalSpec

/-!
# Specification: JSON documents (RFC 8259)

A recursive descent parser for compact JSON (no white space between tokens, no
exponents in numbers: neither is ever emitted by the modelled encoders, so the
parser is stricter than the RFC).  Numbers are rationals.
-/

namespace Verif.Spec

/-- JSON value trees; object members in order of appearance. -/
inductive Json where
  | null
  | bool (b : Bool)
  | num (q : Rat)
  | str (s : Bytes)
  | arr (xs : List Json)
  | obj (kvs : List (Bytes × Json))

/-- Digits at the front, and the rest. -/
def spanDigits (s : Bytes) : Bytes × Bytes := (s.takeWhile isDigit, s.dropWhile isDigit)

/-- A number token without sign and exponent: numerator and number of decimals. -/
def parseUnsigned (s : Bytes) : Option ((Nat × Nat) × Bytes) :=
  let ip := (spanDigits s).1
  let r := (spanDigits s).2
  if ip = [] ∨ (ip.head? = some 48 ∧ ip ≠ [48]) then none
  else
    match r with
    | 46 :: r' =>
      let fr := (spanDigits r').1
      if fr = [] then none
      else some ((decimalValue (ip ++ fr), fr.length), (spanDigits r').2)
    | _ => some ((decimalValue ip, 0), r)

/-- A number token. -/
def parseNumber : Bytes → Option (Json × Bytes)
  | 45 :: s =>
    match parseUnsigned s with
    | some ((m, e), r) => some (.num (mkRat (-(m : Int)) (10 ^ e)), r)
    | none => none
  | s =>
    match parseUnsigned s with
    | some ((m, e), r) => some (.num (mkRat (m : Int) (10 ^ e)), r)
    | none => none

mutual
/-- Reads one value; the fuel bounds the recursion. -/
def parseValue : Nat → Bytes → Option (Json × Bytes)
  | 0, _ => none
  | f + 1, s =>
    match s with
    | 110 :: 117 :: 108 :: 108 :: r => some (.null, r)
    | 116 :: 114 :: 117 :: 101 :: r => some (.bool true, r)
    | 102 :: 97 :: 108 :: 115 :: 101 :: r => some (.bool false, r)
    | 34 :: r =>
      match parseStringBody r with
      | some (v, r') => some (.str v, r')
      | none => none
    | 91 :: 93 :: r => some (.arr [], r)
    | 91 :: r =>
      match parseElems f r with
      | some (vs, r') => some (.arr vs, r')
      | none => none
    | 123 :: 125 :: r => some (.obj [], r)
    | 123 :: r =>
      match parseMembers f r with
      | some (vs, r') => some (.obj vs, r')
      | none => none
    | s => parseNumber s

/-- Reads array elements up to the closing bracket. -/
def parseElems : Nat → Bytes → Option (List Json × Bytes)
  | 0, _ => none
  | f + 1, s =>
    match parseValue f s with
    | some (v, 44 :: r) =>
      match parseElems f r with
      | some (vs, r') => some (v :: vs, r')
      | none => none
    | some (v, 93 :: r) => some ([v], r)
    | _ => none

/-- Reads object members up to the closing brace. -/
def parseMembers : Nat → Bytes → Option (List (Bytes × Json) × Bytes)
  | 0, _ => none
  | f + 1, s =>
    match parseJsonString s with
    | some (k, 58 :: r) =>
      match parseValue f r with
      | some (v, 44 :: r) =>
        match parseMembers f r with
        | some (vs, r') => some ((k, v) :: vs, r')
        | none => none
      | some (v, 125 :: r) => some ([(k, v)], r)
      | _ => none
    | _ => none
end

/-- Reads a whole document. -/
def parseDocument (s : Bytes) : Option Json :=
  match parseValue (2 * s.length) s with
  | some (j, []) => some j
  | _ => none

end Verif.Spec
