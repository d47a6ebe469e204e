import Verif.Spec.Json
import Verif.Spec.BytesText
import Verif.Jsonfmt.ValModel
import Verif.Jsonfmt.IntLemmas

/-!
# Specification for C17 and C18: the JSON tree a Go value stands for
-/

namespace Verif.Spec
open Verif.Jsonfmt

/-- The name part of a json tag. -/
def tagName (tag : Bytes) : Bytes := tag.takeWhile (fun c => decide (c ≠ 44))

/-- Whether an identifier is exported, when its first rune (UTF-8) is a Latin-1
character: the rune is an upper case letter.  `none` for other runes (the
Unicode tables are not part of this specification). -/
def exported : Bytes → Option Bool
  | [] => none
  | [b] => if b < 128 then some (65 ≤ b && b ≤ 90) else none
  | b :: c :: _ =>
    if b < 128 then some (65 ≤ b && b ≤ 90)
    else if b = 0xC2 then some false                     -- U+0080..U+00BF
    else if b = 0xC3 then some (c ≤ 0x9E && c != 0x97)   -- U+00C0..U+00FF
    else none

/-- Channels and functions are never encoded. -/
def isFuncOrChan : Ty → Bool
  | .func _ => true
  | .chan _ => true
  | _ => false

/-- The member name under which a field must appear, if it must. -/
def visibleName (name tag : Bytes) (ty : Ty) : Option Bytes :=
  if exported name = some true ∧ isFuncOrChan ty = false ∧ tagName tag ≠ [45] then
    some (if tagName tag = [] then name else tagName tag)
  else none

/-- Canonical decimal text (see `natDec_canonical`, `canonicalDecimal_unique`). -/
def intText (z : Int) : Bytes := if z < 0 then 45 :: natDec z.natAbs else natDec z.natAbs

/-- The text shown for a byte slice: printable ASCII, line feed, carriage return
and tab as themselves, every other byte as `\xNN`. -/
def byteText (b : UInt8) : Bytes :=
  if b < 128 ∧ (32 ≤ b ∨ b = 10 ∨ b = 13 ∨ b = 9) then [b]
  else [92, 120, hexDigit (b >>> 4), hexDigit (b &&& 0xF)]

/-- The member name for a map key of string or integer type. -/
def keyText : Val → Ty → Option Bytes
  | .str s, .str => some s
  | .i8 v, .int8 => some (intText v.toInt)
  | .u8 v, .uint8 => some (intText v.toNat)
  | .i16 v, .int16 => some (intText v.toInt)
  | .u16 v, .uint16 => some (intText v.toNat)
  | .i32 v, .int32 => some (intText v.toInt)
  | .u32 v, .uint32 => some (intText v.toNat)
  | .i64 v, .int64 => some (intText v.toInt)
  | .u64 v, .uint64 => some (intText v.toNat)
  | _, _ => none

/-- Same, looking through an interface key. -/
def keyText' : Val → Ty → Option Bytes
  | .iface t v, .iface => keyText v t
  | v, t => keyText v t

mutual
/-- The tree denoted by a value of a type; `none` for a value that does not have
that type and for types outside the claim (unsupported).  An error stands for its message, also that of a failed
`MarshalJSON`, and what else `MarshalJSON` returns for what it reads as. -/
def expected : Val → Ty → Option Json
  | .bool b, .bool => some (.bool b)
  | .i8 v, .int8 => some (.num (mkRat v.toInt 1))
  | .u8 v, .uint8 => some (.num (mkRat v.toNat 1))
  | .i16 v, .int16 => some (.num (mkRat v.toInt 1))
  | .u16 v, .uint16 => some (.num (mkRat v.toNat 1))
  | .i32 v, .int32 => some (.num (mkRat v.toInt 1))
  | .u32 v, .uint32 => some (.num (mkRat v.toNat 1))
  | .i64 v, .int64 => some (.num (mkRat v.toInt 1))
  | .u64 v, .uint64 => some (.num (mkRat v.toNat 1))
  | .float neg m k, .float =>
    some (.num (mkRat (if neg then -(lossyLval m k : Int) else lossyLval m k) 1000000))
  | .str s, .str => some (.str s)
  | .bytes s, .bytes => some (.str (s.flatMap byteText))
  | .err msg, .err => some (.str msg)
  | .marshErr msg, .marshaler => some (.str msg)
  | .marshOk out, .marshaler => parseDocument out
  | .nil, .ptr _ => some .null
  | .ptr v, .ptr t => expected v t
  | .seq vs, .slice t => (expectedElems vs t).map .arr
  | .seq vs, .array _ t => (expectedElems vs t).map .arr
  | .nil, .map _ _ => some .null
  | .map kvs, .map kt vt => (expectedPairs kvs kt vt).map .obj
  | .struct vs, .struct fs => (expectedFields vs fs).map .obj
  | .nil, .iface => some .null
  | .iface t v, .iface => expected v t
  | _, _ => none

/-- Elements in order. -/
def expectedElems : Vals → Ty → Option (List Json)
  | .nil, _ => some []
  | .cons v vs, t =>
    match expected v t, expectedElems vs t with
    | some j, some js => some (j :: js)
    | _, _ => none

/-- Map entries in iteration order. -/
def expectedPairs : Pairs → Ty → Ty → Option (List (Bytes × Json))
  | .nil, _, _ => some []
  | .cons k v ps, kt, vt =>
    match keyText' k kt, expected v vt, expectedPairs ps kt vt with
    | some kb, some j, some js => some ((kb, j) :: js)
    | _, _, _ => none

/-- Visible fields in declaration order. -/
def expectedFields : Vals → Fields → Option (List (Bytes × Json))
  | .nil, .nil => some []
  | .cons v vs, .cons name tag ty fs =>
    match visibleName name tag ty with
    | none => expectedFields vs fs
    | some n =>
      match expected v ty, expectedFields vs fs with
      | some j, some js => some ((n, j) :: js)
      | _, _ => none
  | _, _ => none
end

/-- A string whose only byte needing an escape is the last one (C14's exception). -/
def LostLast (s : Bytes) : Prop :=
  ∃ p c, s = p ++ [c] ∧ (∀ x ∈ p, ¬ NeedsEscape x) ∧ NeedsEscape c

mutual
/-- Field names start with an ASCII letter or underscore, and the member names are
plain text. -/
def GoodTy : Ty → Prop
  | .ptr t => GoodTy t
  | .slice t => GoodTy t
  | .array _ t => GoodTy t
  | .map k v => GoodTy k ∧ GoodTy v
  | .struct fs => GoodFields fs
  | _ => True
/-- See `GoodTy`. -/
def GoodFields : Fields → Prop
  | .nil => True
  | .cons name tag ty rest =>
    (∃ c r, name = c :: r ∧ c < 128) ∧
    (∀ c ∈ name, ¬ NeedsEscape c) ∧ (∀ c ∈ tagName tag, ¬ NeedsEscape c) ∧
    GoodTy ty ∧ GoodFields rest
end

mutual
/-- The leaves are in the regions where the scalar writers are right
(C12, C13, C14, C16, C19), and messages of errors are plain text. -/
def GoodVal : Val → Prop
  | .i32 v => v.toInt.natAbs < 1000000000
  | .u32 v => v.toNat < 1000000000
  | .u64 v => v.toNat < 10000000000000000000
  | .float _ m k => m ≤ 83886079 * 2 ^ k
  | .str s => ¬ LostLast s
  | .bytes s => ¬ OnlyLast JsonSafe s ∧ ¬ HighAfterSafe JsonSafe s
  | .err msg => ∀ c ∈ msg, ¬ NeedsEscape c
  | .marshErr msg => ∀ c ∈ msg, ¬ NeedsEscape c
  | .ptr v => GoodVal v
  | .seq vs => GoodVals vs
  | .map kvs => GoodPairs kvs
  | .struct vs => GoodVals vs
  | .iface t v => GoodTy t ∧ GoodVal v
  | _ => True
/-- See `GoodVal`. -/
def GoodVals : Vals → Prop
  | .nil => True
  | .cons v vs => GoodVal v ∧ GoodVals vs
/-- See `GoodVal`. -/
def GoodPairs : Pairs → Prop
  | .nil => True
  | .cons k v ps => GoodVal k ∧ GoodVal v ∧ GoodPairs ps
end

end Verif.Spec
