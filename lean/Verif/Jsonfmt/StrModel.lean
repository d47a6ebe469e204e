import Verif.Basic

/-!
# Model of `msgfmt/jsonfmt/encoder_str.go`, `encoder_bytes.go` and
`msgfmt/formatter_bytes.go`
-/

namespace Verif.Jsonfmt

/-- `hex[n]` for `n < 16`, msgfmt/jsonfmt/encoder_str.go:114 and msgfmt/formatter_bytes.go:116. -/
def hexDigit (n : UInt8) : UInt8 := if n < 10 then n + 48 else n + 87

/-- `safeSet[b]` of msgfmt/jsonfmt/encoder_str.go:15-112 for `b < 0x80`: true for
everything but controls, quote and backslash. -/
def safeSet (b : UInt8) : Bool := decide (32 ≤ b) && decide (b ≠ 34) && decide (b ≠ 92)

/-- The fast loop `for i, c = range ...` that copies acceptable bytes and breaks
at the first other byte (encoder_str.go:128-134, encoder_bytes.go:21-27,
formatter_bytes.go:122-128).  `i` is the loop variable declared outside of the
loop (its value after the loop matters); `next` is the index of the head of the
remaining bytes. -/
def fastLoop (ok : UInt8 → Bool) (space : Bytes) (i : Nat) : Nat → Bytes → Bytes × Nat
  | _, [] => (space, i)
  | next, c :: cs =>
    if ok c then fastLoop ok (space ++ [c]) next (next + 1) cs
    else (space, next)

/-- The escape written for an unsafe byte in a JSON string
(`switch b`, encoder_str.go:157-168). -/
def strEscape (b : UInt8) : Bytes :=
  if b = 92 ∨ b = 34 then [92, b]
  else if b = 10 then [92, 110]
  else if b = 13 then [92, 114]
  else if b = 9 then [92, 116]
  else [92, 117, 48, 48, hexDigit (b >>> 4), hexDigit (b &&& 0xF)]

/-- The loop of `writeStringSlowPath`, encoder_str.go:147-170; returns `space` and
`start` after the loop. -/
def strSlowLoop (s : Bytes) : Bytes → Nat → Bytes → Nat → Bytes × Nat
  | [], _, space, start => (space, start)
  | b :: rest, i, space, start =>
    if 0x80 ≤ b then strSlowLoop s rest (i + 1) space start
    else if safeSet b then strSlowLoop s rest (i + 1) space start
    else
      let space := if start < i then space ++ (s.drop start).take (i - start) else space
      strSlowLoop s rest (i + 1) (space ++ strEscape b) (i + 1)

/-- `writeStringSlowPath`, encoder_str.go:142-176. -/
def writeStringSlowPath (space : Bytes) (s : Bytes) : Bytes :=
  let r := strSlowLoop s s 0 space 0
  let space := if r.2 < s.length then r.1 ++ s.drop r.2 else r.1
  space ++ [34]

/-- `WriteString`, encoder_str.go:123-140.  `i == len(str)-1` is over Go's signed
`int`. -/
def writeString (space : Bytes) (str : Bytes) : Bytes :=
  let space := space ++ [34]
  let r := fastLoop (fun c => decide (c > 31) && decide (c ≠ 34) && decide (c ≠ 92)) space 0 0 str
  if (r.2 : Int) = (str.length : Int) - 1 then r.1 ++ [34]
  else writeStringSlowPath r.1 (str.drop r.2)

/-- The escape for a byte written by the default case of `writeBytesSlowPath`
(encoder_bytes.go:42, 63): two backslashes, `x`, two hex digits. -/
def hexEscape2 (b : UInt8) : Bytes := [92, 92, 120, hexDigit (b >>> 4), hexDigit (b &&& 0xF)]

/-- `switch b`, encoder_bytes.go:52-64. -/
def bytesEscape (b : UInt8) : Bytes :=
  if b = 92 ∨ b = 34 then [92, b]
  else if b = 10 then [92, 110]
  else if b = 13 then [92, 114]
  else if b = 9 then [92, 116]
  else hexEscape2 b

/-- The loop of `writeBytesSlowPath`, encoder_bytes.go:40-66.  A byte from 0x80 on
is escaped *without* first flushing `s[start:i]`. -/
def bytesSlowLoop (s : Bytes) : Bytes → Nat → Bytes → Nat → Bytes × Nat
  | [], _, space, start => (space, start)
  | b :: rest, i, space, start =>
    if 0x80 ≤ b then bytesSlowLoop s rest (i + 1) (space ++ hexEscape2 b) (i + 1)
    else if safeSet b then bytesSlowLoop s rest (i + 1) space start
    else
      let space := if start < i then space ++ (s.drop start).take (i - start) else space
      bytesSlowLoop s rest (i + 1) (space ++ bytesEscape b) (i + 1)

/-- `writeBytesSlowPath`, encoder_bytes.go:35-71. -/
def writeBytesSlowPath (space : Bytes) (s : Bytes) : Bytes :=
  let r := bytesSlowLoop s s 0 space 0
  let space := if r.2 < s.length then r.1 ++ s.drop r.2 else r.1
  space ++ [34]

/-- `WriteBytes`, encoder_bytes.go:16-33. -/
def writeBytes (space : Bytes) (s : Bytes) : Bytes :=
  let space := space ++ [34]
  let r := fastLoop (fun c => decide (c < 0x80) && safeSet c) space 0 0 s
  if (r.2 : Int) = (s.length : Int) - 1 then r.1 ++ [34]
  else writeBytesSlowPath r.1 (s.drop r.2)

end Verif.Jsonfmt

namespace Verif.Msgfmt
open Verif.Jsonfmt (fastLoop hexDigit)

/-- `safeSet[b]` of msgfmt/formatter_bytes.go:17-114 for `b < 0x80`: true for
everything but controls, backslash and the vertical bar (the quote is true). -/
def safeSet (b : UInt8) : Bool := decide (32 ≤ b) && decide (b ≠ 92) && decide (b ≠ 124)

/-- `\xNN`, msgfmt/formatter_bytes.go:142 and 163. -/
def hexEscape (b : UInt8) : Bytes := [92, 120, hexDigit (b >>> 4), hexDigit (b &&& 0xF)]

/-- `switch b`, msgfmt/formatter_bytes.go:152-164. -/
def bytesEscape (b : UInt8) : Bytes :=
  if b = 92 ∨ b = 34 then [92, b]
  else if b = 10 then [92, 110]
  else if b = 13 then [92, 114]
  else if b = 9 then [92, 116]
  else hexEscape b

/-- The loop of `writeBytesSlowPath`, msgfmt/formatter_bytes.go:140-166. -/
def bytesSlowLoop (s : Bytes) : Bytes → Nat → Bytes → Nat → Bytes × Nat
  | [], _, space, start => (space, start)
  | b :: rest, i, space, start =>
    if 0x80 ≤ b then bytesSlowLoop s rest (i + 1) (space ++ hexEscape b) (i + 1)
    else if safeSet b then bytesSlowLoop s rest (i + 1) space start
    else
      let space := if start < i then space ++ (s.drop start).take (i - start) else space
      bytesSlowLoop s rest (i + 1) (space ++ bytesEscape b) (i + 1)

/-- `writeBytesSlowPath`, msgfmt/formatter_bytes.go:135-171. -/
def writeBytesSlowPath (space : Bytes) (s : Bytes) : Bytes :=
  let r := bytesSlowLoop s s 0 space 0
  if r.2 < s.length then r.1 ++ s.drop r.2 else r.1

/-- `writeBytes`, msgfmt/formatter_bytes.go:118-133. -/
def writeBytes (space : Bytes) (s : Bytes) : Bytes :=
  let r := fastLoop (fun c => decide (c < 0x80) && safeSet c) space 0 0 s
  if (r.2 : Int) = (s.length : Int) - 1 then r.1
  else writeBytesSlowPath r.1 (s.drop r.2)

end Verif.Msgfmt
