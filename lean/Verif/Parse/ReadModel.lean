import Verif.Parse.Model

/-!
# Model of the readers (parse/read, parse/skip)

The loops `for src.Error() == nil { buf := src.Peek(); for … ; src.Consume() }` of
`AnyExcept1`, `AnyExcept2`, `Uint64` and `Space` share the function `chunkLoop`; what
each does with one buffer is its own `scan` function.
-/

namespace Verif.Parse

/-- How the inner loop over one buffer ends: `stop i st` is `src.ConsumeN(i); return st`,
`more st` falls through to `src.Consume()`, `fail e` is `src.ReportError(e); return 0` (read/any.go:6-34 and the like). -/
inductive Scan (σ : Type) where
  | stop (i : Nat) (st : σ)
  | more (st : σ)
  | fail (e : Err)

/-- Bytes left in a source (not in the Go code; bound on loop rounds) (for parse/read). -/
def Source.bytesLeft (s : Source) : Nat :=
  s.current.length + s.nextList.flatten.length + ((s.reader.getD []).map (·.1)).flatten.length

/-- The outer loop of read/any.go:6-18 and 22-34, read/int.go:72-93, skip/space.go:10-25;
`zero` is what is returned on `fail`.  Every round uses up a chunk, so `fuel` rounds
are enough when `fuel` is above the number of chunks. -/
def chunkLoop {σ : Type} (scan : σ → Bytes → Scan σ) (zero : σ) : Nat → Source → σ → Out (σ × Source)
  | 0, _, _ => .error .hang
  | fuel + 1, s, st =>
    if s.err.isSome then .ok (st, s)
    else match scan st s.current with
      | .stop i st' =>
        match s.consumeN i with
        | .ok s' => .ok (st', s')
        | .error f => .error f
      | .fail e => .ok (zero, s.report e)
      | .more st' => chunkLoop scan zero fuel s.consume st'

/-- Inner loop of `AnyExcept1`, parse/read/any.go:8-15, from index `i`. -/
def scanAny1 (b1 : UInt8) : Nat → Bytes → Bytes → Scan Bytes
  | _, space, [] => .more space
  | i, space, b :: buf =>
    if b = b1 then .stop i space else scanAny1 b1 (i + 1) (space ++ [b]) buf

/-- `AnyExcept1`, parse/read/any.go:5-19. -/
def anyExcept1 (s : Source) (space : Bytes) (b1 : UInt8) : Out (Bytes × Source) :=
  chunkLoop (fun st buf => scanAny1 b1 0 st buf) [] (s.chunks + 2) s space

/-- Inner loop of `AnyExcept2`, parse/read/any.go:24-31, from index `i`. -/
def scanAny2 (b1 b2 : UInt8) : Nat → Bytes → Bytes → Scan Bytes
  | _, space, [] => .more space
  | i, space, b :: buf =>
    if b = b1 ∨ b = b2 then .stop i space else scanAny2 b1 b2 (i + 1) (space ++ [b]) buf

/-- `AnyExcept2`, parse/read/any.go:21-35. -/
def anyExcept2 (s : Source) (space : Bytes) (b1 b2 : UInt8) : Out (Bytes × Source) :=
  chunkLoop (fun st buf => scanAny2 b1 b2 0 st buf) [] (s.chunks + 2) s space

/-- Inner loop of `skip.Space`, parse/skip/space.go:12-22, from index `i`. -/
def scanSpace : Nat → Nat → Bytes → Scan Nat
  | _, count, [] => .more count
  | i, count, b :: buf =>
    if b = 9 ∨ b = 10 ∨ b = 11 ∨ b = 12 ∨ b = 13 ∨ b = 32 then scanSpace (i + 1) (count + 1) buf
    else .stop i count

/-- `skip.Space`, parse/skip/space.go:8-26. -/
def skipSpace (s : Source) : Out (Nat × Source) :=
  chunkLoop (fun st buf => scanSpace 0 st buf) 0 (s.chunks + 2) s 0

/-- `intDigits`, parse/read/int.go:15-23: the digit value, `none` for
`invalidCharForNumber`. -/
def intDigits (c : UInt8) : Option UInt64 :=
  if 48 ≤ c ∧ c ≤ 57 then some (c - 48).toUInt64 else none

/-- `uint64SafeToMultiple10`, parse/read/int.go:13. -/
def uint64SafeToMultiple10 : UInt64 := 0xffffffffffffffff / 10 - 1

/-- Inner loop of `Uint64`, parse/read/int.go:74-90, from index `i`. -/
def scanUint64 : Nat → UInt64 → Bytes → Scan UInt64
  | _, value, [] => .more value
  | i, value, c :: buf =>
    match intDigits c with
    | none => .stop i value
    | some ind =>
      if value > uint64SafeToMultiple10 then
        let value2 := (value <<< 3) + (value <<< 1) + ind
        if value2 < value then .fail (.msg (asc "uint64: overflow"))
        else scanUint64 (i + 1) value2 buf
      else scanUint64 (i + 1) ((value <<< 3) + (value <<< 1) + ind) buf

/-- `Uint64`, parse/read/int.go:70-94. -/
def readUint64 (s : Source) : Out (UInt64 × Source) :=
  chunkLoop (fun st buf => scanUint64 0 st buf) 0 (s.chunks + 2) s 0

/-- `Int64`, parse/read/int.go:51-68 (the int64 results as `Int64`; `int64(val)` and
negation wrap). -/
def readInt64 (s : Source) : Out (Int64 × Source) :=
  match s.current with
  | [] => .error .panic
  | c :: _ =>
    if c = 45 then
      match s.consumeN 1 with
      | .error f => .error f
      | .ok s =>
        match readUint64 s with
        | .error f => .error f
        | .ok (val, s) =>
          if val > 9223372036854775808 then .ok (0, s.report (.msg (asc "int64: overflow")))
          else .ok (-val.toInt64, s)
    else
      match readUint64 s with
      | .error f => .error f
      | .ok (val, s) =>
        if val > 9223372036854775807 then .ok (0, s.report (.msg (asc "int64: overflow")))
        else .ok (val.toInt64, s)

/-- `Int32`, parse/read/int.go:32-49. -/
def readInt32 (s : Source) : Out (Int32 × Source) :=
  match s.current with
  | [] => .error .panic
  | c :: _ =>
    if c = 45 then
      match s.consumeN 1 with
      | .error f => .error f
      | .ok s =>
        match readUint64 s with
        | .error f => .error f
        | .ok (val, s) =>
          if val > 2147483648 then .ok (0, s.report (.msg (asc "int32: overflow")))
          else .ok (-val.toUInt32.toInt32, s)
    else
      match readUint64 s with
      | .error f => .error f
      | .ok (val, s) =>
        if val > 2147483647 then .ok (0, s.report (.msg (asc "int32: overflow")))
        else .ok (val.toUInt32.toInt32, s)

/-- A `*unicode.RangeTable`, as the membership test `unicode.Is(table, r)`. -/
abbrev RangeTable := Nat → Bool

/-- Loop of `read.UnicodeRange`, parse/read/range.go:9-17. Each round consumes at least
one byte or hangs, so `bytesLeft + 1` rounds are enough. -/
def unicodeRangeLoop (table : RangeTable) : Nat → Source → List Nat → Out (List Nat × Source)
  | 0, _, _ => .error .hang
  | fuel + 1, s, space =>
    let p := s.peekRune
    if table p.1.1 then
      match p.2.consumeN p.1.2 with
      | .error f => .error f
      | .ok s' => unicodeRangeLoop table fuel s' (space ++ [p.1.1])
    else .ok (space, p.2)

/-- `read.UnicodeRange`, parse/read/range.go:8-18. -/
def unicodeRange (s : Source) (space : List Nat) (table : RangeTable) : Out (List Nat × Source) :=
  unicodeRangeLoop table (s.bytesLeft + 1) s space

/-- Loop of `skip.UnicodeRange`, parse/skip/range.go:10-18. -/
def skipRangeLoop (table : RangeTable) : Nat → Source → Nat → Out (Nat × Source)
  | 0, _, _ => .error .hang
  | fuel + 1, s, count =>
    let p := s.peekRune
    if table p.1.1 then
      match p.2.consumeN p.1.2 with
      | .error f => .error f
      | .ok s' => skipRangeLoop table fuel s' (count + p.1.2)
    else .ok (count, p.2)

/-- `skip.UnicodeRange`, parse/skip/range.go:8-19. -/
def skipUnicodeRange (s : Source) (table : RangeTable) : Out (Nat × Source) :=
  skipRangeLoop table (s.bytesLeft + 1) s 0

/-- Loop of `skip.UnicodeSpace`, parse/skip/space.go:30-39; `isSpace` is
`unicode.IsSpace`. -/
def skipUniSpaceLoop (isSpace : RangeTable) : Nat → Source → Nat → Out (Nat × Source)
  | 0, _, _ => .error .hang
  | fuel + 1, s, count =>
    if s.err.isSome then .ok (count, s)
    else
      let p := s.peekRune
      if isSpace p.1.1 then
        match p.2.consumeN p.1.2 with
        | .error f => .error f
        | .ok s' => skipUniSpaceLoop isSpace fuel s' (count + p.1.2)
      else .ok (count, p.2)

/-- `skip.UnicodeSpace`, parse/skip/space.go:28-40. -/
def skipUnicodeSpace (s : Source) (isSpace : RangeTable) : Out (Nat × Source) :=
  skipUniSpaceLoop isSpace (s.bytesLeft + 1) s 0

/-- The inner loop over `includes` of `read.UnicodeRanges`, parse/read/range.go:33-39:
the `continue` inside belongs to this loop. -/
def includesLoop (r n : Nat) : List RangeTable → Source → List Nat → Out (List Nat × Source)
  | [], s, space => .ok (space, s)
  | inc :: incs, s, space =>
    if inc r then
      match s.consumeN n with
      | .error f => .error f
      | .ok s' => includesLoop r n incs s' (space ++ [r])
    else includesLoop r n incs s space

/-- Loop of `read.UnicodeRanges`, parse/read/range.go:21-41. -/
def unicodeRangesLoop (includes excludes : List RangeTable) : Nat → Source → List Nat →
    Out (List Nat × Source)
  | 0, _, _ => .error .hang
  | fuel + 1, s, space =>
    let p := s.peekRune
    if excludes.any (fun t => t p.1.1) then .ok (space, p.2)
    else if includes.length = 0 then
      match p.2.consumeN p.1.2 with
      | .error f => .error f
      | .ok s' => unicodeRangesLoop includes excludes fuel s' (space ++ [p.1.1])
    else includesLoop p.1.1 p.1.2 includes p.2 space

/-- `read.UnicodeRanges`, parse/read/range.go:20-42. -/
def unicodeRanges (s : Source) (space : List Nat) (includes excludes : List RangeTable) :
    Out (List Nat × Source) :=
  unicodeRangesLoop includes excludes (s.bytesLeft + 1) s space

/-- The inner loop over `includes` of `skip.UnicodeRanges`, parse/skip/range.go:30-36. -/
def skipIncludesLoop (r n : Nat) : List RangeTable → Source → Nat → Out (Nat × Source)
  | [], s, count => .ok (count, s)
  | inc :: incs, s, count =>
    if inc r then
      match s.consumeN n with
      | .error f => .error f
      | .ok s' => skipIncludesLoop r n incs s' (count + n)
    else skipIncludesLoop r n incs s count

/-- `skip.UnicodeRanges`, parse/skip/range.go:21-39: its outer loop never runs a second
round (no `continue` reaches it). -/
def skipUnicodeRanges (s : Source) (includes excludes : List RangeTable) : Out (Nat × Source) :=
  let p := s.peekRune
  if excludes.any (fun t => t p.1.1) then .ok (0, p.2)
  else skipIncludesLoop p.1.1 p.1.2 includes p.2 0

end Verif.Parse
