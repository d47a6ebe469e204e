import Verif.Basic

/-!
# Model of `parse.Source` (parse/parse.go, parse/utf8.go)

An `io.Reader` is the list of results its coming `Read` calls give; when the list is
used up every further `Read` returns `(0, io.EOF)`.  The list is arbitrary, so it covers
every way of cutting the input and every buffer length (a `Read` returns at most
`len(buf)` bytes, whatever that is); the buffers themselves are not modelled here.  A slice
handed out by `Peek`/`PeekN` is taken at the moment of the call.  `Parse/Buffers.lean` models
the buffers and proves that this is enough (`alone_partial`).
-/

namespace Verif.Parse

/-- Go error values that matter here: `io.EOF`, an error of the reader, an error made
with `errors.New` by the parser (parse/parse.go:51-58). -/
inductive Err where
  | eof
  | io (code : Nat)
  | msg (text : Bytes)
  deriving DecidableEq

/-- What a call can do besides returning: an index panic, or never returning (parse/parse.go:82-167). -/
inductive Fault where
  | panic
  | hang
  deriving DecidableEq

/-- Outcome of a call. -/
abbrev Out (α : Type) := Except Fault α

/-- One result of `reader.Read`: the bytes read and the error. -/
abbrev ReadResult := Bytes × Option Err

/-- `type Source`, parse/parse.go:51-58, without `buf` and `Attachment`; `reader` is
`none` for a nil reader. -/
structure Source where
  err : Option Err
  reader : Option (List ReadResult)
  current : Bytes
  nextList : List Bytes
  deriving DecidableEq

/-- One `Read` call on a reader (parse/parse.go:60-70 and 90-152). -/
def readOnce : List ReadResult → ReadResult × List ReadResult
  | [] => (([], some .eof), [])
  | r :: rs => (r, rs)

/-- `NewSource`, parse/parse.go:60-70: source (nil as `none`) and error. -/
def newSource (reader : List ReadResult) : Option Source × Option Err :=
  let r := readOnce reader
  if r.1.1.length = 0 then (none, r.1.2)
  else (some { err := none, reader := some r.2, current := r.1.1, nextList := [] }, none)

/-- `NewSourceString`, parse/parse.go:72-76. -/
def newSourceString (src : Bytes) : Source :=
  { err := none, reader := none, current := src, nextList := [] }

/-- `Source.ReportError`, parse/parse.go:169-173. -/
def Source.report (s : Source) (e : Err) : Source :=
  match s.err with
  | none => { s with err := some e }
  | some _ => s

/-- `Source.Peek1`, parse/parse.go:86-88 (index panic when nothing is current). -/
def Source.peek1 (s : Source) : Out UInt8 :=
  match s.current with
  | [] => .error .panic
  | b :: _ => .ok b

/-- The loop over `nextList` in `PeekN`, parse/parse.go:98-103: `.inl` is the returned
slice, `.inr` the bytes gathered when the loop ends. -/
def peekNext (n : Nat) : List Bytes → Bytes → Bytes ⊕ Bytes
  | [], peeked => .inr peeked
  | next :: rest, peeked =>
    let peeked := peeked ++ next
    if peeked.length ≥ n then .inl (peeked.take n) else peekNext n rest peeked

/-- The reading loop in `PeekN`, parse/parse.go:104-116.  Returns slice, error, the
reader afterwards and the chunks appended to `nextList`. -/
def peekRead (n : Nat) : List ReadResult → Bytes → Bytes × Option Err × List ReadResult × List Bytes
  | [], peeked =>
    if peeked.length ≥ n then (peeked.take n, none, [], [[]]) else (peeked, some .eof, [], [[]])
  | (next, err) :: rs, peeked =>
    let peeked := peeked ++ next
    if peeked.length ≥ n then (peeked.take n, none, rs, [next])
    else match err with
      | some e => (peeked, some e, rs, [next])
      | none =>
        let r := peekRead n rs peeked
        (r.1, r.2.1, r.2.2.1, next :: r.2.2.2)

/-- `Source.PeekN`, parse/parse.go:90-117, for `n ≥ 0`. -/
def Source.peekN (s : Source) (n : Nat) : (Bytes × Option Err) × Source :=
  if n ≤ s.current.length then ((s.current.take n, none), s)
  else match s.reader with
    | none => ((s.current, some .eof), s)
    | some rs =>
      match peekNext n s.nextList s.current with
      | .inl peeked => ((peeked, none), s)
      | .inr peeked =>
        let r := peekRead n rs peeked
        ((r.1, r.2.1), { s with reader := some r.2.2.1, nextList := s.nextList ++ r.2.2.2 })

/-- `Source.Consume`, parse/parse.go:136-152. -/
def Source.consume (s : Source) : Source :=
  match s.reader with
  | none => ({ s with current := [] } : Source).report .eof
  | some rs =>
    match s.nextList with
    | next :: rest => { s with current := next, nextList := rest }
    | [] =>
      let r := readOnce rs
      let s' := match r.1.2 with
        | some e => s.report e
        | none => s
      { s' with reader := some r.2, current := r.1.1 }

/-- The loop of `Source.ConsumeN`, parse/parse.go:119-125, for `n ≥ 0`, running at most
`fuel` rounds (`none`: still running). -/
def consumeLoop : Nat → Source → Nat → Option Source
  | 0, _, _ => none
  | fuel + 1, s, n =>
    if n ≠ 0 ∧ n ≥ s.current.length then consumeLoop fuel s.consume (n - s.current.length)
    else some { s with current := s.current.drop n }

/-- Reads still to come before the reader is used up (not in the Go code; used as the
bound on loop rounds, see `consumeLoop_bound`) (for parse/parse.go:90-152). -/
def Source.chunks (s : Source) : Nat := s.nextList.length + (s.reader.getD []).length

/-- `Source.ConsumeN`, parse/parse.go:119-125.  The loop runs for as many rounds as
could ever help; if it has not ended by then it never ends (`consumeLoop_bound`). -/
def Source.consumeN (s : Source) (n : Nat) : Out Source :=
  match consumeLoop (s.chunks + 2) s n with
  | some s' => .ok s'
  | none => .error .hang

/-- `Source.Consume1`, parse/parse.go:127-134. -/
def Source.consume1 (s : Source) (b1 : UInt8) : Out Source :=
  match s.current with
  | [] => .error .panic
  | b :: _ =>
    let s := if b1 ≠ b then s.report (.msg (asc "expect " ++ [b1] ++ asc " but found " ++ [b])) else s
    s.consumeN 1

/-! ### UTF-8 -/

/-- The table `first`, parse/utf8.go:20-39, row by row. -/
def firstTable : List UInt8 :=
  List.replicate 128 0xF0 ++                         -- 22-29: as
  List.replicate 64 0xF1 ++                          -- 31-34: xx
  [0xF1, 0xF1] ++ List.replicate 14 0x02 ++          -- 35: xx xx s1...
  List.replicate 16 0x02 ++                          -- 36: s1
  [0x13] ++ List.replicate 12 0x03 ++ [0x23, 0x03, 0x03] ++  -- 37: s2 s3... s4 s3 s3
  [0x34, 0x04, 0x04, 0x04, 0x44] ++ List.replicate 11 0xF1   -- 38: s5 s6 s6 s6 s7 xx...

/-- `first[b]` (parse/utf8.go:20-39). -/
def first (b : UInt8) : UInt8 := firstTable.getD b.toNat 0

/-- `acceptRanges` of Go's unicode/utf8 (standard library, not in the repository):
bounds of the second byte (for parse/parse.go:154-167). -/
def acceptRange : UInt8 → UInt8 × UInt8
  | 0 => (0x80, 0xBF)
  | 1 => (0xA0, 0xBF)
  | 2 => (0x80, 0x9F)
  | 3 => (0x90, 0xBF)
  | _ => (0x80, 0x8F)

/-- `utf8.RuneError` (for parse/parse.go:154-167). -/
def runeError : Nat := 0xFFFD

/-- `utf8.DecodeRune` of Go's standard library (not in the repository, transcribed;
the bit operations on disjoint bit groups are written as arithmetic) (called at parse/parse.go:154-167). -/
def decodeRune (p : Bytes) : Nat × Nat :=
  match p with
  | [] => (runeError, 0)
  | p0 :: tail =>
    let x := first p0
    if x ≥ 0xF0 then
      if x = 0xF0 then (p0.toNat, 1) else (runeError, 1)
    else
      let sz := (x &&& 7).toNat
      let accept := acceptRange (x >>> 4)
      if p.length < sz then (runeError, 1)
      else
        let b1 := tail.getD 0 0
        if b1 < accept.1 || accept.2 < b1 then (runeError, 1)
        else if sz = 2 then (p0.toNat % 32 * 64 + b1.toNat % 64, 2)
        else
          let b2 := tail.getD 1 0
          if b2 < 0x80 || 0xBF < b2 then (runeError, 1)
          else if sz = 3 then (p0.toNat % 16 * 4096 + b1.toNat % 64 * 64 + b2.toNat % 64, 3)
          else
            let b3 := tail.getD 2 0
            if b3 < 0x80 || 0xBF < b3 then (runeError, 1)
            else (p0.toNat % 8 * 262144 + b1.toNat % 64 * 4096 + b2.toNat % 64 * 64 + b3.toNat % 64, 4)

/-- `Source.PeekRune`, parse/parse.go:154-167. -/
def Source.peekRune (s : Source) : (Nat × Nat) × Source :=
  match s.current with
  | [] => ((runeError, 1), s)
  | p0 :: _ =>
    let x := first p0
    if x ≥ 0xF0 then (decodeRune s.current, s)
    else
      let r := s.peekN (x &&& 7).toNat
      (decodeRune r.1.1, r.2)

end Verif.Parse
