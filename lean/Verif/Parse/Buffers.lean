import Verif.Parse.Model

/-!
# The buffers of `parse.Source` (parse/parse.go)

`Parse/Model.lean` takes the bytes a source holds as values.  In the code they are slices of
shared memory: `NewSource` reads into the buffer the caller gave, `Consume` reads into it
again, and `PeekN` gathers what it returns with `append(src.current, ...)`, which writes into
the spare capacity behind `current` whenever there is some.  Here the same functions are
modelled on a memory of bytes, any number of sources sharing it, and compared with the model
on values.

Memory is one array of bytes indexed by address; `next` is the first address not handed out
yet, and fresh memory is taken from there.  Freeing memory is not modelled (addresses are not
used again), and fresh memory is not cleared: every byte of it is written before it is read.
-/

namespace Verif.Parse.Buffers

/-- The bytes of the memory, by address (the memory behind the slices of
parse/parse.go:51-58). -/
abbrev Mem := Nat → UInt8

/-- The memory and the first address that is not in use (for parse/parse.go:51-152). -/
structure World where
  mem : Mem
  next : Nat

/-- A Go `[]byte`: address of the first byte, length, capacity (the slices of
parse/parse.go:51-58).  The nil slice is `⟨0, 0, 0⟩`. -/
structure Slice where
  ptr : Nat
  len : Nat
  cap : Nat
  deriving DecidableEq

/-- The `n` bytes from address `p` on (what the slices of parse/parse.go:51-58 hold). -/
def content (m : Mem) : Nat → Nat → Bytes
  | _, 0 => []
  | p, n + 1 => m p :: content m (p + 1) n

/-- The bytes of a slice (parse/parse.go:51-58). -/
def Slice.text (s : Slice) (m : Mem) : Bytes := content m s.ptr s.len

/-- The memory with `bs` written from address `p` on (the effect of `Read` and `append`,
parse/parse.go:61, 99, 106, 108 and 147). -/
def write (m : Mem) (p : Nat) (bs : Bytes) : Mem :=
  fun a => if p ≤ a ∧ a < p + bs.length then bs.getD (a - p) 0 else m a

/-- `append(s, bs...)`, parse/parse.go:99 and 108: in place when the capacity suffices,
otherwise into new memory with at least the capacity needed; `room` is the capacity the
runtime would choose. -/
def World.append (room : Slice → Nat → Nat) (w : World) (s : Slice) (bs : Bytes) : World × Slice :=
  if s.len + bs.length ≤ s.cap then
    ({ w with mem := write w.mem (s.ptr + s.len) bs }, { s with len := s.len + bs.length })
  else
    let c := max (s.len + bs.length) (room s bs.length)
    ({ mem := write w.mem w.next (s.text w.mem ++ bs), next := w.next + c },
      ⟨w.next, s.len + bs.length, c⟩)

/-- One result of `reader.Read`: the bytes read, what else of the buffer the reader used as
scratch space (which an `io.Reader` may), and the error (parse/parse.go:61, 106 and 147). -/
structure Got where
  bytes : Bytes
  scratch : Bytes
  err : Option Err

/-- One `Read` call on a reader that has `rs` to give, parse/parse.go:61, 106 and 147. -/
def takeGot : List Got → Got × List Got
  | [] => (⟨[], [], some .eof⟩, [])
  | g :: gs => (g, gs)

/-- What `reader.Read(buf)` does to the memory, and the count it returns,
parse/parse.go:61, 106 and 147.  It writes nothing behind `len(buf)`. -/
def World.read (w : World) (buf : Slice) (g : Got) : World × Nat :=
  ({ w with mem := write w.mem buf.ptr ((g.bytes ++ g.scratch).take buf.len) },
    min g.bytes.length buf.len)

/-- `type Source`, parse/parse.go:51-58, without `Attachment`. -/
structure BSource where
  err : Option Err
  reader : Option (List Got)
  current : Slice
  nextList : List Slice
  buf : Slice

/-- `NewSource`, parse/parse.go:60-70: the memory afterwards, the source (nil as `none`) and
the error. -/
def newSource (w : World) (reader : List Got) (buf : Slice) : World × Option BSource × Option Err :=
  let g := takeGot reader
  let r := w.read buf g.1
  if r.2 = 0 then (r.1, none, g.1.err)
  else (r.1, some { err := none, reader := some g.2, current := { buf with len := r.2 },
                    nextList := [], buf := buf }, none)

/-- `NewSourceString`, parse/parse.go:72-76: the conversion to `[]byte` copies the string into
new memory (with no spare capacity; the runtime may leave some, which nothing else uses). -/
def newSourceString (w : World) (src : Bytes) : World × BSource :=
  ({ mem := write w.mem w.next src, next := w.next + src.length },
    { err := none, reader := none, current := ⟨w.next, src.length, src.length⟩, nextList := [],
      buf := ⟨0, 0, 0⟩ })

/-- `Source.ReportError`, parse/parse.go:169-173. -/
def BSource.report (b : BSource) (e : Err) : BSource :=
  match b.err with
  | none => { b with err := some e }
  | some _ => b

/-- The loop over `nextList` in `PeekN`, parse/parse.go:98-103: `.inl` is the returned slice,
`.inr` the slice gathered when the loop ends. -/
def peekNext (room : Slice → Nat → Nat) (n : Nat) : List Slice → World → Slice → World × (Slice ⊕ Slice)
  | [], w, peeked => (w, .inr peeked)
  | next :: rest, w, peeked =>
    let a := w.append room peeked (next.text w.mem)
    if a.2.len ≥ n then (a.1, .inl { a.2 with len := n }) else peekNext room n rest a.1 a.2

/-- `make`, `Read` and `buf[:read]` in `PeekN`, parse/parse.go:105-107. -/
def World.fetch (w : World) (len : Nat) (g : Got) : World × Slice :=
  let buf : Slice := ⟨w.next, len, len⟩
  let r := ({ w with next := w.next + len } : World).read buf g
  (r.1, { buf with len := r.2 })

/-- The reading loop in `PeekN`, parse/parse.go:104-116, with `len(src.buf)` as `len`: the
memory, the slice returned, the error, the reader afterwards and the slices appended to
`nextList`. -/
def peekRead (room : Slice → Nat → Nat) (n len : Nat) :
    List Got → World → Slice → World × Slice × Option Err × List Got × List Slice
  | [], w, peeked =>
    let f := w.fetch len ⟨[], [], some .eof⟩
    let a := f.1.append room peeked (f.2.text f.1.mem)
    if a.2.len ≥ n then (a.1, { a.2 with len := n }, none, [], [f.2])
    else (a.1, a.2, some .eof, [], [f.2])
  | g :: rs, w, peeked =>
    let f := w.fetch len g
    let a := f.1.append room peeked (f.2.text f.1.mem)
    if a.2.len ≥ n then (a.1, { a.2 with len := n }, none, rs, [f.2])
    else match g.err with
      | some e => (a.1, a.2, some e, rs, [f.2])
      | none =>
        let r := peekRead room n len rs a.1 a.2
        (r.1, r.2.1, r.2.2.1, r.2.2.2.1, f.2 :: r.2.2.2.2)

/-- `Source.PeekN`, parse/parse.go:90-117, for `n ≥ 0`: the memory, the slice, the error and
the source afterwards. -/
def peekN (room : Slice → Nat → Nat) (w : World) (b : BSource) (n : Nat) :
    World × Slice × Option Err × BSource :=
  if n ≤ b.current.len then (w, { b.current with len := n }, none, b)
  else match b.reader with
    | none => (w, b.current, some .eof, b)
    | some rs =>
      match peekNext room n b.nextList w b.current with
      | (w, .inl peeked) => (w, peeked, none, b)
      | (w, .inr peeked) =>
        let r := peekRead room n b.buf.len rs w peeked
        (r.1, r.2.1, r.2.2.1, { b with reader := some r.2.2.2.1, nextList := b.nextList ++ r.2.2.2.2 })

/-- `Source.Consume`, parse/parse.go:136-152. -/
def consume (w : World) (b : BSource) : World × BSource :=
  match b.reader with
  | none => (w, ({ b with current := ⟨0, 0, 0⟩ } : BSource).report .eof)
  | some rs =>
    match b.nextList with
    | next :: rest => (w, { b with current := next, nextList := rest })
    | [] =>
      let g := takeGot rs
      let r := w.read b.buf g.1
      let b' := match g.1.err with
        | some e => b.report e
        | none => b
      (r.1, { b' with reader := some g.2, current := { b.buf with len := r.2 } })

/-- `s[n:]`, parse/parse.go:124. -/
def Slice.from (s : Slice) (n : Nat) : Slice := ⟨s.ptr + n, s.len - n, s.cap - n⟩

/-- The loop of `Source.ConsumeN`, parse/parse.go:119-125, for `n ≥ 0`, running at most
`fuel` rounds (`none`: still running). -/
def consumeLoop : Nat → World → BSource → Nat → Option (World × BSource)
  | 0, _, _, _ => none
  | fuel + 1, w, b, n =>
    if n ≠ 0 ∧ n ≥ b.current.len then
      consumeLoop fuel (consume w b).1 (consume w b).2 (n - b.current.len)
    else some (w, { b with current := b.current.from n })

/-- `Source.ConsumeN`, parse/parse.go:119-125, with the bound on rounds of
`Parse.Source.consumeN`; `none` when it never returns. -/
def consumeN (w : World) (b : BSource) (n : Nat) : Option (World × BSource) :=
  consumeLoop (b.nextList.length + (b.reader.getD []).length + 2) w b n

/-- A call of a method of a source (parse/parse.go:82-177). -/
inductive Op where
  | peek
  | peek1
  | peekN (n : Nat)
  | peekRune
  | consume
  | consumeN (n : Nat)
  | consume1 (b : UInt8)
  | report (e : Err)
  | error

/-- What the caller of a method sees: the bytes of the slice as it is returned, a byte, a
rune, an error, nothing, a panic or no return (parse/parse.go:82-177). -/
inductive Res where
  | bytes (b : Bytes) (e : Option Err)
  | byte (b : UInt8)
  | rune (r n : Nat)
  | err (e : Option Err)
  | unit
  | fault (f : Fault)
  deriving DecidableEq

/-- The result of a call that returns no value, and the state afterwards; a call that panics
or does not return is taken to leave the state (parse/parse.go:119-134). -/
def done (w : World) (b : BSource) : Option (World × BSource) → Res × World × BSource
  | some x => (.unit, x.1, x.2)
  | none => (.fault .hang, w, b)

/-- The methods of a source on the memory: `Peek` parse/parse.go:82-84, `Peek1` 86-88,
`PeekN` 90-117, `ConsumeN` 119-125, `Consume1` 127-134, `Consume` 136-152, `PeekRune`
154-167, `ReportError` 169-173, `Error` 175-177. -/
def call (room : Slice → Nat → Nat) (w : World) (b : BSource) : Op → Res × World × BSource
  | .peek => (.bytes (b.current.text w.mem) none, w, b)
  | .peek1 => if b.current.len = 0 then (.fault .panic, w, b) else (.byte (w.mem b.current.ptr), w, b)
  | .peekN n =>
    let r := peekN room w b n
    (.bytes (r.2.1.text r.1.mem) r.2.2.1, r.1, r.2.2.2)
  | .peekRune =>
    if b.current.len < 1 then (.rune runeError 1, w, b)
    else
      let x := first (w.mem b.current.ptr)
      if x ≥ 0xF0 then
        (.rune (decodeRune (b.current.text w.mem)).1 (decodeRune (b.current.text w.mem)).2, w, b)
      else
        let r := peekN room w b (x &&& 7).toNat
        (.rune (decodeRune (r.2.1.text r.1.mem)).1 (decodeRune (r.2.1.text r.1.mem)).2, r.1, r.2.2.2)
  | .consume => (.unit, (consume w b).1, (consume w b).2)
  | .consumeN n => done w b (consumeN w b n)
  | .consume1 b1 =>
    if b.current.len = 0 then (.fault .panic, w, b)
    else
      let c := w.mem b.current.ptr
      let b' := if b1 ≠ c then b.report (.msg (asc "expect " ++ [b1] ++ asc " but found " ++ [c])) else b
      match consumeN w b' 1 with
      | some x => (.unit, x.1, x.2)
      | none => (.fault .hang, w, b)
  | .report e => (.unit, w, b.report e)
  | .error => (.err b.err, w, b)

/-- How a source comes about: `NewSource(reader, buf)`, parse/parse.go:60-70, or
`NewSourceString(text)`, parse/parse.go:72-76. -/
inductive Made where
  | reading (reader : List Got) (buf : Slice)
  | string (text : Bytes)

/-- Making one source after the other (calls of parse/parse.go:60-76); a nil source is
`none`. -/
def makeAll : World → List Made → World × List (Option BSource)
  | w, [] => (w, [])
  | w, .reading reader buf :: ms =>
    let x := newSource w reader buf
    let r := makeAll x.1 ms
    (r.1, x.2.1 :: r.2)
  | w, .string text :: ms =>
    let x := newSourceString w text
    let r := makeAll x.1 ms
    (r.1, some x.2 :: r.2)

/-- Calls on the sources one after the other in any order, each given by the number of the
source and the method, and what each returns; a call on a nil source panics
(parse/parse.go:82-177). -/
def runAll (room : Slice → Nat → Nat) :
    World → List (Option BSource) → List (Nat × Op) → List Res × World × List (Option BSource)
  | w, bs, [] => ([], w, bs)
  | w, bs, (i, op) :: ops =>
    match bs.getD i none with
    | none =>
      let r := runAll room w bs ops
      (.fault .panic :: r.1, r.2)
    | some b =>
      let c := call room w b op
      let r := runAll room c.2.1 (bs.set i (some c.2.2)) ops
      (c.1 :: r.1, r.2)

end Verif.Parse.Buffers
