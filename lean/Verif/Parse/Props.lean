import Verif.Parse.ReadLemmas

/-!
# Properties of the parser source and readers (C01 – C08, C10, C11)
-/

namespace Verif.Parse
open Verif.Spec

/-! ### Reachable sources -/

/-- Sources reached from a new one by looking ahead and consuming, with the input that
remains.  The reader delivers the input in non-empty reads and then `(0, io.EOF)`.
With `strict` no look-ahead went past the end of the input. -/
inductive Reached (strict : Prop) : Source → Bytes → Prop where
  | reader (chunks : List Bytes) (s : Source) : (∀ c ∈ chunks, c ≠ []) →
      newSource (chunks.map fun c => (c, none)) = (some s, none) → Reached strict s chunks.flatten
  | string (input : Bytes) : input ≠ [] → Reached strict (newSourceString input) input
  | peek (s : Source) (r : Bytes) (n : Nat) : Reached strict s r → (strict → n ≤ r.length) →
      Reached strict (s.peekN n).2 r
  | consume (s s' : Source) (r : Bytes) (n : Nat) : Reached strict s r → n < r.length →
      s.consumeN n = .ok s' → Reached strict s' (r.drop n)

theorem packed_of_ne (l : List Bytes) (h : ∀ c ∈ l, c ≠ []) : Packed l := by
  induction l with
  | nil => trivial
  | cons c cs ih =>
    exact ⟨fun hc => absurd hc (h c (by simp)), ih (fun x hx => h x (by simp [hx]))⟩

theorem newSource_sim (strict : Prop) (chunks : List Bytes) (s : Source) (hne : ∀ c ∈ chunks, c ≠ [])
    (h : newSource (chunks.map fun c => (c, none)) = (some s, none)) :
    Sim strict s ⟨chunks.flatten, none⟩ ∧ chunks.flatten ≠ [] := by
  cases chunks with
  | nil => simp [newSource, readOnce] at h
  | cons c cs =>
    have hc : c ≠ [] := hne c (by simp)
    have hl : ¬ c.length = 0 := by intro hx; exact hc (List.eq_nil_of_length_eq_zero hx)
    simp only [newSource, readOnce, List.map_cons, hl, if_false, Prod.mk.injEq, Option.some.injEq,
      and_true] at h
    subst h
    have hflat : (c :: cs).flatten ≠ [] := by
      rw [List.flatten_cons]; simp [hc]
    have hp : Source.pending ⟨none, some (cs.map fun c => (c, none)), c, []⟩ = cs := by
      simp [Source.pending, Function.comp_def]
    refine ⟨⟨?_, ?_, ?_, fun hx => absurd hx hc, by simp, fun _ => rfl, fun _ => rfl,
      fun hx => absurd hx hflat, fun _ => rfl, ?_⟩, hflat⟩
    · rw [hp]; rfl
    · intro r hr
      simp only [Option.getD_some, List.mem_map] at hr
      obtain ⟨x, -, rfl⟩ := hr; rfl
    · rw [hp]; exact packed_of_ne _ (fun x hx => hne x (by simp at hx; simp [hx]))
    · intro _ x hx
      rw [hp] at hx
      exact hne x (by simp at hx; simp [hx])

theorem newSourceString_sim (strict : Prop) (input : Bytes) (h : input ≠ []) :
    Sim strict (newSourceString input) ⟨input, none⟩ := by
  refine ⟨?_, ?_, ?_, fun hx => hx, fun _ => rfl, fun _ => rfl, fun _ => rfl, fun hx => absurd hx h,
    fun _ => rfl, ?_⟩
  · simp [newSourceString, Source.pending]
  · simp [newSourceString]
  · simp [newSourceString, Source.pending, Packed]
  · simp [newSourceString, Source.pending]

theorem reached_sim {strict : Prop} {s : Source} {r : Bytes} (h : Reached strict s r) :
    Sim strict s ⟨r, none⟩ ∧ r ≠ [] := by
  induction h with
  | reader chunks s hne h => exact newSource_sim strict chunks s hne h
  | string input h => exact ⟨newSourceString_sim strict input h, h⟩
  | peek s r n _ hn ih => exact ⟨(peekN_sim ih.1 n hn).2, ih.2⟩
  | consume s s' r n _ hn hs ih =>
    obtain ⟨s'', e, hsim⟩ := consumeN_sim ih.1 n (Nat.le_of_lt hn)
    rw [hs] at e
    simp only [Except.ok.injEq] at e
    subst e
    have hne : r.drop n ≠ [] := by intro hx; rw [List.drop_eq_nil_iff] at hx; omega
    refine ⟨?_, hne⟩
    have : (Input.advance ⟨r, none⟩ n) = ⟨r.drop n, none⟩ := by
      simp only [Input.advance, hne, if_false]
    rw [this] at hsim
    exact hsim

theorem sim_weaken {strict : Prop} {s : Source} {a : Input} (h : Sim strict s a) : Sim False s a :=
  ⟨h.rest, h.noErr, h.packed, h.cur, h.nilr, h.errEq, h.errNone, h.endErr, fun hx => hx.elim, fun hx => hx.elim⟩

/-- What looking ahead shows: `r` is what is left. -/
def Delivers (s : Source) (r : Bytes) : Prop :=
  ∀ n, (s.peekN n).1 = (r.take n, if n ≤ r.length then none else some .eof)

theorem sim_delivers {strict : Prop} {s : Source} {a : Input} (h : Sim strict s a) : Delivers s a.rest :=
  fun n => (peekN_sim (sim_weaken h) n (fun hx => hx.elim)).1

/-! ### C01 -/

/-- The operations of a parser on a source (without `Peek`/`Consume`, which hand out
chunks by design). -/
inductive Op where
  | peekN (n : Nat)
  | peek1
  | consumeN (n : Nat)
  | consume1 (b : UInt8)
  | peekRune
  | anyExcept1 (b : UInt8)
  | anyExcept2 (b c : UInt8)
  | skipSpace
  | uint64
  | int64
  | int32
  | unicodeRange (table : RangeTable)
  | skipUnicodeRange (table : RangeTable)
  | skipUnicodeSpace (isSpace : RangeTable)
  | error

/-- What a caller sees of an operation. -/
inductive Obs where
  | bytes (b : Bytes) (e : Option Err)
  | byte (b : UInt8)
  | unit
  | rune (r n : Nat)
  | u64 (v : UInt64)
  | i64 (v : Int64)
  | i32 (v : Int32)
  | count (n : Nat)
  | runes (rs : List Nat)
  | err (e : Option Err)

/-- Run one operation. -/
def Op.run (s : Source) : Op → Out (Obs × Source)
  | .peekN n => .ok (.bytes (s.peekN n).1.1 (s.peekN n).1.2, (s.peekN n).2)
  | .peek1 => s.peek1.map fun b => (.byte b, s)
  | .consumeN n => (s.consumeN n).map fun s => (.unit, s)
  | .consume1 b => (s.consume1 b).map fun s => (.unit, s)
  | .peekRune => .ok (.rune s.peekRune.1.1 s.peekRune.1.2, s.peekRune.2)
  | .anyExcept1 b => (Parse.anyExcept1 s [] b).map fun r => (.bytes r.1 none, r.2)
  | .anyExcept2 b c => (Parse.anyExcept2 s [] b c).map fun r => (.bytes r.1 none, r.2)
  | .skipSpace => (Parse.skipSpace s).map fun r => (.count r.1, r.2)
  | .uint64 => (readUint64 s).map fun r => (.u64 r.1, r.2)
  | .int64 => (readInt64 s).map fun r => (.i64 r.1, r.2)
  | .int32 => (readInt32 s).map fun r => (.i32 r.1, r.2)
  | .unicodeRange t => (Parse.unicodeRange s [] t).map fun r => (.runes r.1, r.2)
  | .skipUnicodeRange t => (Parse.skipUnicodeRange s t).map fun r => (.count r.1, r.2)
  | .skipUnicodeSpace t => (Parse.skipUnicodeSpace s t).map fun r => (.count r.1, r.2)
  | .error => .ok (.err s.err, s)

/-- Run a sequence of operations and collect what the caller sees. -/
def runOps (s : Source) : List Op → Out (List Obs)
  | [] => .ok []
  | op :: ops =>
    match op.run s with
    | .error f => .error f
    | .ok (o, s') => (runOps s' ops).map fun os => o :: os

/-- The input left after an operation. -/
def Op.next (a : Input) : Op → Input
  | .consumeN n => a.advance n
  | .consume1 b => a.consume1 b
  | .anyExcept1 b => (a.skipWhile (fun x => x != b)).2
  | .anyExcept2 b c => (a.skipWhile (fun x => x != b && x != c)).2
  | .skipSpace => (a.skipWhile isSpaceByte).2
  | .uint64 => a.uint64.2
  | .int64 => a.int64.2
  | .int32 => a.int32.2
  | .unicodeRange t => a.skipRunes t
  | .skipUnicodeRange t => a.skipRunes t
  | .skipUnicodeSpace t => if a.err = none then a.skipRunes t else a
  | _ => a

/-- The operation asks for nothing beyond the end of the input: look-ahead and
consumption within it, complete runes, numbers that fit in 64 bits; a Unicode class
does not contain the replacement character (which `PeekRune` reports at the end). -/
def Op.inside (a : Input) : Op → Prop
  | .peekN n => n ≤ a.rest.length
  | .peek1 => a.rest ≠ []
  | .consumeN n => n ≤ a.rest.length
  | .consume1 _ => a.rest ≠ []
  | .peekRune => a.wholeRune
  | .uint64 => a.fits64
  | .int64 => a.rest ≠ [] ∧ a.afterSign.fits64
  | .int32 => a.rest ≠ [] ∧ a.afterSign.fits64
  | .unicodeRange t => t runeError = false ∧ (a.skipRunes t).wholeRune
  | .skipUnicodeRange t => t runeError = false ∧ (a.skipRunes t).wholeRune
  | .skipUnicodeSpace t => t runeError = false ∧ (a.skipRunes t).wholeRune
  | _ => True

/-- A whole sequence stays inside the input. -/
def insideAll (a : Input) : List Op → Prop
  | [] => True
  | op :: ops => op.inside a ∧ insideAll (op.next a) ops

theorem op_sim {s1 s2 : Source} {a : Input} (h1 : Sim True s1 a) (h2 : Sim True s2 a) (op : Op)
    (hin : op.inside a) :
    ∃ o s1' s2', op.run s1 = .ok (o, s1') ∧ op.run s2 = .ok (o, s2') ∧
      Sim True s1' (op.next a) ∧ Sim True s2' (op.next a) := by
  cases op with
  | peekN n =>
    have p1 := peekN_sim h1 n (fun _ => hin)
    have p2 := peekN_sim h2 n (fun _ => hin)
    exact ⟨_, _, _, rfl, by simp only [Op.run]; rw [p2.1, p1.1], p1.2, p2.2⟩
  | peek1 =>
    obtain ⟨c, t, t', hc, ha⟩ := sim_head h1 hin
    obtain ⟨c', u, u', hc', ha'⟩ := sim_head h2 hin
    have : c' = c := by rw [ha] at ha'; simp only [List.cons.injEq] at ha'; exact ha'.1.symm
    subst this
    refine ⟨.byte c', s1, s2, ?_, ?_, h1, h2⟩
    · simp [Op.run, Source.peek1, hc, Except.map]
    · simp [Op.run, Source.peek1, hc', Except.map]
  | consumeN n =>
    obtain ⟨s1', e1, q1⟩ := consumeN_sim h1 n hin
    obtain ⟨s2', e2, q2⟩ := consumeN_sim h2 n hin
    exact ⟨.unit, s1', s2', by simp [Op.run, e1, Except.map], by simp [Op.run, e2, Except.map], q1, q2⟩
  | consume1 b =>
    obtain ⟨s1', e1, q1⟩ := consume1_sim h1 hin b
    obtain ⟨s2', e2, q2⟩ := consume1_sim h2 hin b
    exact ⟨.unit, s1', s2', by simp [Op.run, e1, Except.map], by simp [Op.run, e2, Except.map], q1, q2⟩
  | peekRune =>
    have p1 := peekRune_sim h1 (fun _ => hin)
    have p2 := peekRune_sim h2 (fun _ => hin)
    exact ⟨_, _, _, rfl, by simp only [Op.run]; rw [p2.1, p1.1], p1.2, p2.2⟩
  | anyExcept1 b =>
    obtain ⟨s1', e1, q1⟩ := anyExcept1_sim h1 [] b
    obtain ⟨s2', e2, q2⟩ := anyExcept1_sim h2 [] b
    exact ⟨_, s1', s2', by simp only [Op.run, e1, Except.map]; rfl, by simp only [Op.run, e2, Except.map], q1, q2⟩
  | anyExcept2 b c =>
    obtain ⟨s1', e1, q1⟩ := anyExcept2_sim h1 [] b c
    obtain ⟨s2', e2, q2⟩ := anyExcept2_sim h2 [] b c
    exact ⟨_, s1', s2', by simp only [Op.run, e1, Except.map]; rfl, by simp only [Op.run, e2, Except.map], q1, q2⟩
  | skipSpace =>
    obtain ⟨s1', e1, q1⟩ := skipSpace_sim h1
    obtain ⟨s2', e2, q2⟩ := skipSpace_sim h2
    exact ⟨_, s1', s2', by simp only [Op.run, e1, Except.map]; rfl, by simp only [Op.run, e2, Except.map], q1, q2⟩
  | uint64 =>
    obtain ⟨s1', e1, q1⟩ := readUint64_sim h1 hin
    obtain ⟨s2', e2, q2⟩ := readUint64_sim h2 hin
    exact ⟨_, s1', s2', by simp only [Op.run, e1, Except.map]; rfl, by simp only [Op.run, e2, Except.map], q1, q2⟩
  | int64 =>
    obtain ⟨s1', e1, q1⟩ := readInt64_sim h1 hin.1 hin.2
    obtain ⟨s2', e2, q2⟩ := readInt64_sim h2 hin.1 hin.2
    exact ⟨_, s1', s2', by simp only [Op.run, e1, Except.map]; rfl, by simp only [Op.run, e2, Except.map], q1, q2⟩
  | int32 =>
    obtain ⟨s1', e1, q1⟩ := readInt32_sim h1 hin.1 hin.2
    obtain ⟨s2', e2, q2⟩ := readInt32_sim h2 hin.1 hin.2
    exact ⟨_, s1', s2', by simp only [Op.run, e1, Except.map]; rfl, by simp only [Op.run, e2, Except.map], q1, q2⟩
  | unicodeRange t =>
    obtain ⟨s1', e1, q1⟩ := unicodeRange_sim t hin.1 [] h1 (fun _ => hin.2)
    obtain ⟨s2', e2, q2⟩ := unicodeRange_sim t hin.1 [] h2 (fun _ => hin.2)
    exact ⟨_, s1', s2', by simp only [Op.run, e1, Except.map]; rfl, by simp only [Op.run, e2, Except.map], q1, q2⟩
  | skipUnicodeRange t =>
    obtain ⟨s1', e1, q1⟩ := skipUnicodeRange_sim t hin.1 h1 (fun _ => hin.2)
    obtain ⟨s2', e2, q2⟩ := skipUnicodeRange_sim t hin.1 h2 (fun _ => hin.2)
    exact ⟨_, s1', s2', by simp only [Op.run, e1, Except.map]; rfl, by simp only [Op.run, e2, Except.map], q1, q2⟩
  | skipUnicodeSpace t =>
    by_cases hz : a.err = none
    · obtain ⟨s1', e1, q1⟩ := skipUnicodeSpace_sim t hin.1 h1 hz (fun _ => hin.2)
      obtain ⟨s2', e2, q2⟩ := skipUnicodeSpace_sim t hin.1 h2 hz (fun _ => hin.2)
      refine ⟨_, s1', s2', by simp only [Op.run, e1, Except.map]; rfl, by simp only [Op.run, e2, Except.map], ?_, ?_⟩
      · simp only [Op.next, hz, if_true]; exact q1
      · simp only [Op.next, hz, if_true]; exact q2
    · have g : ∀ s : Source, Sim True s a → Parse.skipUnicodeSpace s t = .ok (0, s) := by
        intro s h
        have : s.err.isSome := by
          rw [h.strictErr trivial]; cases hx : a.err <;> simp_all
        simp [Parse.skipUnicodeSpace, skipUniSpaceLoop, this]
      refine ⟨.count 0, s1, s2, by simp [Op.run, g s1 h1, Except.map], by simp [Op.run, g s2 h2, Except.map], ?_, ?_⟩
      · simp only [Op.next, hz, if_false]; exact h1
      · simp only [Op.next, hz, if_false]; exact h2
  | error =>
    exact ⟨_, _, _, rfl, by simp only [Op.run]; rw [h2.strictErr trivial, h1.strictErr trivial], h1, h2⟩

theorem runOps_sim (ops : List Op) : ∀ {s1 s2 : Source} {a : Input}, Sim True s1 a → Sim True s2 a →
    insideAll a ops → ∃ os, runOps s1 ops = .ok os ∧ runOps s2 ops = .ok os := by
  induction ops with
  | nil => intro s1 s2 a _ _ _; exact ⟨[], rfl, rfl⟩
  | cons op ops ih =>
    intro s1 s2 a h1 h2 hin
    obtain ⟨o, s1', s2', e1, e2, q1, q2⟩ := op_sim h1 h2 op hin.1
    obtain ⟨os, r1, r2⟩ := ih q1 q2 hin.2
    exact ⟨o :: os, by simp [runOps, e1, r1, Except.map], by simp [runOps, e2, r2, Except.map]⟩

/-- C01 (partial): however the input is cut into non-empty reads, every sequence of
operations that stays inside the input gives the same values and the same recorded
errors as on a source over the whole string, and never panics or hangs.  Missing:
readers that return data together with `io.EOF` (false, `data_with_eof_lost`), and
the recorded error after a look-ahead past the end (false, `eof_not_recorded`). -/
theorem chunking_irrelevant_partial (chunks : List Bytes) (hne : ∀ c ∈ chunks, c ≠ [])
    (hin : chunks ≠ []) (ops : List Op) (hops : insideAll ⟨chunks.flatten, none⟩ ops) :
    ∃ s os, newSource (chunks.map fun c => (c, none)) = (some s, none) ∧
      runOps s ops = .ok os ∧ runOps (newSourceString chunks.flatten) ops = .ok os := by
  have hs : ∃ s, newSource (chunks.map fun c => (c, none)) = (some s, none) := by
    cases chunks with
    | nil => exact absurd rfl hin
    | cons c cs =>
      have hl : ¬ c.length = 0 := by
        intro hx; exact hne c (by simp) (List.eq_nil_of_length_eq_zero hx)
      exact ⟨_, by simp only [newSource, readOnce, List.map_cons, hl, if_false]; rfl⟩
  obtain ⟨s, hs⟩ := hs
  obtain ⟨h1, hf⟩ := newSource_sim True chunks s hne hs
  obtain ⟨os, r1, r2⟩ := runOps_sim ops h1 (newSourceString_sim True _ hf) hops
  exact ⟨s, os, hs, r1, r2⟩

/-- A case: `12 é-3` cut in the middle of the first number and of the rune. -/
example : insideAll ⟨([[49], [50, 32, 0xC3], [0xA9, 45, 51]] : List Bytes).flatten, none⟩
    [.peekN 5, .uint64, .skipSpace, .peekRune, .consumeN 2, .int64, .error] := by
  simp [insideAll, Op.inside, Op.next, Input.advance, Input.uint64, Input.fits64, Input.skipWhile,
    natOfDigits, isSpaceByte, Input.wholeRune, runeNeed, Input.afterSign, isDigit]

example : runOps (newSourceString (asc "12 x"))
    [.peekN 3, .uint64, .skipSpace, .error, .peek1, .consumeN 1, .error] =
    .ok [.bytes (asc "12 ") none, .u64 12, .count 1, .err none, .byte 120, .unit, .err (some .eof)] := by
  rfl

/-- C01, negation: a reader that returns its last bytes together with `io.EOF` (as
`io.Reader` allows) makes `Uint64` return 1 instead of 12. -/
theorem data_with_eof_lost :
    ∃ s, newSource [(asc "1", none), (asc "2", some .eof)] = (some s, none) ∧
      (readUint64 s).map (·.1) = .ok 1 ∧
      (readUint64 (newSourceString (asc "12"))).map (·.1) = .ok 12 := by
  refine ⟨_, rfl, ?_, ?_⟩ <;> rfl

/-- C01, negation: after a look-ahead past the end, consuming everything does not
record `io.EOF` on a streamed source, but does on a string source. -/
theorem eof_not_recorded :
    ∃ s, newSource [(asc "ab", none)] = (some s, none) ∧
      runOps s [.peekN 3, .consumeN 2, .error] = .ok [.bytes (asc "ab") (some .eof), .unit, .err none] ∧
      runOps (newSourceString (asc "ab")) [.peekN 3, .consumeN 2, .error] =
        .ok [.bytes (asc "ab") (some .eof), .unit, .err (some .eof)] := by
  refine ⟨_, rfl, ?_, ?_⟩ <;> rfl

/-! ### C03 -/

/-- C03: at any reachable position, `PeekRune` returns the scalar value whose UTF-8
encoding the remaining input starts with, with the length of the encoding, or U+FFFD
with length 1 if there is none; however the bytes are spread over chunks, and
whatever was looked at before (also past the end). -/
theorem peekRune_exact {s : Source} {r : Bytes} (h : Reached False s r) :
    (∀ n, isScalar n = true → utf8Encode n <+: r → s.peekRune.1 = (n, (utf8Encode n).length)) ∧
    ((∀ n, isScalar n = true → ¬ utf8Encode n <+: r) → s.peekRune.1 = (0xFFFD, 1)) := by
  obtain ⟨hsim, hne⟩ := reached_sim h
  have hp := (peekRune_sim hsim (fun hx => hx.elim)).1
  have hr : Input.rune ⟨r, none⟩ = decodeRune r := by simp only [Input.rune]; rw [if_neg hne]
  rw [hp, hr]
  constructor
  · rintro n hn ⟨t, rfl⟩
    exact decode_encode n hn t
  · intro hx
    exact (decode_error_iff r hne).mpr hx

/-- Looking at a rune leaves everything to be read. -/
theorem peekRune_keeps {s : Source} {r : Bytes} (h : Reached False s r) : Delivers s.peekRune.2 r :=
  sim_delivers (peekRune_sim (reached_sim h).1 (fun hx => hx.elim)).2

/-- `中` (E4 B8 AD) spread over three chunks. -/
example : ∃ s, Reached False s [0xE4, 0xB8, 0xAD] ∧ s.peekRune.1 = (0x4E2D, 3) := by
  have h : Reached False ⟨none, some [([0xB8], none), ([0xAD], none)], [0xE4], []⟩ [0xE4, 0xB8, 0xAD] :=
    Reached.reader [[0xE4], [0xB8], [0xAD]] _ (by simp) rfl
  refine ⟨_, h, ?_⟩
  have := (peekRune_exact h).1 0x4E2D (by decide) ⟨[], by decide⟩
  rw [this]; decide

/-! ### C04, C05, C06 -/

/-- Conclusion shared by the readers: what is left, and the recorded error (`io.EOF`
exactly if nothing is left). -/
def LeftAt (s : Source) (r : Bytes) : Prop :=
  Delivers s r ∧ s.err = if r = [] then some .eof else none

theorem leftAt_of_sim {s : Source} {r : Bytes} {n : Nat} (h : Sim True s (Input.advance ⟨r, none⟩ n)) :
    LeftAt s (r.drop n) := by
  refine ⟨sim_delivers h, ?_⟩
  rw [h.strictErr trivial]
  simp [Input.advance]

theorem takeWhile_digits (ds tail : Bytes) (hd : ∀ c ∈ ds, isDigit c = true)
    (ht : ∀ c ∈ tail.head?, isDigit c = false) : (ds ++ tail).takeWhile isDigit = ds := by
  rw [List.takeWhile_append_of_pos hd]
  cases tail with
  | nil => simp
  | cons c t =>
    have := ht c (by simp)
    simp [this]

theorem uint64_digits (ds tail : Bytes) (hd : ∀ c ∈ ds, isDigit c = true)
    (ht : ∀ c ∈ tail.head?, isDigit c = false) :
    Input.skipWhile ⟨ds ++ tail, none⟩ isDigit = (ds, Input.advance ⟨ds ++ tail, none⟩ ds.length) := by
  simp only [Input.skipWhile, if_true]
  rw [takeWhile_digits ds tail hd ht]

/-- C04: at any reachable position with any cutting into chunks, `Uint64` returns the
exact value of the digit run and leaves the source just after its last digit. -/
theorem readUint64_exact {s : Source} {ds tail : Bytes} (h : Reached True s (ds ++ tail))
    (hd : ∀ c ∈ ds, isDigit c = true) (ht : ∀ c ∈ tail.head?, isDigit c = false)
    (hr : natOfDigits 0 ds < 2 ^ 64) :
    ∃ v s', readUint64 s = .ok (v, s') ∧ v.toNat = natOfDigits 0 ds ∧ LeftAt s' tail := by
  obtain ⟨hsim, -⟩ := reached_sim h
  have e := uint64_digits ds tail hd ht
  have hf : Input.fits64 ⟨ds ++ tail, none⟩ := by unfold Input.fits64; rw [e]; exact hr
  obtain ⟨s', h1, h2⟩ := readUint64_sim hsim hf
  unfold Input.uint64 at h1 h2
  rw [e] at h1 h2
  refine ⟨_, s', h1, ?_, ?_⟩
  · rw [UInt64.toNat_ofNat', Nat.mod_eq_of_lt hr]
  · have := leftAt_of_sim h2
    rwa [List.drop_left] at this

/-- `007` over two chunks, then a comma. -/
example : ∃ s v s', Reached True s (asc "007" ++ asc ",") ∧ readUint64 s = .ok (v, s') ∧ v.toNat = 7 := by
  have h : Reached True ⟨none, some [(asc "07,", none)], asc "0", []⟩ (asc "007" ++ asc ",") :=
    Reached.reader [asc "0", asc "07,"] _ (by decide) rfl
  obtain ⟨v, s', h1, h2, -⟩ := readUint64_exact h (by decide) (by decide) (by decide)
  exact ⟨_, v, s', h, h1, h2⟩

/-- The digit that first takes the number out of range. -/
theorem u64Step_over (v : UInt64) (c : UInt8) (h : isDigit c = true)
    (hr : 2 ^ 64 ≤ v.toNat * 10 + (c.toNat - 48)) :
    u64Step v c =
      if (v.toNat * 10 + (c.toNat - 48)) % 2 ^ 64 < v.toNat then .fail (.msg (asc "uint64: overflow"))
      else .next (UInt64.ofNat (v.toNat * 10 + (c.toNat - 48))) := by
  obtain ⟨ind, h1, h2, h3⟩ := intDigits_some c h
  have ht := times10 v ind
  rw [h2, show 10 * v.toNat = v.toNat * 10 by omega] at ht
  have hbig : v > uint64SafeToMultiple10 := by
    have e : uint64SafeToMultiple10.toNat = 1844674407370955160 := by decide
    show uint64SafeToMultiple10 < v
    rw [UInt64.lt_iff_toNat_lt, e]
    omega
  have hlt : (v <<< 3) + (v <<< 1) + ind < v ↔ (v.toNat * 10 + (c.toNat - 48)) % 2 ^ 64 < v.toNat := by
    rw [UInt64.lt_iff_toNat_lt, ht]
  have hv : (v <<< 3) + (v <<< 1) + ind = UInt64.ofNat (v.toNat * 10 + (c.toNat - 48)) := by
    apply UInt64.toNat_inj.mp
    rw [ht, UInt64.toNat_ofNat']
  simp only [u64Step, h1]
  by_cases hx : (v.toNat * 10 + (c.toNat - 48)) % 2 ^ 64 < v.toNat
  · rw [if_pos ⟨hbig, hlt.mpr hx⟩, if_pos hx]
  · rw [if_neg (fun hy => hx (hlt.mp hy.2)), if_neg hx, hv]

theorem natOfDigits_snoc (acc : Nat) (ds : Bytes) (c : UInt8) :
    natOfDigits acc (ds ++ [c]) = natOfDigits acc ds * 10 + (c.toNat - 48) := by
  simp [natOfDigits, List.foldl_append]

/-- A failing scan makes the chunk loop report the error and return zero. -/
theorem chunkLoop_fail {σ : Type} {scan : σ → Bytes → Scan σ} (hom : ScanHom scan)
    (zero : σ) (e : Err) : ∀ (fuel : Nat) {s : Source} {r : Bytes} (st : σ), Sim True s ⟨r, none⟩ →
    scan st r = .fail e → s.chunks + 2 ≤ fuel →
    ∃ s', chunkLoop scan zero fuel s st = .ok (zero, s') ∧ s'.err = some e := by
  intro fuel
  induction fuel with
  | zero => intro s r st _ _ hf; omega
  | succ fuel ih =>
    intro s r st h hfail hf
    have hsn : s.err = none := h.strictErr trivial
    have happ := hom.app st s.current (s.nextList ++ s.pending).flatten
    rw [h.rest] at happ
    simp only at happ
    rw [hfail] at happ
    simp only [chunkLoop, hsn, Option.isSome_none, Bool.false_eq_true, if_false]
    cases hsc : scan st s.current with
    | stop i st' => rw [hsc] at happ; simp at happ
    | fail e' =>
      rw [hsc] at happ
      simp only [Scan.fail.injEq] at happ
      subst happ
      exact ⟨_, rfl, by simp [Source.report, hsn]⟩
    | more st' =>
      rw [hsc] at happ
      simp only at happ
      have hsim := consume_sim h
      have hrest' : (Input.advance ⟨r, none⟩ s.current.length).rest = (s.nextList ++ s.pending).flatten := by
        have hr := h.rest
        simp only at hr
        simp only [Input.advance]
        rw [← hr]; simp
      have hfl : scan st' (s.nextList ++ s.pending).flatten = .fail e := by
        cases hy : scan st' (s.nextList ++ s.pending).flatten with
        | stop i st'' => rw [hy] at happ; simp [Scan.shift] at happ
        | more st'' => rw [hy] at happ; simp [Scan.shift] at happ
        | fail e' => rw [hy] at happ; simp only [Scan.shift, Scan.fail.injEq] at happ; rw [happ]
      have hne : (s.nextList ++ s.pending).flatten ≠ [] := by
        intro hx; rw [hx, hom.nil] at hfl; simp at hfl
      have hadv : Input.advance ⟨r, none⟩ s.current.length = ⟨(s.nextList ++ s.pending).flatten, none⟩ := by
        have he : (Input.advance ⟨r, none⟩ s.current.length).err = none := by
          have hx := hrest'
          simp only [Input.advance] at hx ⊢
          rw [if_neg (by rw [hx]; exact hne)]
        cases ha : Input.advance ⟨r, none⟩ s.current.length with
        | mk x y => rw [ha] at hrest' he; simp only at hrest' he; rw [hrest', he]
      rw [hadv] at hsim
      apply ih st' hsim hfl
      rw [chunks_consume s h.nilr]
      have : s.chunks ≠ 0 := by
        intro hch
        apply hne
        have h1 : s.nextList = [] := by
          apply List.eq_nil_of_length_eq_zero; unfold Source.chunks at hch; omega
        have h2 : s.pending = [] := by
          apply List.eq_nil_of_length_eq_zero
          unfold Source.chunks at hch; unfold Source.pending
          rw [List.length_map]; omega
        rw [h1, h2]; rfl
      omega

/-- C05 (partial): let `ds` be in range and the next digit `c` take the number `w` out
of the 64-bit range; if `w mod 2^64 < w / 10` the overflow is reported and 0 returned.
Missing: the other numbers out of range, where it is false (`overflow_undetected`). -/
theorem readUint64_overflow_partial {s : Source} {ds tail : Bytes} {c : UInt8}
    (h : Reached True s (ds ++ c :: tail)) (hd : ∀ c ∈ ds, isDigit c = true) (hc : isDigit c = true)
    (hr : natOfDigits 0 ds < 2 ^ 64) (ho : 2 ^ 64 ≤ natOfDigits 0 (ds ++ [c]))
    (hw : natOfDigits 0 (ds ++ [c]) % 2 ^ 64 < natOfDigits 0 (ds ++ [c]) / 10) :
    ∃ s', readUint64 s = .ok (0, s') ∧ s'.err = some (.msg (asc "uint64: overflow")) := by
  obtain ⟨hsim, -⟩ := reached_sim h
  have e : (fun (st : UInt64) buf => scanUint64 0 st buf) = (fun st buf => genScan u64Step 0 st buf) := by
    funext st buf; exact scanUint64_gen buf 0 st
  have hcl : c.toNat - 48 < 10 := by
    obtain ⟨ind, -, h2, h3⟩ := intDigits_some c hc; omega
  have hsn := natOfDigits_snoc 0 ds c
  have hv : (UInt64.ofNat (natOfDigits 0 ds)).toNat = natOfDigits 0 ds := by
    rw [UInt64.toNat_ofNat', Nat.mod_eq_of_lt hr]
  have hfail : genScan u64Step 0 0 (ds ++ c :: tail) = .fail (.msg (asc "uint64: overflow")) := by
    rw [genScan_digits ds (c :: tail) 0 0 hd hr]
    show genScan u64Step (0 + ds.length) (UInt64.ofNat (natOfDigits 0 ds)) (c :: tail) = _
    simp only [genScan]
    rw [u64Step_over _ c hc (by rw [hv]; omega), if_pos (by rw [hv, ← hsn]; omega)]
  obtain ⟨s', h1, h2⟩ := chunkLoop_fail (genScan_hom u64Step) 0 (.msg (asc "uint64: overflow"))
    (s.chunks + 2) 0 hsim hfail (Nat.le_refl _)
  exact ⟨s', by unfold readUint64; rw [e]; exact h1, h2⟩

/-- 18446744073709551616 = 2^64. -/
example : natOfDigits 0 (asc "18446744073709551616") % 2 ^ 64 < natOfDigits 0 (asc "18446744073709551616") / 10 ∧
    natOfDigits 0 (asc "1844674407370955161") < 2 ^ 64 := by decide +kernel

/-- C05, negation: in the complementary case no error is reported: the value returned is
the number modulo 2^64 and the source goes on as if the number had been fine. -/
theorem overflow_undetected {s : Source} {ds tail : Bytes} {c : UInt8}
    (h : Reached True s (ds ++ c :: tail)) (hd : ∀ c ∈ ds, isDigit c = true) (hc : isDigit c = true)
    (ht : ∀ c ∈ tail.head?, isDigit c = false)
    (hr : natOfDigits 0 ds < 2 ^ 64) (ho : 2 ^ 64 ≤ natOfDigits 0 (ds ++ [c]))
    (hw : natOfDigits 0 (ds ++ [c]) / 10 ≤ natOfDigits 0 (ds ++ [c]) % 2 ^ 64) :
    ∃ v s', readUint64 s = .ok (v, s') ∧ v.toNat = natOfDigits 0 (ds ++ [c]) % 2 ^ 64 ∧ LeftAt s' tail := by
  obtain ⟨hsim, -⟩ := reached_sim h
  have e : (fun (st : UInt64) buf => scanUint64 0 st buf) = (fun st buf => genScan u64Step 0 st buf) := by
    funext st buf; exact scanUint64_gen buf 0 st
  have hcl : c.toNat - 48 < 10 := by
    obtain ⟨ind, -, h2, h3⟩ := intDigits_some c hc; omega
  have hsn := natOfDigits_snoc 0 ds c
  have hv : (UInt64.ofNat (natOfDigits 0 ds)).toNat = natOfDigits 0 ds := by
    rw [UInt64.toNat_ofNat', Nat.mod_eq_of_lt hr]
  have hscan : genScan u64Step 0 0 (ds ++ c :: tail) =
      if tail = [] then .more (UInt64.ofNat (natOfDigits 0 (ds ++ [c])))
      else .stop (ds.length + 1) (UInt64.ofNat (natOfDigits 0 (ds ++ [c]))) := by
    rw [genScan_digits ds (c :: tail) 0 0 hd hr]
    show genScan u64Step (0 + ds.length) (UInt64.ofNat (natOfDigits 0 ds)) (c :: tail) = _
    simp only [genScan]
    rw [u64Step_over _ c hc (by rw [hv]; omega), if_neg (by rw [hv, ← hsn]; omega)]
    rw [hv, ← hsn]
    cases tail with
    | nil => simp [genScan]
    | cons d t => simp [genScan, u64Step_stop _ d (ht d (by simp))]
  obtain ⟨s', h1, h2⟩ := chunkLoop_sim (genScan_hom u64Step) 0 (s.chunks + 2) 0 hsim
    (fun _ e => by rw [hscan]; split <;> simp) (Nat.le_refl _)
  have hs : scanInput (fun st buf => genScan u64Step 0 st buf) ⟨ds ++ c :: tail, none⟩ 0 =
      (UInt64.ofNat (natOfDigits 0 (ds ++ [c])), Input.advance ⟨ds ++ c :: tail, none⟩ (ds.length + 1)) := by
    simp only [scanInput, Option.isSome_none, Bool.false_eq_true, if_false, hscan]
    by_cases htl : tail = []
    · subst htl; simp
    · rw [if_neg htl]
  rw [hs] at h1 h2
  refine ⟨_, s', by unfold readUint64; rw [e]; exact h1, by rw [UInt64.toNat_ofNat'], ?_⟩
  have := leftAt_of_sim h2
  have hdr : (ds ++ c :: tail).drop (ds.length + 1) = tail := by
    rw [show ds ++ c :: tail = (ds ++ [c]) ++ tail by simp, show ds.length + 1 = (ds ++ [c]).length by simp,
      List.drop_left]
  rwa [hdr] at this

/-- `30000000000000000000` is read as 11553255926290448384. -/
example : ∃ s v s', Reached True s (asc "30000000000000000000") ∧ readUint64 s = .ok (v, s') ∧
    v.toNat = 11553255926290448384 := by
  have h : Reached True (newSourceString (asc "30000000000000000000")) (asc "3000000000000000000" ++ 48 :: []) :=
    Reached.string _ (by decide)
  obtain ⟨v, s', h1, h2, -⟩ := overflow_undetected h (by decide) (by decide) (by simp) (by decide +kernel)
    (by decide +kernel) (by decide +kernel)
  exact ⟨_, v, s', h, h1, by rw [h2]; decide +kernel⟩

/-- The integer a sign and a digit run denote. -/
def signedOf (neg : Bool) (n : Nat) : Int := if neg then -(n : Int) else n

/-- Text of the sign. -/
def signText (neg : Bool) : Bytes := if neg then [45] else []

theorem digit_ne_minus (c : UInt8) (h : isDigit c = true) : c ≠ 45 := by
  rintro rfl; revert h; decide

/-- The steps shared by the two signed readers. -/
theorem signed_input (neg : Bool) (ds tail : Bytes) (hne : ds ≠ []) (hd : ∀ c ∈ ds, isDigit c = true)
    (ht : ∀ c ∈ tail.head?, isDigit c = false) (hr : natOfDigits 0 ds < 2 ^ 64) :
    let a : Input := ⟨signText neg ++ ds ++ tail, none⟩
    a.rest ≠ [] ∧ a.afterSign.fits64 ∧ ((a.rest.head? = some 45) ↔ neg = true) ∧
    a.afterSign.uint64 = (UInt64.ofNat (natOfDigits 0 ds), a.advance (signText neg ++ ds).length) := by
  obtain ⟨c, t, rfl⟩ : ∃ c t, ds = c :: t := by cases ds <;> simp_all
  have hc := digit_ne_minus c (hd c (by simp))
  have key : Input.skipWhile ⟨c :: t ++ tail, none⟩ isDigit =
      (c :: t, Input.advance ⟨c :: t ++ tail, none⟩ (c :: t).length) := uint64_digits (c :: t) tail hd ht
  cases neg with
  | false =>
    have has : Input.afterSign ⟨signText false ++ c :: t ++ tail, none⟩ = ⟨c :: t ++ tail, none⟩ := by
      simp [Input.afterSign, signText, hc]
    refine ⟨by simp [signText], ?_, by simp [signText, hc], ?_⟩
    · rw [has]; unfold Input.fits64; rw [key]; exact hr
    · rw [has]; unfold Input.uint64; rw [key]; simp [signText]
  | true =>
    have has : Input.afterSign ⟨signText true ++ c :: t ++ tail, none⟩ = ⟨c :: t ++ tail, none⟩ := by
      simp [Input.afterSign, signText, Input.advance]
    refine ⟨by simp [signText], ?_, by simp [signText], ?_⟩
    · rw [has]; unfold Input.fits64; rw [key]; exact hr
    · rw [has]; unfold Input.uint64; rw [key]
      simp [signText, Input.advance]

theorem toInt_of_u64 (v : UInt64) : v.toInt64.toInt = (v.toNat : Int).bmod (2 ^ 64) := by
  rw [← Int64.toInt_toBitVec]
  show v.toBitVec.toInt = _
  rw [BitVec.toInt_eq_toNat_bmod]; rfl

/-- C06: in range, `Int64` returns the exact signed value. -/
theorem readInt64_exact {s : Source} (neg : Bool) {ds tail : Bytes}
    (h : Reached True s (signText neg ++ ds ++ tail)) (hne : ds ≠ [])
    (hd : ∀ c ∈ ds, isDigit c = true) (ht : ∀ c ∈ tail.head?, isDigit c = false)
    (hr : -2 ^ 63 ≤ signedOf neg (natOfDigits 0 ds) ∧ signedOf neg (natOfDigits 0 ds) < 2 ^ 63) :
    ∃ v s', readInt64 s = .ok (v, s') ∧ v.toInt = signedOf neg (natOfDigits 0 ds) ∧ LeftAt s' tail := by
  have hlt : natOfDigits 0 ds < 2 ^ 64 := by
    unfold signedOf at hr; cases neg <;> simp at hr <;> omega
  obtain ⟨hsim, -⟩ := reached_sim h
  obtain ⟨h1, h2, h3, h4⟩ := signed_input neg ds tail hne hd ht hlt
  obtain ⟨s', e1, e2⟩ := readInt64_sim hsim h1 h2
  unfold Input.int64 at e1 e2
  rw [h4] at e1 e2
  have hv : (UInt64.ofNat (natOfDigits 0 ds)).toNat = natOfDigits 0 ds := by
    rw [UInt64.toNat_ofNat', Nat.mod_eq_of_lt hlt]
  cases neg with
  | false =>
    have hh : ¬ (signText false ++ ds ++ tail).head? = some 45 := fun hx => by simpa using h3.mp hx
    simp only [signedOf, Bool.false_eq_true, if_false] at hr
    have hle : ¬ UInt64.ofNat (natOfDigits 0 ds) > 9223372036854775807 := by
      show ¬ (9223372036854775807 : UInt64) < _
      rw [UInt64.lt_iff_toNat_lt, hv]
      have e : (9223372036854775807 : UInt64).toNat = 9223372036854775807 := rfl
      omega
    simp only [hh, hle, if_false] at e1 e2
    refine ⟨_, s', e1, ?_, ?_⟩
    · rw [toInt_of_u64, hv]
      simp only [signedOf, Bool.false_eq_true, if_false]
      exact Int.bmod_eq_of_le (by omega) (by omega)
    · have := leftAt_of_sim e2
      rwa [List.drop_left] at this
  | true =>
    have hh : (signText true ++ ds ++ tail).head? = some 45 := h3.mpr rfl
    simp only [signedOf, if_true] at hr
    have hle : ¬ UInt64.ofNat (natOfDigits 0 ds) > 9223372036854775808 := by
      show ¬ (9223372036854775808 : UInt64) < _
      rw [UInt64.lt_iff_toNat_lt, hv]
      have e : (9223372036854775808 : UInt64).toNat = 9223372036854775808 := rfl
      omega
    simp only [hh, hle, if_false, if_true] at e1 e2
    refine ⟨_, s', e1, ?_, ?_⟩
    · rw [Int64.toInt_neg, toInt_of_u64, hv]
      simp only [signedOf, if_true]
      rw [Int.bmod_neg_bmod]
      exact Int.bmod_eq_of_le (by omega) (by omega)
    · have := leftAt_of_sim e2
      rwa [List.drop_left] at this

/-- `-9223372036854775808` cut after the sign, at the end of the input. -/
example : ∃ s v s', Reached True s (asc "-9223372036854775808") ∧ readInt64 s = .ok (v, s') ∧
    v.toInt = -9223372036854775808 := by
  have h : Reached True ⟨none, some [(asc "9223372036854775808", none)], asc "-", []⟩
      (signText true ++ asc "9223372036854775808" ++ []) :=
    Reached.reader [asc "-", asc "9223372036854775808"] _ (by decide) rfl
  obtain ⟨v, s', h1, h2, -⟩ := readInt64_exact true h (by decide) (by decide) (by decide) (by decide +kernel)
  exact ⟨_, v, s', h, h1, by rw [h2]; decide +kernel⟩

/-- C06 (partial): outside the range of int64, but with digits that fit in 64 bits,
`Int64` returns 0 and records the overflow if at least one byte follows the number.
Missing: a number at the very end of the input, where it is false
(`readInt64_overflow_lost`), and digits out of the 64-bit range (C05). -/
theorem readInt64_overflow_partial {s : Source} (neg : Bool) {ds tail : Bytes}
    (h : Reached True s (signText neg ++ ds ++ tail)) (hne : ds ≠ [])
    (hd : ∀ c ∈ ds, isDigit c = true) (ht : ∀ c ∈ tail.head?, isDigit c = false)
    (hlt : natOfDigits 0 ds < 2 ^ 64) (htl : tail ≠ [])
    (hr : signedOf neg (natOfDigits 0 ds) < -2 ^ 63 ∨ 2 ^ 63 ≤ signedOf neg (natOfDigits 0 ds)) :
    ∃ s', readInt64 s = .ok (0, s') ∧ s'.err = some (.msg (asc "int64: overflow")) ∧ Delivers s' tail := by
  obtain ⟨hsim, -⟩ := reached_sim h
  obtain ⟨h1, h2, h3, h4⟩ := signed_input neg ds tail hne hd ht hlt
  obtain ⟨s', e1, e2⟩ := readInt64_sim hsim h1 h2
  unfold Input.int64 at e1 e2
  rw [h4] at e1 e2
  have hv : (UInt64.ofNat (natOfDigits 0 ds)).toNat = natOfDigits 0 ds := by
    rw [UInt64.toNat_ofNat', Nat.mod_eq_of_lt hlt]
  have fin : ∀ s' : Source, Sim True s' ((Input.advance ⟨signText neg ++ ds ++ tail, none⟩
      (signText neg ++ ds).length).report (.msg (asc "int64: overflow"))) →
      s'.err = some (.msg (asc "int64: overflow")) ∧ Delivers s' tail := by
    intro s' hs
    constructor
    · rw [hs.strictErr trivial]
      simp only [Input.report, Input.advance, List.drop_left, htl, if_false]; rfl
    · have := sim_delivers hs
      simpa only [Input.report, Input.advance, List.drop_left] using this
  cases neg with
  | false =>
    have hh : ¬ (signText false ++ ds ++ tail).head? = some 45 := fun hx => by simpa using h3.mp hx
    simp only [signedOf, Bool.false_eq_true, if_false] at hr
    have hle : UInt64.ofNat (natOfDigits 0 ds) > 9223372036854775807 := by
      show (9223372036854775807 : UInt64) < _
      rw [UInt64.lt_iff_toNat_lt, hv]
      have e : (9223372036854775807 : UInt64).toNat = 9223372036854775807 := rfl
      omega
    simp only [hh, hle, if_false, if_true] at e1 e2
    exact ⟨s', e1, fin s' e2⟩
  | true =>
    have hh : (signText true ++ ds ++ tail).head? = some 45 := h3.mpr rfl
    simp only [signedOf, if_true] at hr
    have hle : UInt64.ofNat (natOfDigits 0 ds) > 9223372036854775808 := by
      show (9223372036854775808 : UInt64) < _
      rw [UInt64.lt_iff_toNat_lt, hv]
      have e : (9223372036854775808 : UInt64).toNat = 9223372036854775808 := rfl
      omega
    simp only [hh, hle, if_true] at e1 e2
    exact ⟨s', e1, fin s' e2⟩

/-- C06, negation: at the end of the input the overflow is not recorded (the error is
`io.EOF`, the same as after a valid number). -/
theorem readInt64_overflow_lost {s : Source} (neg : Bool) {ds : Bytes}
    (h : Reached True s (signText neg ++ ds ++ [])) (hne : ds ≠ [])
    (hd : ∀ c ∈ ds, isDigit c = true) (hlt : natOfDigits 0 ds < 2 ^ 64)
    (hr : signedOf neg (natOfDigits 0 ds) < -2 ^ 63 ∨ 2 ^ 63 ≤ signedOf neg (natOfDigits 0 ds)) :
    ∃ s', readInt64 s = .ok (0, s') ∧ s'.err = some .eof := by
  obtain ⟨hsim, -⟩ := reached_sim h
  obtain ⟨h1, h2, h3, h4⟩ := signed_input neg ds [] hne hd (by simp) hlt
  obtain ⟨s', e1, e2⟩ := readInt64_sim hsim h1 h2
  unfold Input.int64 at e1 e2
  rw [h4] at e1 e2
  have hv : (UInt64.ofNat (natOfDigits 0 ds)).toNat = natOfDigits 0 ds := by
    rw [UInt64.toNat_ofNat', Nat.mod_eq_of_lt hlt]
  have fin : ∀ s' : Source, Sim True s' ((Input.advance ⟨signText neg ++ ds ++ [], none⟩
      (signText neg ++ ds).length).report (.msg (asc "int64: overflow"))) → s'.err = some .eof := by
    intro s' hs
    rw [hs.strictErr trivial]
    simp only [Input.report, Input.advance, List.drop_left, if_true]; rfl
  cases neg with
  | false =>
    have hh : ¬ (signText false ++ ds ++ []).head? = some 45 := fun hx => by simpa using h3.mp hx
    simp only [signedOf, Bool.false_eq_true, if_false] at hr
    have hle : UInt64.ofNat (natOfDigits 0 ds) > 9223372036854775807 := by
      show (9223372036854775807 : UInt64) < _
      rw [UInt64.lt_iff_toNat_lt, hv]
      have e : (9223372036854775807 : UInt64).toNat = 9223372036854775807 := rfl
      omega
    simp only [hh, hle, if_false, if_true] at e1 e2
    exact ⟨s', e1, fin s' e2⟩
  | true =>
    have hh : (signText true ++ ds ++ []).head? = some 45 := h3.mpr rfl
    simp only [signedOf, if_true] at hr
    have hle : UInt64.ofNat (natOfDigits 0 ds) > 9223372036854775808 := by
      show (9223372036854775808 : UInt64) < _
      rw [UInt64.lt_iff_toNat_lt, hv]
      have e : (9223372036854775808 : UInt64).toNat = 9223372036854775808 := rfl
      omega
    simp only [hh, hle, if_true] at e1 e2
    exact ⟨s', e1, fin s' e2⟩

/-- 9223372036854775808 as the whole input. -/
example : (readInt64 (newSourceString (asc "9223372036854775808"))).map (fun r => (r.1, r.2.err)) =
    .ok (0, some .eof) := by rfl

/-- Followed by a space the overflow is recorded. -/
example : (readInt64 (newSourceString (asc "9223372036854775808 "))).map (fun r => (r.1, r.2.err)) =
    .ok (0, some (.msg (asc "int64: overflow"))) := by rfl

theorem toInt_of_u32 (v : UInt64) : v.toUInt32.toInt32.toInt = (v.toNat : Int).bmod (2 ^ 32) := by
  rw [← Int32.toInt_toBitVec]
  show v.toUInt32.toBitVec.toInt = _
  rw [BitVec.toInt_eq_toNat_bmod]
  show ((v.toUInt32.toNat : Nat) : Int).bmod (2 ^ 32) = _
  rw [UInt64.toNat_toUInt32]
  rw [Int.natCast_emod]
  exact Int.emod_bmod _ _

/-- C06: in range, `Int32` returns the exact signed value. -/
theorem readInt32_exact {s : Source} (neg : Bool) {ds tail : Bytes}
    (h : Reached True s (signText neg ++ ds ++ tail)) (hne : ds ≠ [])
    (hd : ∀ c ∈ ds, isDigit c = true) (ht : ∀ c ∈ tail.head?, isDigit c = false)
    (hr : -2 ^ 31 ≤ signedOf neg (natOfDigits 0 ds) ∧ signedOf neg (natOfDigits 0 ds) < 2 ^ 31) :
    ∃ v s', readInt32 s = .ok (v, s') ∧ v.toInt = signedOf neg (natOfDigits 0 ds) ∧ LeftAt s' tail := by
  have hlt : natOfDigits 0 ds < 2 ^ 64 := by
    unfold signedOf at hr; cases neg <;> simp at hr <;> omega
  obtain ⟨hsim, -⟩ := reached_sim h
  obtain ⟨h1, h2, h3, h4⟩ := signed_input neg ds tail hne hd ht hlt
  obtain ⟨s', e1, e2⟩ := readInt32_sim hsim h1 h2
  unfold Input.int32 at e1 e2
  rw [h4] at e1 e2
  have hv : (UInt64.ofNat (natOfDigits 0 ds)).toNat = natOfDigits 0 ds := by
    rw [UInt64.toNat_ofNat', Nat.mod_eq_of_lt hlt]
  cases neg with
  | false =>
    have hh : ¬ (signText false ++ ds ++ tail).head? = some 45 := fun hx => by simpa using h3.mp hx
    simp only [signedOf, Bool.false_eq_true, if_false] at hr
    have hle : ¬ UInt64.ofNat (natOfDigits 0 ds) > 2147483647 := by
      show ¬ (2147483647 : UInt64) < _
      rw [UInt64.lt_iff_toNat_lt, hv]
      have e : (2147483647 : UInt64).toNat = 2147483647 := rfl
      omega
    simp only [hh, hle, if_false] at e1 e2
    refine ⟨_, s', e1, ?_, ?_⟩
    · rw [toInt_of_u32, hv]
      simp only [signedOf, Bool.false_eq_true, if_false]
      exact Int.bmod_eq_of_le (by omega) (by omega)
    · have := leftAt_of_sim e2
      rwa [List.drop_left] at this
  | true =>
    have hh : (signText true ++ ds ++ tail).head? = some 45 := h3.mpr rfl
    simp only [signedOf, if_true] at hr
    have hle : ¬ UInt64.ofNat (natOfDigits 0 ds) > 2147483648 := by
      show ¬ (2147483648 : UInt64) < _
      rw [UInt64.lt_iff_toNat_lt, hv]
      have e : (2147483648 : UInt64).toNat = 2147483648 := rfl
      omega
    simp only [hh, hle, if_false, if_true] at e1 e2
    refine ⟨_, s', e1, ?_, ?_⟩
    · rw [Int32.toInt_neg, toInt_of_u32, hv]
      simp only [signedOf, if_true]
      rw [Int.bmod_neg_bmod]
      exact Int.bmod_eq_of_le (by omega) (by omega)
    · have := leftAt_of_sim e2
      rwa [List.drop_left] at this

/-- C06 (partial): outside the range `Int32` returns 0 and records the overflow if a
byte follows the number; otherwise (negation) only `io.EOF` is recorded. -/
theorem readInt32_overflow_partial {s : Source} (neg : Bool) {ds tail : Bytes}
    (h : Reached True s (signText neg ++ ds ++ tail)) (hne : ds ≠ [])
    (hd : ∀ c ∈ ds, isDigit c = true) (ht : ∀ c ∈ tail.head?, isDigit c = false)
    (hlt : natOfDigits 0 ds < 2 ^ 64)
    (hr : signedOf neg (natOfDigits 0 ds) < -2 ^ 31 ∨ 2 ^ 31 ≤ signedOf neg (natOfDigits 0 ds)) :
    ∃ s', readInt32 s = .ok (0, s') ∧ Delivers s' tail ∧
      s'.err = if tail = [] then some .eof else some (.msg (asc "int32: overflow")) := by
  obtain ⟨hsim, -⟩ := reached_sim h
  obtain ⟨h1, h2, h3, h4⟩ := signed_input neg ds tail hne hd ht hlt
  obtain ⟨s', e1, e2⟩ := readInt32_sim hsim h1 h2
  unfold Input.int32 at e1 e2
  rw [h4] at e1 e2
  have hv : (UInt64.ofNat (natOfDigits 0 ds)).toNat = natOfDigits 0 ds := by
    rw [UInt64.toNat_ofNat', Nat.mod_eq_of_lt hlt]
  have fin : ∀ s' : Source, Sim True s' ((Input.advance ⟨signText neg ++ ds ++ tail, none⟩
      (signText neg ++ ds).length).report (.msg (asc "int32: overflow"))) → Delivers s' tail ∧
      s'.err = if tail = [] then some .eof else some (.msg (asc "int32: overflow")) := by
    intro s' hs
    constructor
    · have := sim_delivers hs
      simpa only [Input.report, Input.advance, List.drop_left] using this
    · rw [hs.strictErr trivial]
      simp only [Input.report, Input.advance, List.drop_left]
      split <;> rfl
  cases neg with
  | false =>
    have hh : ¬ (signText false ++ ds ++ tail).head? = some 45 := fun hx => by simpa using h3.mp hx
    simp only [signedOf, Bool.false_eq_true, if_false] at hr
    have hle : UInt64.ofNat (natOfDigits 0 ds) > 2147483647 := by
      show (2147483647 : UInt64) < _
      rw [UInt64.lt_iff_toNat_lt, hv]
      have e : (2147483647 : UInt64).toNat = 2147483647 := rfl
      omega
    simp only [hh, hle, if_false, if_true] at e1 e2
    exact ⟨s', e1, fin s' e2⟩
  | true =>
    have hh : (signText true ++ ds ++ tail).head? = some 45 := h3.mpr rfl
    simp only [signedOf, if_true] at hr
    have hle : UInt64.ofNat (natOfDigits 0 ds) > 2147483648 := by
      show (2147483648 : UInt64) < _
      rw [UInt64.lt_iff_toNat_lt, hv]
      have e : (2147483648 : UInt64).toNat = 2147483648 := rfl
      omega
    simp only [hh, hle, if_true] at e1 e2
    exact ⟨s', e1, fin s' e2⟩

example : (readInt32 (newSourceString (asc "-2147483648,"))).map (fun r => (r.1, r.2.err)) =
    .ok (-2147483648, none) := by rfl
example : (readInt32 (newSourceString (asc "-2147483649,"))).map (fun r => (r.1, r.2.err)) =
    .ok (0, some (.msg (asc "int32: overflow"))) := by rfl

/-! ### C07 -/

theorem skipWhile_left (r : Bytes) (keep : UInt8 → Bool) {s' : Source}
    (h : Sim True s' (Input.skipWhile ⟨r, none⟩ keep).2) : LeftAt s' (r.dropWhile keep) := by
  simp only [Input.skipWhile, if_true] at h
  have := leftAt_of_sim h
  have e : r.drop (r.takeWhile keep).length = r.dropWhile keep := by
    conv => lhs; rw [← List.takeWhile_append_dropWhile (p := keep) (l := r)]
    rw [List.takeWhile_append_dropWhile, ← List.drop_left (l₁ := r.takeWhile keep) (l₂ := r.dropWhile keep),
      List.takeWhile_append_dropWhile]
  rwa [e] at this

/-- C07: `AnyExcept1` appends everything before the first `b` and stops at it. -/
theorem anyExcept1_exact {s : Source} {r : Bytes} (h : Reached True s r) (space : Bytes) (b : UInt8) :
    ∃ s', anyExcept1 s space b = .ok (space ++ r.takeWhile (fun x => x != b), s') ∧
      LeftAt s' (r.dropWhile fun x => x != b) := by
  obtain ⟨s', h1, h2⟩ := anyExcept1_sim (reached_sim h).1 space b
  exact ⟨s', by simpa only [Input.skipWhile, if_true] using h1, skipWhile_left r _ h2⟩

/-- C07: `AnyExcept2` appends everything before the first `b` or `c`. -/
theorem anyExcept2_exact {s : Source} {r : Bytes} (h : Reached True s r) (space : Bytes) (b c : UInt8) :
    ∃ s', anyExcept2 s space b c = .ok (space ++ r.takeWhile (fun x => x != b && x != c), s') ∧
      LeftAt s' (r.dropWhile fun x => x != b && x != c) := by
  obtain ⟨s', h1, h2⟩ := anyExcept2_sim (reached_sim h).1 space b c
  exact ⟨s', by simpa only [Input.skipWhile, if_true] using h1, skipWhile_left r _ h2⟩

/-- C07: `skip.Space` skips exactly the leading run of white space and returns its length. -/
theorem skipSpace_exact {s : Source} {r : Bytes} (h : Reached True s r) :
    ∃ s', skipSpace s = .ok ((r.takeWhile isSpaceByte).length, s') ∧ LeftAt s' (r.dropWhile isSpaceByte) := by
  obtain ⟨s', h1, h2⟩ := skipSpace_sim (reached_sim h).1
  exact ⟨s', by simpa only [Input.skipWhile, if_true] using h1, skipWhile_left r _ h2⟩

example : ∃ s s', Reached True s (asc "ab cd}e") ∧ anyExcept2 s (asc "x") 125 44 = .ok (asc "xab cd", s') := by
  have h : Reached True ⟨none, some [(asc " cd", none), (asc "}e", none)], asc "ab", []⟩ (asc "ab cd}e") :=
    Reached.reader [asc "ab", asc " cd", asc "}e"] _ (by decide) rfl
  obtain ⟨s', h1, -⟩ := anyExcept2_exact h (asc "x") 125 44
  exact ⟨_, s', h, h1⟩

example : ∃ s s', Reached True s (asc " \t\n x") ∧ skipSpace s = .ok (4, s') := by
  have h : Reached True ⟨none, some [(asc "\t\n", none), (asc " x", none)], asc " ", []⟩ (asc " \t\n x") :=
    Reached.reader [asc " ", asc "\t\n", asc " x"] _ (by decide) rfl
  obtain ⟨s', h1, -⟩ := skipSpace_exact h
  exact ⟨_, s', h, h1⟩

end Verif.Parse
