import Verif.Parse.Props2
import Verif.Parse.BufferProps

/-!
# C166: `Source.SetBuffer` (parse/parse.go:78-80)

First on sources as values: the buffer decides only how much the coming `Read` calls give.  Then on memory: what the source pointed to before
is no longer written to.
-/

namespace Verif.Parse

/-! ### Model -/

/-- The results of the coming reads with a buffer of `len` bytes, as long as it is not changed again, when `rest` is left in the input: each
gives at least one byte and at most `len`, as many as the reader likes (`likes`; all that fits when the list is used up), and at the end
`(0, io.EOF)` (the calls of `reader.Read` at parse/parse.go:106 and 147; an `io.Reader` that never returns 0 bytes without an error, nor bytes
with an error).  `fuel` is at least the length of `rest`. -/
def cutReads (len : Nat) : Nat → List Nat → Bytes → List Bytes
  | 0, _, _ => []
  | _ + 1, _, [] => []
  | fuel + 1, [], b :: rest => (b :: rest).take len :: cutReads len fuel [] ((b :: rest).drop len)
  | fuel + 1, n :: likes, b :: rest => (b :: rest).take (min len (n + 1)) :: cutReads len fuel likes ((b :: rest).drop (min len (n + 1)))

/-- `SetBuffer`, parse/parse.go:78-80, with a buffer of `len` bytes, `len > 0`: the bytes that are left in the reader will be cut by the new
buffer.  Nothing else changes; a source without reader has no use for it. -/
def Source.setBuffer (s : Source) (len : Nat) (likes : List Nat) : Source :=
  { s with reader := s.reader.map fun rs => (cutReads len (rs.map (·.1)).flatten.length likes (rs.map (·.1)).flatten).map fun c => (c, none) }

/-- The operations of C01 and `SetBuffer` (parse/parse.go:78-177). -/
inductive BufOp where
  | call (op : Op)
  | setBuffer (len : Nat) (likes : List Nat)

/-- What the caller sees of the operations. -/
def runBuf (s : Source) : List BufOp → Out (List Obs)
  | [] => .ok []
  | .call op :: ops =>
    match op.run s with
    | .error f => .error f
    | .ok (o, s') => (runBuf s' ops).map fun os => o :: os
  | .setBuffer len likes :: ops => runBuf (s.setBuffer len likes) ops

/-! ### Specification -/

/-- The operations without `SetBuffer`. -/
def withoutSet : List BufOp → List Op
  | [] => []
  | .call op :: ops => op :: withoutSet ops
  | .setBuffer _ _ :: ops => withoutSet ops

/-- No buffer is empty. -/
def noneEmpty : List BufOp → Prop
  | [] => True
  | .call _ :: ops => noneEmpty ops
  | .setBuffer len _ :: ops => 0 < len ∧ noneEmpty ops

/-! ### Proofs -/

theorem cutReads_spec (len : Nat) (hl : 0 < len) : ∀ (fuel : Nat) (likes : List Nat) (rest : Bytes), rest.length ≤ fuel →
    (cutReads len fuel likes rest).flatten = rest ∧ (∀ c ∈ cutReads len fuel likes rest, c ≠ [] ∧ c.length ≤ len) := by
  intro fuel
  induction fuel with
  | zero =>
    intro likes rest h
    have : rest = [] := List.eq_nil_of_length_eq_zero (by omega)
    subst this
    exact ⟨rfl, by simp [cutReads]⟩
  | succ fuel ih =>
    intro likes rest h
    cases rest with
    | nil => exact ⟨by simp [cutReads], by simp [cutReads]⟩
    | cons b rest =>
      have key : ∀ (k : Nat) (l : List Nat), 0 < k → k ≤ len →
          ((b :: rest).take k :: cutReads len fuel l ((b :: rest).drop k)).flatten = b :: rest ∧
          ∀ c ∈ (b :: rest).take k :: cutReads len fuel l ((b :: rest).drop k), c ≠ [] ∧ c.length ≤ len := by
        intro k l h0 hk
        have hd : ((b :: rest).drop k).length ≤ fuel := by rw [List.length_drop]; omega
        obtain ⟨i1, i2⟩ := ih l _ hd
        refine ⟨by rw [List.flatten_cons, i1, List.take_append_drop], ?_⟩
        intro c hc
        rcases List.mem_cons.1 hc with rfl | hc
        · refine ⟨?_, ?_⟩
          · obtain ⟨j, rfl⟩ : ∃ j, k = j + 1 := ⟨k - 1, by omega⟩
            simp
          · rw [List.length_take]; omega
        · exact i2 c hc
      cases likes with
      | nil => exact key len [] hl (Nat.le_refl _)
      | cons n likes => exact key (min len (n + 1)) likes (by omega) (Nat.min_le_left _ _)

theorem setBuffer_pending (s : Source) (len : Nat) (likes : List Nat) (hl : 0 < len) :
    (s.setBuffer len likes).pending.flatten = s.pending.flatten ∧ (∀ c ∈ (s.setBuffer len likes).pending, c ≠ [] ∧ c.length ≤ len) := by
  obtain ⟨err, reader, current, nextList⟩ := s
  cases reader with
  | none => exact ⟨rfl, by simp [Source.setBuffer, Source.pending]⟩
  | some rs =>
    obtain ⟨h1, h2⟩ := cutReads_spec len hl _ likes (rs.map (·.1)).flatten (Nat.le_refl _)
    have hp : Source.pending (Source.setBuffer ⟨err, some rs, current, nextList⟩ len likes) =
        cutReads len (rs.map (·.1)).flatten.length likes (rs.map (·.1)).flatten := by
      simp [Source.setBuffer, Source.pending, Function.comp_def]
    rw [hp]
    exact ⟨h1, h2⟩

theorem packed_append {l r : List Bytes} (hl : ∀ c ∈ l, c ≠ []) (hr : Packed r) : Packed (l ++ r) := by
  induction l with
  | nil => exact hr
  | cons c l ih => exact ⟨fun hc => absurd hc (hl c (by simp)), ih (fun x hx => hl x (by simp [hx]))⟩

theorem setBuffer_sim {s : Source} {a : Input} (h : Sim True s a) (len : Nat) (likes : List Nat) (hl : 0 < len) :
    Sim True (s.setBuffer len likes) a := by
  obtain ⟨p1, p2⟩ := setBuffer_pending s len likes hl
  have hne : ∀ c ∈ (s.setBuffer len likes).nextList ++ (s.setBuffer len likes).pending, c ≠ [] := by
    intro c hc
    rcases List.mem_append.1 hc with hc | hc
    · exact h.strictNe trivial c (List.mem_append_left _ hc)
    · exact (p2 c hc).1
  refine ⟨?_, ?_, packed_of_ne _ hne, h.cur, ?_, h.errEq, h.errNone, h.endErr, h.strictErr, fun _ => hne⟩
  · rw [List.flatten_append, p1, ← List.flatten_append]; exact h.rest
  · intro r hr
    cases hs : s.reader with
    | none => simp [Source.setBuffer, hs] at hr
    | some rs =>
      simp only [Source.setBuffer, hs, Option.map_some, Option.getD_some, List.mem_map] at hr
      obtain ⟨c, -, rfl⟩ := hr
      rfl
  · intro hn
    refine h.nilr ?_
    cases hs : s.reader with
    | none => rfl
    | some rs => simp [Source.setBuffer, hs] at hn

theorem runBuf_sim (ops : List BufOp) : ∀ {s1 s2 : Source} {a : Input}, Sim True s1 a → Sim True s2 a → insideAll a (withoutSet ops) →
    noneEmpty ops → ∃ os, runBuf s1 ops = .ok os ∧ runOps s2 (withoutSet ops) = .ok os := by
  induction ops with
  | nil => intro s1 s2 a _ _ _ _; exact ⟨[], rfl, rfl⟩
  | cons op ops ih =>
    intro s1 s2 a h1 h2 hin hne
    cases op with
    | call op =>
      obtain ⟨o, s1', s2', e1, e2, q1, q2⟩ := op_sim h1 h2 op hin.1
      obtain ⟨os, r1, r2⟩ := ih q1 q2 hin.2 hne
      exact ⟨o :: os, by simp [runBuf, e1, r1, Except.map], by simp [withoutSet, runOps, e2, r2, Except.map]⟩
    | setBuffer len likes => exact ih (setBuffer_sim h1 len likes hne.1) h2 hin hne.2

/-- C166, partial: whenever and however often the buffer is replaced by one that is not empty, larger or smaller, the operations give what they
give on a source over the whole input.  Missing, as for C01: operations past the end of the input, and readers that return bytes together
with an error. -/
theorem setBuffer_irrelevant_partial (chunks : List Bytes) (hne : ∀ c ∈ chunks, c ≠ []) (hin : chunks ≠ []) (ops : List BufOp)
    (hops : insideAll ⟨chunks.flatten, none⟩ (withoutSet ops)) (hbuf : noneEmpty ops) :
    ∃ s os, newSource (chunks.map fun c => (c, none)) = (some s, none) ∧ runBuf s ops = .ok os ∧
      runOps (newSourceString chunks.flatten) (withoutSet ops) = .ok os := by
  obtain ⟨s, -, hs, -, -⟩ := chunking_irrelevant_partial chunks hne hin [] trivial
  obtain ⟨h1, hf⟩ := newSource_sim True chunks s hne hs
  obtain ⟨os, r1, r2⟩ := runBuf_sim ops h1 (newSourceString_sim True _ hf) hops hbuf
  exact ⟨s, os, hs, r1, r2⟩

/-- The buffer is used: after `SetBuffer` the next `Read`s give no more than fits. -/
theorem setBuffer_used (s : Source) (len : Nat) (likes : List Nat) (hl : 0 < len) (hn : s.nextList = []) (hr : s.reader ≠ none) :
    (s.setBuffer len likes).consume.current.length ≤ len := by
  obtain ⟨-, p2⟩ := setBuffer_pending s len likes hl
  obtain ⟨err, reader, current, nextList⟩ := s
  simp only at hn hr
  subst hn
  cases reader with
  | none => exact absurd rfl hr
  | some rs =>
    simp only [Source.setBuffer, Option.map_some, Source.consume, Source.pending, Option.getD_some] at p2 ⊢
    generalize cutReads len (rs.map (·.1)).flatten.length likes (rs.map (·.1)).flatten = cs at p2 ⊢
    cases cs with
    | nil => simp [readOnce]
    | cons c cs => exact (p2 c (by simp)).2

/-- The full statement of C166 is false for an empty buffer, into which every `Read` gives 0 bytes and no error: `PeekN` for more than is there
makes any number of reads, so it never returns. -/
theorem empty_buffer_hangs (s : Source) (n k : Nat) (rs : List ReadResult) (hn : (s.current ++ s.nextList.flatten).length < n)
    (hr : s.reader = some (List.replicate k ([], none) ++ rs)) : 
    ∃ more, (s.peekN n).2.nextList = s.nextList ++ List.replicate k [] ++ more := by
  have hlen : s.current.length < n := by rw [List.length_append] at hn; omega
  have hnext : ∀ (ns : List Bytes) (p : Bytes), (p ++ ns.flatten).length < n → peekNext n ns p = .inr (p ++ ns.flatten) := by
    intro ns
    induction ns with
    | nil => intro p _; simp [peekNext]
    | cons x ns ih =>
      intro p hp
      rw [List.flatten_cons, ← List.append_assoc] at hp
      have : ¬ (p ++ x).length ≥ n := by rw [List.length_append] at hp; omega
      simp only [peekNext, if_neg this]
      rw [ih _ hp, List.flatten_cons, List.append_assoc]
  have hread : ∀ (k : Nat) (p : Bytes), p.length < n → (peekRead n (List.replicate k ([], none) ++ rs) p).2.2.2 =
      List.replicate k [] ++ (peekRead n rs p).2.2.2 := by
    intro k
    induction k with
    | zero => intro p _; rfl
    | succ k ih =>
      intro p hp
      have : ¬ p.length ≥ n := by omega
      simp only [List.replicate_succ, List.cons_append, peekRead, List.append_nil, if_neg this]
      rw [ih p hp]
  unfold Source.peekN
  rw [if_neg (by omega), hr]
  simp only [hnext s.nextList s.current hn, hread k _ hn]
  exact ⟨_, (List.append_assoc ..).symm⟩

/-! ### Examples -/

/-- A buffer of one byte, then one of five, in the middle of a number: the hypotheses of `setBuffer_irrelevant_partial` hold. -/
example : insideAll ⟨([asc "12", asc "34 5"] : List Bytes).flatten, none⟩
      (withoutSet [.call (.peekN 1), .setBuffer 1 [], .call .uint64, .setBuffer 5 [0, 7], .call .skipSpace, .call .peek1]) ∧
    noneEmpty [.call (.peekN 1), .setBuffer 1 [], .call .uint64, .setBuffer 5 [0, 7], .call .skipSpace, .call .peek1] := by
  refine ⟨?_, by simp [noneEmpty]⟩
  simp [withoutSet, insideAll, Op.inside, Op.next, Input.advance, Input.uint64, Input.fits64, Input.skipWhile, natOfDigits, isSpaceByte, isDigit, asc]

/-- The reads it leads to: single bytes, then as the reader likes. -/
example : cutReads 1 4 [] (asc "34 5") = [asc "3", asc "4", asc " ", asc "5"] ∧ cutReads 3 9 [0, 9, 1] (asc "abcdefghi") =
    [asc "a", asc "bcd", asc "ef", asc "ghi"] := by decide +kernel

example : ((newSource [(asc "12", none), (asc "34 5", none)]).1.map fun s => (runBuf s [.setBuffer 1 [], .call .uint64, .call (.peekN 2)]).toOption) =
    some (some [.u64 1234, .bytes (asc " 5") none]) := by rfl

/-- `setBuffer_used` and `empty_buffer_hangs` on the source just made. -/
example : (Source.setBuffer ⟨none, some [(asc "34 5", none)], asc "12", []⟩ 3 []).consume.current = asc "34 " := by decide +kernel

example : (Source.peekN ⟨none, some (List.replicate 3 ([], none)), asc "12", []⟩ 3).2.nextList = [[], [], []] ++ [[]] := by decide +kernel

end Verif.Parse

namespace Verif.Parse.Buffers

/-! ### On memory -/

/-- `SetBuffer`, parse/parse.go:78-80; `rs` are the results of the coming reads with the new buffer. -/
def setBuffer (b : BSource) (buf : Slice) (rs : List Got) : BSource := { b with buf := buf, reader := b.reader.map fun _ => rs }

/-- Calls on one source: the results, the memory and the source afterwards (parse/parse.go:82-177). -/
def callAll (room : Slice → Nat → Nat) : World → BSource → List Op → List Res × World × BSource
  | w, b, [] => ([], w, b)
  | w, b, op :: ops =>
    let c := call room w b op
    let r := callAll room c.2.1 c.2.2 ops
    (c.1 :: r.1, r.2)

theorem callAll_spec (room : Slice → Nat → Nat) : ∀ (ops : List Op) {own : Nat → Prop} {w : World} {b : BSource}, Inv own w b →
    (callAll room w b ops).1 = alone (some (b.value w.mem)) ops ∧
    ∃ v, Step own w (callAll room w b ops).2.1 (callAll room w b ops).2.2 v := by
  intro ops
  induction ops with
  | nil => intro own w b h; exact ⟨rfl, _, Step.stay h⟩
  | cons op ops ih =>
    intro own w b h
    obtain ⟨c1, c2⟩ := call_spec room h op
    obtain ⟨i1, v, i2⟩ := ih c2.inv
    refine ⟨?_, v, c2.trans i2⟩
    simp only [callAll, alone]
    rw [c1, i1, c2.value]

theorem text_frame {sl : Slice} {m m' : Mem} (hfit : sl.len ≤ sl.cap) (h : ∀ a, sl.has a → m' a = m a) : sl.text m' = sl.text m :=
  text_congr fun a h1 h2 => h a ⟨h1, by omega⟩

/-- `Consume` after `SetBuffer`: what was current no longer belongs to the source. -/
theorem consume_leaves {own : Nat → Prop} {w : World} {b : BSource} (h : Inv own w b) (buf : Slice) (rs : List Got)
    (hfit : buf.len ≤ buf.cap) (hbel : buf.ptr + buf.cap ≤ w.next) (hap : ∀ a, buf.has a → ¬ own a) (hrs : ∀ g ∈ rs, g.bytes.length ≤ buf.len) :
    Inv (fun a => (own a ∧ ¬ b.current.has a) ∨ buf.has a) (consume w (setBuffer b buf rs)).1 (consume w (setBuffer b buf rs)).2 ∧
    (consume w (setBuffer b buf rs)).1.next = w.next ∧
    (∀ a, ¬ buf.has a → (consume w (setBuffer b buf rs)).1.mem a = w.mem a) ∧
    (consume w (setBuffer b buf rs)).2.value (consume w (setBuffer b buf rs)).1.mem =
      ({ b.value w.mem with reader := (b.value w.mem).reader.map fun _ => rs.map fun g => (g.bytes, g.err) } : Source).consume := by
  have hset : Inv (fun a => own a ∨ buf.has a) w (setBuffer b buf rs) := by
    refine ⟨?_, fun a ha => .inr ha, fun a ha => .inl (h.cur a ha), fun x hx a ha => .inl (h.nexts x hx a ha), h.curFits, hfit, h.nextFits,
      h.apart, h.apart2, h.curBelow, hbel, h.nextBelow, ?_⟩
    · rintro a (ha | ha)
      · exact h.below a ha
      · exact Nat.lt_of_lt_of_le ha.2 hbel
    · intro rs' e
      cases hb : b.reader with
      | none => simp [setBuffer, hb] at e
      | some x => simp only [setBuffer, hb, Option.map_some, Option.some.injEq] at e; rw [← e]; exact hrs
  have hval : (consume w (setBuffer b buf rs)).2.value (consume w (setBuffer b buf rs)).1.mem =
      ({ b.value w.mem with reader := (b.value w.mem).reader.map fun _ => rs.map fun g => (g.bytes, g.err) } : Source).consume := by
    rw [(consume_spec hset).value]
    congr 1
    cases hb : b.reader with
    | none => simp [setBuffer, BSource.value, hb]
    | some x => simp [setBuffer, BSource.value, hb, Got.plain]
  suffices hx : Inv (fun a => (own a ∧ ¬ b.current.has a) ∨ buf.has a) (consume w (setBuffer b buf rs)).1 (consume w (setBuffer b buf rs)).2 ∧
      (consume w (setBuffer b buf rs)).1.next = w.next ∧
      (∀ a, ¬ buf.has a → (consume w (setBuffer b buf rs)).1.mem a = w.mem a) from ⟨hx.1, hx.2.1, hx.2.2, hval⟩
  clear hval
  have hbelow : ∀ a, (own a ∧ ¬ b.current.has a) ∨ buf.has a → a < w.next := by
    rintro a (ha | ha)
    · exact h.below a ha.1
    · exact Nat.lt_of_lt_of_le ha.2 hbel
  have hnexts : ∀ x ∈ b.nextList, ∀ a, x.has a → (own a ∧ ¬ b.current.has a) ∨ buf.has a :=
    fun x hx a ha => .inl ⟨h.nexts x hx a ha, fun hc => h.apart x hx a hc ha⟩
  obtain ⟨berr, reader, current, nextList, old⟩ := b
  cases reader with
  | none =>
    have h' : Inv (fun a => (own a ∧ ¬ current.has a) ∨ buf.has a) w ⟨berr, none, ⟨0, 0, 0⟩, nextList, buf⟩ :=
      ⟨hbelow, fun a ha => .inr ha, fun a ha => by unfold Slice.has at ha; simp at ha, hnexts, Nat.le_refl _, hfit, h.nextFits,
        fun x _ a ha => by unfold Slice.has at ha; simp at ha, h.apart2, Nat.zero_le _, hbel, h.nextBelow, fun rs e => by cases e⟩
    exact ⟨h'.report .eof, rfl, fun _ _ => rfl⟩
  | some x =>
    cases nextList with
    | cons next rest =>
      have hmem : ∀ x ∈ rest, x ∈ next :: rest := fun x hx => by simp [hx]
      have hap' := List.pairwise_cons.1 h.apart2
      refine ⟨⟨hbelow, fun a ha => .inr ha, hnexts next (by simp), fun x hx => hnexts x (hmem x hx), h.nextFits next (by simp), hfit,
        fun x hx => h.nextFits x (hmem x hx), hap'.1, hap'.2, h.nextBelow next (by simp), hbel, fun x hx => h.nextBelow x (hmem x hx), ?_⟩,
        rfl, fun _ _ => rfl⟩
      intro rs' e
      cases e
      exact hrs
    | nil =>
      obtain ⟨t1, t2⟩ := takeGot_fits hrs
      obtain ⟨r1, r2, r3, r4⟩ := read_spec w buf (takeGot rs).1 t1
      simp only [setBuffer, Option.map_some, consume]
      generalize takeGot rs = g at *
      generalize w.read buf g.1 = r at *
      have hinv : ∀ e : Option Err, Inv (fun a => (own a ∧ ¬ current.has a) ∨ buf.has a) r.1 ⟨e, some g.2, { buf with len := r.2 }, [], buf⟩ := by
        intro e
        refine ⟨fun a ha => by rw [r3]; exact hbelow a ha, fun a ha => .inr ha, fun a ha => .inr ha, by simp, ?_, hfit, by simp, by simp,
          List.Pairwise.nil, by rw [r3]; exact hbel, by rw [r3]; exact hbel, by simp, ?_⟩
        · show r.2 ≤ buf.cap
          omega
        · intro rs' e
          cases e
          exact t2
      have hmem : ∀ a, ¬ buf.has a → r.1.mem a = w.mem a := by
        intro a ha
        apply r4
        intro hin
        exact ha ⟨hin.1, Nat.lt_of_lt_of_le hin.2 (Nat.add_le_add_left hfit _)⟩
      cases hge : g.1.err with
      | none => exact ⟨hinv berr, r3, hmem⟩
      | some e =>
        cases berr with
        | none => exact ⟨hinv (some e), r3, hmem⟩
        | some e' => exact ⟨hinv (some e'), r3, hmem⟩

/-- C166 on memory: a source made on one buffer, any calls, then `SetBuffer` with another that does not overlap the first, and `Consume`: what
`Peek` returned before stays as it is whatever is called later, and the later calls give what they give on values. -/
theorem old_bytes_stay (room : Slice → Nat → Nat) (w : World) (reader : List Got) (buf buf' : Slice) (b : BSource)
    (hfit : buf.len ≤ buf.cap ∧ buf'.len ≤ buf'.cap) (hbel : buf.ptr + buf.cap ≤ w.next ∧ buf'.ptr + buf'.cap ≤ w.next)
    (hdis : Disjoint buf.ptr buf.cap buf'.ptr buf'.cap) (hr : ∀ g ∈ reader, g.bytes.length ≤ buf.len)
    (hb : (newSource w reader buf).2.1 = some b) (ops : List Op) (rs : List Got) (hrs : ∀ g ∈ rs, g.bytes.length ≤ buf'.len) (later : List Op) :
    let S := callAll room (newSource w reader buf).1 b ops
    let T := consume S.2.1 (setBuffer S.2.2 buf' rs)
    S.2.2.current.text (callAll room T.1 T.2 later).2.1.mem = S.2.2.current.text S.2.1.mem ∧
    (callAll room T.1 T.2 later).1 = alone (some ({ S.2.2.value S.2.1.mem with
      reader := (S.2.2.value S.2.1.mem).reader.map fun _ => rs.map fun g => (g.bytes, g.err) } : Source).consume) later := by
  intro S T
  obtain ⟨n1, n2, n3⟩ := newSource_spec hfit.1 hbel.1 hr
  rw [hb] at n3
  obtain ⟨-, v, hS⟩ := callAll_spec room ops n3.1
  have hinv := hS.inv
  have hle := hS.le
  rw [n1] at hle
  have hno : ∀ a, buf'.has a → ¬ grown buf.has (newSource w reader buf).1.next S.2.1.next a := by
    rintro a ha (hg | hg)
    · unfold Slice.has at ha hg
      unfold Disjoint at hdis
      omega
    · rw [n1] at hg
      unfold Slice.has at ha
      omega
  obtain ⟨c1, c2, c3, c4⟩ := consume_leaves hinv buf' rs hfit.2 (Nat.le_trans hbel.2 hle) hno hrs
  obtain ⟨d1, v', d2⟩ := callAll_spec room later c1
  refine ⟨?_, by rw [d1, c4]⟩
  refine text_frame hinv.curFits fun a ha => ?_
  have hown := hinv.cur a ha
  have hnb : ¬ buf'.has a := fun hx => hno a hx hown
  rw [d2.frame a (by rw [c2]; exact hinv.below a hown) (fun hx => hx.elim (fun hy => hy.2 ha) hnb), c3 a hnb]

/-- Without `SetBuffer`, `Consume` overwrites what `Peek` returned. -/
theorem old_bytes_lost : ∃ (w : World) (reader : List Got) (buf : Slice) (b : BSource), buf.len ≤ buf.cap ∧ buf.ptr + buf.cap ≤ w.next ∧
    (∀ g ∈ reader, g.bytes.length ≤ buf.len) ∧ (newSource w reader buf).2.1 = some b ∧
    b.current.text (consume (newSource w reader buf).1 b).1.mem ≠ b.current.text (newSource w reader buf).1.mem := by
  refine ⟨eight, [⟨asc "ab", [], none⟩, ⟨asc "cd", [], none⟩], ⟨0, 2, 4⟩, _, by decide, by decide, ?_, rfl, by decide +kernel⟩
  intro g hg
  simp only [List.mem_cons, List.not_mem_nil, or_false] at hg
  rcases hg with rfl | rfl <;> decide

/-- Meeting the hypotheses of `old_bytes_stay`: `ab` stays where it was while the source goes on in the other half. -/
example : let N := newSource eight [⟨asc "ab", [], none⟩, ⟨asc "cd", [], none⟩] ⟨0, 2, 4⟩
    N.2.1.map (fun b =>
      let T := consume N.1 (setBuffer b ⟨4, 3, 4⟩ [⟨asc "cde", [], none⟩, ⟨asc "f", [], none⟩])
      (b.current.text (callAll (fun _ _ => 0) T.1 T.2 [.peekN 4, .consume, .consumeN 1]).2.1.mem,
        (callAll (fun _ _ => 0) T.1 T.2 [.peekN 4, .consume, .peek]).1)) =
    some (asc "ab", [.bytes (asc "cdef") none, .unit, .bytes (asc "f") none]) := by decide +kernel

example : Disjoint 0 4 4 4 := .inl (by decide)

end Verif.Parse.Buffers
