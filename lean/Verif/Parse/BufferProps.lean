import Verif.Parse.BufferLemmas

/-!
# C151: sources sharing the memory do not disturb each other

What is specified here speaks of sources as values (`Parse/Model.lean`), each used alone.
-/

namespace Verif.Parse.Buffers

/-! ### Specification -/

/-- What a method returns and leaves behind when the source is a value that nothing else can
touch (specification for parse/parse.go:82-177). -/
def answer (s : Source) : Op → Res × Source
  | .peek => (.bytes s.current none, s)
  | .peek1 => match s.peek1 with
    | .ok b => (.byte b, s)
    | .error f => (.fault f, s)
  | .peekN n => (.bytes (s.peekN n).1.1 (s.peekN n).1.2, (s.peekN n).2)
  | .peekRune => (.rune s.peekRune.1.1 s.peekRune.1.2, s.peekRune.2)
  | .consume => (.unit, s.consume)
  | .consumeN n => match s.consumeN n with
    | .ok s' => (.unit, s')
    | .error f => (.fault f, s)
  | .consume1 b => match s.consume1 b with
    | .ok s' => (.unit, s')
    | .error f => (.fault f, s)
  | .report e => (.unit, s.report e)
  | .error => (.err s.err, s)

/-- The results of calls on one source that is alone; calls on a nil source panic
(specification for parse/parse.go:82-177). -/
def alone : Option Source → List Op → List Res
  | _, [] => []
  | none, _ :: ops => .fault .panic :: alone none ops
  | some s, op :: ops => (answer s op).1 :: alone (some (answer s op).2) ops

/-- The source a constructor makes, as a value (specification for parse/parse.go:60-76). -/
def Made.value : Made → Option Source
  | .reading reader _ => (Parse.newSource (reader.map fun g => (g.bytes, g.err))).1
  | .string text => some (Parse.newSourceString text)

/-- The calls that concern source `i`. -/
def mine (i : Nat) (ops : List (Nat × Op)) : List Op :=
  (ops.filter (fun x => x.1 == i)).map (·.2)

/-- The results of the calls that concern source `i`. -/
def answers (i : Nat) (ops : List (Nat × Op)) (rs : List Res) : List Res :=
  ((ops.zip rs).filter (fun x => x.1.1 == i)).map (·.2)

/-- The memory `[p, p + n)` and the memory `[q, q + k)` have no byte in common. -/
def Disjoint (p n q k : Nat) : Prop := p + n ≤ q ∨ q + k ≤ p

/-- The buffers given to `NewSource` are in use already, hold what the reader returns, and
overlap nowhere, spare capacity included (condition on the calls of parse/parse.go:60-70). -/
structure Ready (w : World) (ms : List Made) : Prop where
  known : ∀ rs buf, Made.reading rs buf ∈ ms → buf.len ≤ buf.cap ∧ buf.ptr + buf.cap ≤ w.next
  reads : ∀ rs buf, Made.reading rs buf ∈ ms → ∀ g ∈ rs, g.bytes.length ≤ buf.len
  apart : ms.Pairwise fun m m' => ∀ rs buf rs' buf', m = .reading rs buf → m' = .reading rs' buf' →
    Disjoint buf.ptr buf.cap buf'.ptr buf'.cap

/-- Methods that do not consume (parse/parse.go:82-117, 154-177). -/
def Op.keeps : Op → Bool
  | .consume | .consumeN _ | .consume1 _ => false
  | _ => true

/-! ### One call -/

theorem peek1_text {b : BSource} {m : Mem} (h : b.current.len ≠ 0) :
    ∃ r, (b.value m).current = m b.current.ptr :: r := by
  obtain ⟨err, reader, ⟨p, n, c⟩, nexts, buf⟩ := b
  cases n with
  | zero => exact absurd rfl h
  | succ n => exact ⟨content m (p + 1) n, rfl⟩

theorem peek1_empty {b : BSource} {m : Mem} (h : b.current.len = 0) : (b.value m).current = [] := by
  have : ((b.value m).current).length = 0 := (text_length _ _).trans h
  exact List.eq_nil_of_length_eq_zero this

/-- A method on the memory does what it does on values. -/
theorem call_spec (room : Slice → Nat → Nat) {own : Nat → Prop} {w : World} {b : BSource}
    (h : Inv own w b) (op : Op) :
    (call room w b op).1 = (answer (b.value w.mem) op).1 ∧
    Step own w (call room w b op).2.1 (call room w b op).2.2 (answer (b.value w.mem) op).2 := by
  have stay := Step.stay h
  cases op with
  | peek => exact ⟨rfl, stay⟩
  | peek1 =>
    simp only [call, answer, Source.peek1]
    by_cases hl : b.current.len = 0
    · rw [if_pos hl, peek1_empty hl]
      exact ⟨rfl, stay⟩
    · obtain ⟨r, hr⟩ := peek1_text (m := w.mem) hl
      rw [if_neg hl, hr]
      exact ⟨rfl, stay⟩
  | peekN n =>
    obtain ⟨p1, p2, _⟩ := peekN_spec room h n
    simp only [call, answer]
    rw [p1]
    exact ⟨rfl, p2⟩
  | peekRune =>
    simp only [call, answer, Source.peekRune]
    by_cases hl : b.current.len < 1
    · rw [if_pos hl, peek1_empty (by omega)]
      exact ⟨rfl, stay⟩
    · obtain ⟨r, hr⟩ := peek1_text (b := b) (m := w.mem) (by omega)
      have hr' : b.current.text w.mem = w.mem b.current.ptr :: r := hr
      rw [if_neg hl, hr]
      simp only
      by_cases hx : first (w.mem b.current.ptr) ≥ 0xF0
      · rw [if_pos hx, if_pos hx, hr']
        exact ⟨rfl, stay⟩
      · rw [if_neg hx, if_neg hx]
        obtain ⟨p1, p2, _⟩ := peekN_spec room h (first (w.mem b.current.ptr) &&& 7).toNat
        rw [p1]
        exact ⟨rfl, p2⟩
  | consume => exact ⟨rfl, consume_spec h⟩
  | consumeN n =>
    have C := consumeN_spec n h
    simp only [call, answer]
    cases hc : consumeN w b n with
    | none =>
      rw [hc] at C
      simp only at C
      rw [C]
      exact ⟨rfl, stay⟩
    | some x =>
      rw [hc] at C
      obtain ⟨v, c1, c2⟩ := C
      rw [c1]
      exact ⟨rfl, c2⟩
  | consume1 b1 =>
    simp only [call, answer, Source.consume1]
    by_cases hl : b.current.len = 0
    · rw [if_pos hl, peek1_empty hl]
      exact ⟨rfl, stay⟩
    · obtain ⟨r, hr⟩ := peek1_text (m := w.mem) hl
      rw [if_neg hl, hr]
      simp only
      have key : ∀ b' : BSource, Inv own w b' →
          (match consumeN w b' 1 with
            | some x => (Res.unit, x.1, x.2)
            | none => (Res.fault .hang, w, b)).1 =
          (match (b'.value w.mem).consumeN 1 with
            | .ok s' => (Res.unit, s')
            | .error f => (Res.fault f, b.value w.mem)).1 ∧
          Step own w (match consumeN w b' 1 with
            | some x => (Res.unit, x.1, x.2)
            | none => (Res.fault .hang, w, b)).2.1 (match consumeN w b' 1 with
            | some x => (Res.unit, x.1, x.2)
            | none => (Res.fault .hang, w, b)).2.2
            (match (b'.value w.mem).consumeN 1 with
            | .ok s' => (Res.unit, s')
            | .error f => (Res.fault f, b.value w.mem)).2 := by
        intro b' h'
        have C := consumeN_spec 1 h'
        cases hc : consumeN w b' 1 with
        | none =>
          rw [hc] at C
          simp only at C
          rw [C]
          exact ⟨rfl, stay⟩
        | some x =>
          rw [hc] at C
          obtain ⟨v, c1, c2⟩ := C
          rw [c1]
          exact ⟨rfl, c2⟩
      by_cases hb : b1 ≠ w.mem b.current.ptr
      · rw [if_pos hb, if_pos hb]
        have K := key _ (h.report (.msg (asc "expect " ++ [b1] ++ asc " but found " ++ [w.mem b.current.ptr])))
        rw [value_report] at K
        exact K
      · rw [if_neg hb, if_neg hb]
        exact key b h
  | report e =>
    have S := Step.stay (h.report e)
    rw [value_report] at S
    exact ⟨rfl, S⟩
  | error => exact ⟨rfl, stay⟩

/-! ### Many sources -/

/-- What somebody else did leaves a source as it was. -/
theorem Inv.other {own : Nat → Prop} {w w' : World} {b : BSource} (h : Inv own w b)
    (le : w.next ≤ w'.next) (same : ∀ a, own a → w'.mem a = w.mem a) :
    Inv own w' b ∧ b.value w'.mem = b.value w.mem := by
  refine ⟨⟨fun a ha => Nat.lt_of_lt_of_le (h.below a ha) le, h.buf, h.cur, h.nexts, h.curFits, h.bufFits,
    h.nextFits, h.apart, h.apart2, Nat.le_trans h.curBelow le, Nat.le_trans h.bufBelow le,
    fun x hx => Nat.le_trans (h.nextBelow x hx) le, h.reads⟩, ?_⟩
  unfold BSource.value
  congr 1
  · apply text_congr
    intro a h1 h2
    exact same a (h.cur a ⟨h1, by have := h.curFits; omega⟩)
  · apply List.map_congr_left
    intro x hx
    apply text_congr
    intro a h1 h2
    exact same a (h.nexts x hx a ⟨h1, by have := h.nextFits x hx; omega⟩)

/-- All sources together: each owns memory no other owns, and has the value it would have
alone (invariant for parse/parse.go:51-167). -/
structure Good (owns : Nat → Nat → Prop) (w : World) (bs : List (Option BSource))
    (vs : Nat → Option Source) : Prop where
  each : ∀ i b, bs.getD i none = some b → Inv (owns i) w b ∧ vs i = some (b.value w.mem)
  nil : ∀ i, bs.getD i none = none → vs i = none
  below : ∀ i a, owns i a → a < w.next
  disj : ∀ i j a, i ≠ j → owns i a → ¬ owns j a

theorem getD_set_self {bs : List (Option BSource)} {i : Nat} {b : BSource} {x : Option BSource}
    (h : bs.getD i none = some b) : (bs.set i x).getD i none = x := by
  rw [List.getD_eq_getElem?_getD] at h ⊢
  have hi : i < bs.length := by
    by_cases hi : i < bs.length
    · exact hi
    · rw [List.getElem?_eq_none (by omega)] at h
      cases h
  simp [hi]

theorem getD_set_ne {bs : List (Option BSource)} {i j : Nat} {x : Option BSource} (h : i ≠ j) :
    (bs.set i x).getD j none = bs.getD j none := by
  simp [List.getD_eq_getElem?_getD, h]

/-- A step of one source keeps all of them good. -/
theorem Good.step {owns : Nat → Nat → Prop} {w w' : World} {bs : List (Option BSource)}
    {vs : Nat → Option Source} (G : Good owns w bs vs) {i : Nat} {b b' : BSource} {v : Source}
    (hb : bs.getD i none = some b) (S : Step (owns i) w w' b' v) :
    Good (fun j => if j = i then grown (owns i) w.next w'.next else owns j) w' (bs.set i (some b'))
      (fun j => if j = i then some v else vs j) := by
  refine ⟨?_, ?_, ?_, ?_⟩
  · intro j c hc
    by_cases hj : j = i
    · subst hj
      rw [getD_set_self hb] at hc
      cases hc
      simp only [if_pos]
      exact ⟨S.inv, by rw [S.value]⟩
    · rw [getD_set_ne (Ne.symm hj)] at hc
      simp only [if_neg hj]
      obtain ⟨e1, e2⟩ := G.each j c hc
      obtain ⟨o1, o2⟩ := e1.other S.le (fun a ha => S.frame a (G.below j a ha) (G.disj j i a hj ha))
      exact ⟨o1, by rw [o2]; exact e2⟩
  · intro j hn
    by_cases hj : j = i
    · subst hj
      rw [getD_set_self hb] at hn
      cases hn
    · rw [getD_set_ne (Ne.symm hj)] at hn
      simp only [if_neg hj]
      exact G.nil j hn
  · intro j a ha
    by_cases hj : j = i
    · simp only [if_pos hj] at ha
      exact S.inv.below a ha
    · simp only [if_neg hj] at ha
      exact Nat.lt_of_lt_of_le (G.below j a ha) S.le
  · intro j k a hjk ha hk
    by_cases hj : j = i
    · have hki : k ≠ i := fun e => hjk (hj.trans e.symm)
      simp only [if_pos hj] at ha
      simp only [if_neg hki] at hk
      rcases ha with ha | ha
      · exact G.disj k i a hki hk ha
      · have := G.below k a hk
        omega
    · simp only [if_neg hj] at ha
      by_cases hki : k = i
      · simp only [if_pos hki] at hk
        rcases hk with hk | hk
        · exact G.disj j i a hj ha hk
        · have := G.below j a ha
          omega
      · simp only [if_neg hki] at hk
        exact G.disj j k a hjk ha hk

/-- The values after calls on sources that are alone (for parse/parse.go:82-177). -/
def after : (Nat → Option Source) → List (Nat × Op) → Nat → Option Source
  | vs, [] => vs
  | vs, (i, op) :: ops =>
    match vs i with
    | none => after vs ops
    | some v => after (fun j => if j = i then some (answer v op).2 else vs j) ops

theorem runAll_spec (room : Slice → Nat → Nat) : ∀ (ops : List (Nat × Op)) {owns : Nat → Nat → Prop}
    {w : World} {bs : List (Option BSource)} {vs : Nat → Option Source}, Good owns w bs vs →
    (∀ i, answers i ops (runAll room w bs ops).1 = alone (vs i) (mine i ops)) ∧
    (∃ owns', Good owns' (runAll room w bs ops).2.1 (runAll room w bs ops).2.2 (after vs ops)) ∧
    w.next ≤ (runAll room w bs ops).2.1.next ∧
    ∀ a, a < w.next → (∀ i, ¬ owns i a) → (runAll room w bs ops).2.1.mem a = w.mem a
  | [], owns, w, bs, vs, G => by
    refine ⟨?_, ⟨owns, G⟩, Nat.le_refl _, fun _ _ _ => rfl⟩
    intro i
    cases vs i <;> rfl
  | (j, op) :: ops, owns, w, bs, vs, G => by
    cases hb : bs.getD j none with
    | none =>
      have hv := G.nil j hb
      obtain ⟨I1, I2, I3, I4⟩ := runAll_spec room ops G
      simp only [runAll, hb, after, hv]
      refine ⟨?_, I2, I3, I4⟩
      intro i
      by_cases hi : j = i
      · subst hi
        have := I1 j
        simp only [answers, mine, List.zip_cons_cons, List.filter_cons, beq_self_eq_true, if_true,
          List.map_cons] at this ⊢
        rw [hv] at this ⊢
        simp only [alone, this]
      · have := I1 i
        have hi' : (j == i) = false := by simpa using hi
        simp only [answers, mine, List.zip_cons_cons, List.filter_cons, hi'] at this ⊢
        simpa using this
    | some b =>
      obtain ⟨e1, e2⟩ := G.each j b hb
      obtain ⟨c1, c2⟩ := call_spec room e1 op
      have G' := G.step hb c2
      obtain ⟨I1, I2, I3, I4⟩ := runAll_spec room ops G'
      simp only [runAll, hb, after, e2]
      refine ⟨?_, I2, Nat.le_trans c2.le I3, ?_⟩
      · intro i
        have I := I1 i
        by_cases hi : j = i
        · subst hi
          simp only [answers, mine, List.zip_cons_cons, List.filter_cons, beq_self_eq_true, if_true,
            List.map_cons] at I ⊢
          rw [e2, I, c1]
          rfl
        · have hi' : (j == i) = false := by simpa using hi
          have hi2 : i ≠ j := fun e => hi e.symm
          simp only [answers, mine, List.zip_cons_cons, List.filter_cons, hi', if_neg hi2] at I ⊢
          simpa using I
      · intro a ha hno
        rw [I4 a (Nat.lt_of_lt_of_le ha c2.le), c2.frame a ha (hno j)]
        intro i
        by_cases hi : i = j
        · simp only [if_pos hi]
          rintro (h | h)
          · exact hno j h
          · omega
        · simp only [if_neg hi]
          exact hno i

/-! ### Making the sources -/

/-- The memory of the buffer a constructor was given (parse/parse.go:60-70). -/
def Made.has : Made → Nat → Prop
  | .reading _ buf, a => buf.has a
  | .string _, _ => False

theorem value_plain (reader : List Got) :
    (reader.map fun g => (g.bytes, g.err)) = reader.map Got.plain := rfl

theorem newSource_spec {w : World} {reader : List Got} {buf : Slice} (hfit : buf.len ≤ buf.cap)
    (hbel : buf.ptr + buf.cap ≤ w.next) (hr : ∀ g ∈ reader, g.bytes.length ≤ buf.len) :
    let N := newSource w reader buf
    N.1.next = w.next ∧ (∀ a, ¬ buf.has a → N.1.mem a = w.mem a) ∧
    match N.2.1 with
    | none => (Parse.newSource (reader.map Got.plain)).1 = none
    | some b => Inv buf.has N.1 b ∧ (Parse.newSource (reader.map Got.plain)).1 = some (b.value N.1.mem) := by
  obtain ⟨t1, t2⟩ := takeGot_fits hr
  obtain ⟨r1, r2, r3, r4⟩ := read_spec w buf (takeGot reader).1 t1
  simp only [newSource, Parse.newSource, takeGot_plain]
  generalize takeGot reader = g at *
  generalize w.read buf g.1 = r at *
  have hmem : ∀ a, ¬ buf.has a → r.1.mem a = w.mem a := by
    intro a ha
    apply r4
    intro hin
    exact ha ⟨hin.1, Nat.lt_of_lt_of_le hin.2 (Nat.add_le_add_left hfit _)⟩
  by_cases h0 : r.2 = 0
  · rw [if_pos h0]
    refine ⟨r3, hmem, ?_⟩
    have : g.1.plain.1.length = 0 := by show g.1.bytes.length = 0; omega
    simp only [this, if_true]
  · rw [if_neg h0]
    refine ⟨r3, hmem, ?_, ?_⟩
    · refine ⟨?_, fun a ha => ha, fun a ha => ha, by simp, ?_, hfit, by simp, by simp, List.Pairwise.nil,
        by rw [r3]; exact hbel, by rw [r3]; exact hbel, by simp, ?_⟩
      · intro a ha
        rw [r3]
        exact Nat.lt_of_lt_of_le ha.2 hbel
      · show r.2 ≤ buf.cap
        omega
      · intro rs e
        cases e
        exact t2
    · have : g.1.plain.1.length ≠ 0 := by show g.1.bytes.length ≠ 0; omega
      rw [if_neg this]
      simp only [BSource.value, Option.map_some, List.map_nil]
      rw [r2]
      rfl

theorem newSourceString_spec (w : World) (text : Bytes) :
    let N := newSourceString w text
    N.1.next = w.next + text.length ∧ (∀ a, a < w.next → N.1.mem a = w.mem a) ∧
    Inv (fun a => w.next ≤ a ∧ a < w.next + text.length) N.1 N.2 ∧
    N.2.value N.1.mem = Parse.newSourceString text := by
  refine ⟨rfl, fun a ha => write_out (by omega), ?_, ?_⟩
  · refine ⟨fun a ha => ha.2, ?_, fun a ha => ha, by simp [newSourceString], Nat.le_refl _, Nat.le_refl _,
      by simp [newSourceString], by simp [newSourceString], List.Pairwise.nil, Nat.le_refl _, Nat.zero_le _,
      by simp [newSourceString], by simp [newSourceString]⟩
    intro a ha
    simp [newSourceString, Slice.has] at ha
  · simp only [newSourceString, Parse.newSourceString, BSource.value, Option.map_none, List.map_nil, Slice.text,
      content_write]

/-- Sources with their memory apart, made one after the other. -/
theorem makeAll_spec : ∀ (ms : List Made) (w : World),
    (∀ rs buf, Made.reading rs buf ∈ ms → buf.len ≤ buf.cap ∧ buf.ptr + buf.cap ≤ w.next) →
    (∀ rs buf, Made.reading rs buf ∈ ms → ∀ g ∈ rs, g.bytes.length ≤ buf.len) →
    (ms.Pairwise fun m m' => ∀ a, m.has a → ¬ m'.has a) →
    w.next ≤ (makeAll w ms).1.next ∧
    (∀ a, a < w.next → (∀ m ∈ ms, ¬ m.has a) → (makeAll w ms).1.mem a = w.mem a) ∧
    ∃ owns, Good owns (makeAll w ms).1 (makeAll w ms).2 (fun i => (ms.map Made.value).getD i none) ∧
      ∀ i a, owns i a → w.next ≤ a ∨ ∃ m ∈ ms, m.has a
  | [], w, _, _, _ => by
    refine ⟨Nat.le_refl _, fun _ _ _ => rfl, fun _ _ => False, ⟨?_, ?_, ?_, ?_⟩, ?_⟩
    · intro i b h
      simp [makeAll] at h
    · intro i _
      simp
    · intro i a h
      exact h.elim
    · intro i j a _ h
      exact h.elim
    · intro i a h
      exact h.elim
  | m :: ms, w, hk, hr, hp => by
    have hp' := List.pairwise_cons.1 hp
    -- what making the first one gives
    have first : ∃ (w1 : World) (ob : Option BSource) (own : Nat → Prop),
        makeAll w (m :: ms) = ((makeAll w1 ms).1, ob :: (makeAll w1 ms).2) ∧ w.next ≤ w1.next ∧
        (∀ a, a < w.next → ¬ m.has a → w1.mem a = w.mem a) ∧
        (∀ a, own a → a < w1.next ∧ (w.next ≤ a ∨ m.has a)) ∧
        (match ob with
          | none => m.value = none
          | some b => Inv own w1 b ∧ m.value = some (b.value w1.mem)) := by
      cases m with
      | reading rs buf =>
        have hkn := hk rs buf (by simp)
        obtain ⟨n1, n2, n3⟩ := newSource_spec hkn.1 hkn.2 (hr rs buf (by simp))
        refine ⟨(newSource w rs buf).1, (newSource w rs buf).2.1, buf.has, rfl, by omega,
          fun a _ ha => n2 a ha, ?_, ?_⟩
        · intro a ha
          exact ⟨by rw [n1]; exact Nat.lt_of_lt_of_le ha.2 hkn.2, .inr ha⟩
        · exact n3
      | string text =>
        obtain ⟨n1, n2, n3, n4⟩ := newSourceString_spec w text
        refine ⟨(newSourceString w text).1, some (newSourceString w text).2,
          fun a => w.next ≤ a ∧ a < w.next + text.length, rfl, by omega, fun a ha _ => n2 a ha, ?_, n3, ?_⟩
        · intro a ha
          exact ⟨by omega, .inl ha.1⟩
        · rw [n4]; rfl
    obtain ⟨w1, ob, own, f1, f2, f3, f4, f5⟩ := first
    obtain ⟨i1, i2, owns, i3, i4⟩ := makeAll_spec ms w1
      (fun rs buf h => by have := hk rs buf (by simp [h]); omega) (fun rs buf h => hr rs buf (by simp [h])) hp'.2
    rw [f1]
    simp only
    have hkeep : ∀ a, own a → (makeAll w1 ms).1.mem a = w1.mem a := by
      intro a ha
      refine i2 a (f4 a ha).1 ?_
      intro m' hm' hh
      rcases (f4 a ha).2 with hw | hw
      · cases m' with
        | reading rs buf =>
          have := hk rs buf (by simp [hm'])
          have : a < buf.ptr + buf.cap := hh.2
          omega
        | string text => exact hh
      · exact hp'.1 m' hm' a hw hh
    refine ⟨Nat.le_trans f2 i1, ?_, fun i => match i with | 0 => own | i + 1 => owns i, ⟨?_, ?_, ?_, ?_⟩, ?_⟩
    · intro a ha hno
      rw [i2 a (by omega) (fun m' hm' => hno m' (by simp [hm'])), f3 a ha (hno m (by simp))]
    · intro i b hb
      cases i with
      | zero =>
        simp only [List.getD_cons_zero] at hb
        subst hb
        simp only at f5
        obtain ⟨o1, o2⟩ := f5.1.other i1 hkeep
        exact ⟨o1, by rw [o2]; exact f5.2⟩
      | succ i =>
        simp only [List.getD_cons_succ] at hb
        exact i3.each i b hb
    · intro i hb
      cases i with
      | zero =>
        simp only [List.getD_cons_zero] at hb
        subst hb
        exact f5
      | succ i =>
        simp only [List.getD_cons_succ] at hb
        exact i3.nil i hb
    · intro i a ha
      cases i with
      | zero => exact Nat.lt_of_lt_of_le (f4 a ha).1 i1
      | succ i => exact i3.below i a ha
    · have cross : ∀ i a, own a → ¬ owns i a := by
        intro i a ha ho
        have h1 := (f4 a ha).1
        rcases i4 i a ho with h | ⟨m', hm', hh⟩
        · omega
        · rcases (f4 a ha).2 with hw | hw
          · cases m' with
            | reading rs buf =>
              have := hk rs buf (by simp [hm'])
              have : a < buf.ptr + buf.cap := hh.2
              omega
            | string text => exact hh
          · exact hp'.1 m' hm' a hw hh
      intro i j a hij ha hb
      cases i with
      | zero =>
        cases j with
        | zero => exact hij rfl
        | succ j => exact cross j a ha hb
      | succ i =>
        cases j with
        | zero => exact cross i a hb ha
        | succ j => exact i3.disj i j a (fun e => hij (by rw [e])) ha hb
    · intro i a ha
      cases i with
      | zero =>
        rcases (f4 a ha).2 with h | h
        · exact .inl h
        · exact .inr ⟨m, by simp, h⟩
      | succ i =>
        rcases i4 i a ha with h | ⟨m', hm', h⟩
        · exact .inl (by omega)
        · exact .inr ⟨m', by simp [hm'], h⟩

theorem Ready.disjoint {w : World} {ms : List Made} (h : Ready w ms) :
    ms.Pairwise fun m m' => ∀ a, m.has a → ¬ m'.has a := by
  refine h.apart.imp ?_
  intro m m' hd a h1 h2
  cases m with
  | string _ => exact h1
  | reading rs buf =>
    cases m' with
    | string _ => exact h2
    | reading rs' buf' =>
      have h1' : buf.ptr ≤ a ∧ a < buf.ptr + buf.cap := h1
      have h2' : buf'.ptr ≤ a ∧ a < buf'.ptr + buf'.cap := h2
      rcases hd rs buf rs' buf' rfl rfl with h | h <;> omega

/-! ### Sources do not disturb each other -/

/-- C151, as far as it holds: any number of sources whose buffers do not overlap even in their
spare capacity, used in any order: every call returns what it would return on a source that is
a value and alone, and no memory is written that was in use before except the buffers.
Missing for the full statement: buffers that overlap in their capacity only, see
`neighbours_disturbed` and `behind_written`. -/
theorem alone_partial (room : Slice → Nat → Nat) (w : World) (ms : List Made) (h : Ready w ms)
    (ops : List (Nat × Op)) :
    (∀ i, answers i ops (runAll room (makeAll w ms).1 (makeAll w ms).2 ops).1 =
      alone ((ms.map Made.value).getD i none) (mine i ops)) ∧
    ∀ a, a < w.next →
      (∀ rs buf, Made.reading rs buf ∈ ms → ¬ (buf.ptr ≤ a ∧ a < buf.ptr + buf.cap)) →
      (runAll room (makeAll w ms).1 (makeAll w ms).2 ops).2.1.mem a = w.mem a := by
  obtain ⟨m1, m2, owns, m3, m4⟩ := makeAll_spec ms w h.known h.reads h.disjoint
  obtain ⟨r1, _, _, r4⟩ := runAll_spec room ops m3
  refine ⟨r1, ?_⟩
  intro a ha hno
  have hm : ∀ m ∈ ms, ¬ m.has a := by
    intro m hm hh
    cases m with
    | reading rs buf => exact hno rs buf hm hh
    | string _ => exact hh
  rw [r4 a (by omega) ?_, m2 a ha hm]
  intro i ho
  rcases m4 i a ho with h | ⟨m, h1, h2⟩
  · omega
  · exact hm m h1 h2

/-! ### What was handed out -/

/-- All bytes a source has at hand (for parse/parse.go:51-58). -/
def stream (s : Source) : Bytes := s.current ++ s.nextList.flatten

theorem peekNext_prefix (n : Nat) : ∀ (ns : List Bytes) (p : Bytes),
    (∀ q, Parse.peekNext n ns p = .inl q → q <+: p ++ ns.flatten) ∧
    (∀ q, Parse.peekNext n ns p = .inr q → q = p ++ ns.flatten)
  | [], p => by
    refine ⟨fun q h => ?_, fun q h => ?_⟩
    · simp [Parse.peekNext] at h
    · simp only [Parse.peekNext, Sum.inr.injEq] at h
      simp [h]
  | x :: ns, p => by
    obtain ⟨i1, i2⟩ := peekNext_prefix n ns (p ++ x)
    simp only [Parse.peekNext]
    by_cases hc : (p ++ x).length ≥ n
    · rw [if_pos hc]
      refine ⟨fun q h => ?_, fun q h => by cases h⟩
      cases h
      refine (List.take_prefix n (p ++ x)).trans ?_
      simp
    · rw [if_neg hc]
      simp only [List.append_assoc] at i1 i2
      simpa using ⟨i1, i2⟩

theorem peekRead_prefix (n : Nat) : ∀ (rs : List ReadResult) (p : Bytes),
    (Parse.peekRead n rs p).1 <+: p ++ (Parse.peekRead n rs p).2.2.2.flatten
  | [], p => by
    simp only [Parse.peekRead]
    by_cases hc : p.length ≥ n
    · rw [if_pos hc]; simpa using List.take_prefix n p
    · rw [if_neg hc]; simp
  | (x, e) :: rs, p => by
    simp only [Parse.peekRead]
    by_cases hc : (p ++ x).length ≥ n
    · rw [if_pos hc]; simpa using List.take_prefix n (p ++ x)
    · rw [if_neg hc]
      cases e with
      | some e => simp
      | none => simpa using peekRead_prefix n rs (p ++ x)

/-- What `PeekN` returns is the beginning of what the source has at hand afterwards, and that
is what it had before and possibly more. -/
theorem peekN_stream (s : Source) (n : Nat) :
    (s.peekN n).1.1 <+: stream (s.peekN n).2 ∧ stream s <+: stream (s.peekN n).2 := by
  unfold Source.peekN stream
  by_cases hn : n ≤ s.current.length
  · rw [if_pos hn]
    exact ⟨(List.take_prefix _ _).trans (List.prefix_append _ _), List.prefix_rfl⟩
  · rw [if_neg hn]
    cases s.reader with
    | none => exact ⟨List.prefix_append _ _, List.prefix_rfl⟩
    | some rs =>
      obtain ⟨p1, p2⟩ := peekNext_prefix n s.nextList s.current
      cases hp : Parse.peekNext n s.nextList s.current with
      | inl q =>
        simp only
        exact ⟨p1 q hp, List.prefix_rfl⟩
      | inr q =>
        have hq := p2 q hp
        have P := peekRead_prefix n rs q
        simp only [List.flatten_append]
        rw [hq] at P ⊢
        simp only [List.append_assoc] at P ⊢
        exact ⟨P, by simp⟩

/-- A call that does not consume leaves `current` where it is, adds to what is at hand, and
writes only behind `current`, and there only what is at hand anyway. -/
theorem call_keeps (room : Slice → Nat → Nat) {own : Nat → Prop} {w : World} {b : BSource}
    (h : Inv own w b) (op : Op) (hk : op.keeps = true) :
    (call room w b op).2.2.current = b.current ∧
    stream (b.value w.mem) <+: stream ((call room w b op).2.2.value (call room w b op).2.1.mem) ∧
    ∃ str, str <+: stream ((call room w b op).2.2.value (call room w b op).2.1.mem) ∧
      Kept w (call room w b op).2.1 b.current str := by
  have stay : ∀ b' : BSource, b'.current = b.current → b'.nextList = b.nextList →
      b'.current = b.current ∧ stream (b.value w.mem) <+: stream (b'.value w.mem) ∧
      ∃ str, str <+: stream (b'.value w.mem) ∧ Kept w w b.current str := by
    intro b' h1 h2
    refine ⟨h1, ?_, [], List.nil_prefix, fun _ _ => .inl rfl⟩
    simp only [stream, BSource.value, h1, h2]
    exact List.prefix_rfl
  have peekd : ∀ n, (peekN room w b n).2.2.2.current = b.current ∧
      stream (b.value w.mem) <+: stream ((peekN room w b n).2.2.2.value (peekN room w b n).1.mem) ∧
      ∃ str, str <+: stream ((peekN room w b n).2.2.2.value (peekN room w b n).1.mem) ∧
        Kept w (peekN room w b n).1 b.current str := by
    intro n
    obtain ⟨_, p2, p3, _, str, p5, p6⟩ := peekN_spec room h n
    refine ⟨p3, ?_, str, p5, p6⟩
    rw [p2.value]
    exact (peekN_stream _ n).2
  cases op with
  | peek => exact stay b rfl rfl
  | peek1 =>
    simp only [call]
    by_cases hl : b.current.len = 0
    · rw [if_pos hl]; exact stay b rfl rfl
    · rw [if_neg hl]; exact stay b rfl rfl
  | peekN n => exact peekd n
  | peekRune =>
    simp only [call]
    by_cases hl : b.current.len < 1
    · rw [if_pos hl]; exact stay b rfl rfl
    · rw [if_neg hl]
      by_cases hx : first (w.mem b.current.ptr) ≥ 0xF0
      · rw [if_pos hx]; exact stay b rfl rfl
      · rw [if_neg hx]; exact peekd _
  | consume => cases hk
  | consumeN n => cases hk
  | consume1 b1 => cases hk
  | report e =>
    refine stay (b.report e) ?_ ?_ <;> · unfold BSource.report; cases b.err <;> rfl
  | error => exact stay b rfl rfl

/-- A slice the source has handed out: it lies where `current` lies and holds the beginning of
what is at hand, or it lies in memory the source owns and does not write to
(for parse/parse.go:82-117). -/
def Held (own : Nat → Prop) (w : World) (b : BSource) (sl : Slice) : Prop :=
  (∀ a, sl.ptr ≤ a → a < sl.ptr + sl.len → own a) ∧
  ((sl.ptr = b.current.ptr ∧ sl.len ≤ b.current.cap ∧ sl.text w.mem <+: stream (b.value w.mem)) ∨
    ∀ a, sl.ptr ≤ a → a < sl.ptr + sl.len → ¬ b.current.has a)

theorem peekN_held (room : Slice → Nat → Nat) {own : Nat → Prop} {w : World} {b : BSource}
    (h : Inv own w b) (n : Nat) :
    Held (grown own w.next (peekN room w b n).1.next) (peekN room w b n).1 (peekN room w b n).2.2.2
      (peekN room w b n).2.1 := by
  obtain ⟨p1, p2, p3, p4, _⟩ := peekN_spec room h n
  rcases p4 with ⟨l1, l2⟩ | ⟨l1, l2⟩
  · refine ⟨?_, .inl ⟨by rw [p3]; exact l1, by rw [p3]; exact l2, ?_⟩⟩
    · intro a h1 h2
      exact .inl (h.cur a ⟨by omega, by omega⟩)
    · have S := (peekN_stream (b.value w.mem) n).1
      rw [p1] at S
      rw [p2.value]
      exact S
  · refine ⟨?_, .inr ?_⟩
    · intro a h1 h2
      exact .inr ⟨by omega, by omega⟩
    · intro a h1 h2 hh
      rw [p3] at hh
      have := h.below a (h.cur a hh)
      omega

/-- A call on the same source that does not consume leaves the slice. -/
theorem Held.same (room : Slice → Nat → Nat) {own : Nat → Prop} {w : World} {b : BSource} {sl : Slice}
    (H : Held own w b sl) (h : Inv own w b) (op : Op) (hk : op.keeps = true) :
    sl.text (call room w b op).2.1.mem = sl.text w.mem ∧
    Held (grown own w.next (call room w b op).2.1.next) (call room w b op).2.1 (call room w b op).2.2 sl := by
  obtain ⟨c1, c2, str, c3, c4⟩ := call_keeps room h op hk
  generalize call room w b op = c at *
  obtain ⟨H1, H2⟩ := H
  rcases H2 with ⟨e1, e2, e3⟩ | H2
  · have ht : sl.text c.2.1.mem = sl.text w.mem := by
      apply text_congr
      intro a h1 h2
      rcases c4 a (h.below a (H1 a h1 h2)) with e | ⟨k1, k2, k3, k4⟩
      · exact e
      · rw [k4]
        have hT : (sl.text w.mem).getD (a - sl.ptr) 0 = w.mem a := by
          unfold Slice.text
          rw [content_getD _ _ _ _ (by omega)]
          congr 1; omega
        have hlen : a - sl.ptr < (sl.text w.mem).length := by rw [text_length]; omega
        obtain ⟨r1, hr1⟩ := e3.trans c2
        obtain ⟨r2, hr2⟩ := c3
        rw [← hT, ← e1, ← getD_left _ r2 _ (by rw [e1]; exact k3), hr2, ← hr1, getD_left _ _ _ hlen]
    refine ⟨ht, fun a h1 h2 => .inl (H1 a h1 h2), .inl ⟨by rw [c1]; exact e1, by rw [c1]; exact e2, ?_⟩⟩
    rw [ht]
    exact e3.trans c2
  · refine ⟨?_, fun a h1 h2 => .inl (H1 a h1 h2), .inr ?_⟩
    · apply text_congr
      intro a h1 h2
      rcases c4 a (h.below a (H1 a h1 h2)) with e | ⟨k1, k2, _, _⟩
      · exact e
      · exact absurd ⟨by omega, k2⟩ (H2 a h1 h2)
    · rw [c1]
      exact H2

theorem runAll_held (room : Slice → Nat → Nat) (i : Nat) (sl : Slice) : ∀ (ops : List (Nat × Op))
    {owns : Nat → Nat → Prop} {w : World} {bs : List (Option BSource)} {vs : Nat → Option Source} {b : BSource},
    Good owns w bs vs → bs.getD i none = some b → Held (owns i) w b sl →
    (∀ op, (i, op) ∈ ops → op.keeps = true) →
    sl.text (runAll room w bs ops).2.1.mem = sl.text w.mem
  | [], _, _, _, _, _, _, _, _, _ => rfl
  | (j, op) :: ops, owns, w, bs, vs, b, G, hb, H, hk => by
    have hk' : ∀ op, (i, op) ∈ ops → op.keeps = true := fun op ho => hk op (by simp [ho])
    cases hj : bs.getD j none with
    | none =>
      simp only [runAll, hj]
      exact runAll_held room i sl ops G hb H hk'
    | some c =>
      simp only [runAll, hj]
      obtain ⟨e1, _⟩ := G.each j c hj
      obtain ⟨_, s2⟩ := call_spec room e1 op
      have G' := G.step hj s2
      by_cases hij : j = i
      · subst hij
        rw [hj] at hb
        cases hb
        obtain ⟨h1, h2⟩ := H.same room e1 op (hk op (by simp))
        rw [runAll_held room j sl ops G' (getD_set_self hj) (by simpa using h2) hk', h1]
      · have hij' : i ≠ j := fun e => hij e.symm
        have hsame : ∀ a, owns i a → (call room w c op).2.1.mem a = w.mem a :=
          fun a ha => s2.frame a (G.below i a ha) (G.disj i j a hij' ha)
        have ht : sl.text (call room w c op).2.1.mem = sl.text w.mem :=
          text_congr fun a h1 h2 => hsame a (H.1 a h1 h2)
        have hv := ((G.each i b hb).1.other s2.le hsame).2
        have H' : Held (owns i) (call room w c op).2.1 b sl := by
          refine ⟨H.1, ?_⟩
          rw [ht, hv]
          exact H.2
        rw [runAll_held room i sl ops G' ((getD_set_ne hij).trans hb) (by simpa [hij'] using H') hk', ht]

/-- C151, what is handed out: the bytes of a slice returned by `PeekN` (or `Peek`, which is
`PeekN` of what is current) stay as they are whatever is called on the other sources, and
until this source is asked to consume. -/
theorem peeked_stays (room : Slice → Nat → Nat) (w : World) (ms : List Made) (h : Ready w ms)
    (ops ops' : List (Nat × Op)) (i : Nat) (b : BSource) (n : Nat)
    (hb : (runAll room (makeAll w ms).1 (makeAll w ms).2 ops).2.2.getD i none = some b)
    (hk : ∀ op, (i, op) ∈ ops' → op.keeps = true) :
    let R := runAll room (makeAll w ms).1 (makeAll w ms).2 ops
    let P := peekN room R.2.1 b n
    P.2.1.text (runAll room P.1 (R.2.2.set i (some P.2.2.2)) ops').2.1.mem = P.2.1.text P.1.mem := by
  obtain ⟨m1, m2, owns, m3, m4⟩ := makeAll_spec ms w h.known h.reads h.disjoint
  obtain ⟨_, ⟨owns', G⟩, _, _⟩ := runAll_spec room ops m3
  obtain ⟨e1, _⟩ := G.each i b hb
  obtain ⟨_, s2, _⟩ := peekN_spec room e1 n
  have G' := G.step hb s2
  exact runAll_held room i _ ops' G' (getD_set_self hb) (by simpa using peekN_held room e1 n) hk

/-! ### Spare capacity is written to -/

/-- The statement without spare capacity: buffers that do not overlap as far as their lengths
go (condition on the calls of parse/parse.go:60-70). -/
structure ReadyLen (w : World) (ms : List Made) : Prop where
  known : ∀ rs buf, Made.reading rs buf ∈ ms → buf.len ≤ buf.cap ∧ buf.ptr + buf.cap ≤ w.next
  reads : ∀ rs buf, Made.reading rs buf ∈ ms → ∀ g ∈ rs, g.bytes.length ≤ buf.len
  apart : ms.Pairwise fun m m' => ∀ rs buf rs' buf', m = .reading rs buf → m' = .reading rs' buf' →
    Disjoint buf.ptr buf.len buf'.ptr buf'.len

/-- Eight bytes in use, all zero. -/
def eight : World := ⟨fun _ => 0, 8⟩

/-- Two sources on the two halves of one array of four bytes, as `big[:2]` and `big[2:]`. -/
def halves : List Made :=
  [.reading [⟨asc "ab", [], none⟩, ⟨asc "cd", [], none⟩] ⟨0, 2, 4⟩,
   .reading [⟨asc "xy", [], none⟩] ⟨2, 2, 2⟩]

/-- C151 fails: with buffers that are the two halves of one array, looking ahead in the first
source (`PeekN(4)`) overwrites what the second source holds. -/
theorem neighbours_disturbed :
    ∃ (w : World) (ms : List Made) (ops : List (Nat × Op)), ReadyLen w ms ∧
      answers 1 ops (runAll (fun _ _ => 0) (makeAll w ms).1 (makeAll w ms).2 ops).1 ≠
        alone ((ms.map Made.value).getD 1 none) (mine 1 ops) := by
  refine ⟨eight, halves, [(0, .peekN 4), (1, .peek)], ⟨?_, ?_, ?_⟩, by decide +kernel⟩
  · intro rs buf hm
    simp only [halves, List.mem_cons, List.not_mem_nil, or_false, Made.reading.injEq] at hm
    rcases hm with ⟨_, rfl⟩ | ⟨_, rfl⟩ <;> decide
  · intro rs buf hm g hg
    simp only [halves, List.mem_cons, List.not_mem_nil, or_false, Made.reading.injEq] at hm
    rcases hm with ⟨rfl, rfl⟩ | ⟨rfl, rfl⟩
    · simp only [List.mem_cons, List.not_mem_nil, or_false] at hg
      rcases hg with rfl | rfl <;> decide
    · simp only [List.mem_cons, List.not_mem_nil, or_false] at hg
      subst hg; decide
  · simp only [halves, List.pairwise_cons, List.mem_cons, List.not_mem_nil, or_false, forall_eq,
      List.Pairwise.nil, and_true, false_implies, implies_true]
    intro rs buf rs' buf' e e'
    cases e; cases e'
    exact .inl (by decide)

/-- C151 fails for a single source too: `PeekN` writes into the caller's array behind the
buffer it was given. -/
theorem behind_written :
    ∃ (w : World) (ms : List Made) (ops : List (Nat × Op)) (a : Nat), ReadyLen w ms ∧ a < w.next ∧
      (∀ rs buf, Made.reading rs buf ∈ ms → ¬ (buf.ptr ≤ a ∧ a < buf.ptr + buf.len)) ∧
      (runAll (fun _ _ => 0) (makeAll w ms).1 (makeAll w ms).2 ops).2.1.mem a ≠ w.mem a := by
  refine ⟨eight, [.reading [⟨asc "ab", [], none⟩, ⟨asc "cd", [], none⟩] ⟨0, 2, 4⟩], [(0, .peekN 4)], 3,
    ⟨?_, ?_, ?_⟩, by decide, ?_, by decide +kernel⟩
  · intro rs buf hm
    simp only [List.mem_cons, List.not_mem_nil, or_false, Made.reading.injEq] at hm
    obtain ⟨_, rfl⟩ := hm
    decide
  · intro rs buf hm g hg
    simp only [List.mem_cons, List.not_mem_nil, or_false, Made.reading.injEq] at hm
    obtain ⟨rfl, rfl⟩ := hm
    simp only [List.mem_cons, List.not_mem_nil, or_false] at hg
    rcases hg with rfl | rfl <;> decide
  · simp
  · intro rs buf hm
    simp only [List.mem_cons, List.not_mem_nil, or_false, Made.reading.injEq] at hm
    obtain ⟨_, rfl⟩ := hm
    decide

/-! ### Cases -/

/-- The two halves again, the first one cut with its capacity, as `big[:2:2]`. -/
def cut : List Made :=
  [.reading [⟨asc "ab", [], none⟩, ⟨asc "c", [9], none⟩, ⟨asc "d", [], none⟩] ⟨0, 2, 2⟩,
   .reading [⟨asc "xy", [], none⟩, ⟨asc "z", [], none⟩] ⟨2, 2, 2⟩, .string (asc "qrs")]

theorem cut_ready : Ready eight cut := by
  refine ⟨?_, ?_, ?_⟩
  · intro rs buf hm
    simp only [cut, List.mem_cons, List.not_mem_nil, or_false, Made.reading.injEq] at hm
    rcases hm with ⟨_, rfl⟩ | ⟨_, rfl⟩ | hm
    · decide
    · decide
    · cases hm
  · intro rs buf hm g hg
    simp only [cut, List.mem_cons, List.not_mem_nil, or_false, Made.reading.injEq] at hm
    rcases hm with ⟨rfl, rfl⟩ | ⟨rfl, rfl⟩ | hm
    · simp only [List.mem_cons, List.not_mem_nil, or_false] at hg
      rcases hg with rfl | rfl | rfl <;> decide
    · simp only [List.mem_cons, List.not_mem_nil, or_false] at hg
      rcases hg with rfl | rfl <;> decide
    · cases hm
  · simp only [cut, List.pairwise_cons, List.mem_cons, List.not_mem_nil, or_false]
    refine ⟨?_, ?_, ?_⟩
    · rintro m' (rfl | rfl)
      · intro rs buf rs' buf' e e'
        cases e; cases e'
        exact .inl (by decide)
      · intro rs buf rs' buf' e e'
        cases e'
    · rintro m' rfl rs buf rs' buf' e e'
      cases e'
    · simp

/-- Meeting the hypotheses of `alone_partial`: looking ahead, consuming and looking again on
three sources in turn. -/
example : (runAll (fun _ _ => 0) (makeAll eight cut).1 (makeAll eight cut).2
    [(0, .peekN 4), (1, .peek), (0, .consumeN 3), (1, .consume), (2, .consume1 113), (0, .peek), (1, .peek),
      (2, .peek), (3, .peek)]).1 =
    [.bytes (asc "abcd") none, .bytes (asc "xy") none, .unit, .unit, .unit, .bytes (asc "d") none,
      .bytes (asc "z") none, .bytes (asc "rs") none, .fault .panic] := by decide +kernel

/-- Meeting the hypotheses of `peeked_stays`: the slice keeps its bytes while the second
source goes on and the first only looks; the next `Consume` may overwrite it. -/
example : let w := (makeAll eight cut).1
    let bs := (makeAll eight cut).2
    let P := fun b => peekN (fun _ _ => 0) w b 2
    ((bs.getD 0 none).map fun b => ((P b).2.1.text (P b).1.mem,
      (P b).2.1.text (runAll (fun _ _ => 0) (P b).1 (bs.set 0 (some (P b).2.2.2))
        [(1, .consume), (0, .peek)]).2.1.mem,
      (P b).2.1.text (runAll (fun _ _ => 0) (P b).1 (bs.set 0 (some (P b).2.2.2))
        [(1, .consume), (0, .consume)]).2.1.mem)) =
    some (asc "ab", asc "ab", [99, 9]) := by decide +kernel

end Verif.Parse.Buffers
