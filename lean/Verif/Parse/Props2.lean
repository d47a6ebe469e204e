import Verif.Parse.Props

/-!
# Look-ahead with arbitrary readers, classes of runes, endless consumption, first error
(C02, C08, C10, C11)
-/

namespace Verif.Parse
open Verif.Spec

/-! ### C02 -/

/-- Looking ahead and consuming. -/
inductive PC where
  | peek (n : Nat)
  | consume (n : Nat)

/-- Run them; the results of the look-aheads. -/
def runPC (s : Source) : List PC → Out (List (Bytes × Option Err))
  | [] => .ok []
  | .peek n :: ops => (runPC (s.peekN n).2 ops).map fun rs => (s.peekN n).1 :: rs
  | .consume n :: ops =>
    match s.consumeN n with
    | .error f => .error f
    | .ok s' => runPC s' ops

/-- What the results should be on the rest `r` of the input: the next `n` bytes, with an
error exactly if there are fewer. -/
def PCgood (r : Bytes) : List PC → List (Bytes × Option Err) → Prop
  | [], rs => rs = []
  | .peek n :: ops, rs => ∃ e rs', rs = (r.take n, e) :: rs' ∧ (e = none ↔ n ≤ r.length) ∧ PCgood r ops rs'
  | .consume n :: ops, rs => PCgood (r.drop n) ops rs

/-- No operation consumes more than there is. -/
def PCinside (r : Bytes) : List PC → Prop
  | [] => True
  | .peek _ :: ops => PCinside r ops
  | .consume n :: ops => n ≤ r.length ∧ PCinside (r.drop n) ops

/-- An error is the last thing a reader delivers (with or without data). -/
def ErrLast : List ReadResult → Prop
  | [] => True
  | [_] => True
  | (_, e) :: rs => e = none ∧ ErrLast rs

/-- Everything the source still holds or will get. -/
structure Holds (s : Source) (r : Bytes) : Prop where
  rest : s.current ++ (s.nextList ++ s.pending).flatten = r
  last : ErrLast (s.reader.getD [])
  nilr : s.reader = none → s.nextList = []

theorem errLast_tail {x : ReadResult} {rs : List ReadResult} (h : ErrLast (x :: rs)) : ErrLast rs := by
  cases rs with
  | nil => trivial
  | cons y ys => exact h.2

theorem consume_holds {s : Source} {r : Bytes} (h : Holds s r) :
    Holds s.consume (r.drop s.current.length) := by
  have hr := h.rest
  subst hr
  rw [List.drop_left]
  have rep : ∀ (s : Source) (e : Err), (s.report e).current = s.current ∧ (s.report e).reader = s.reader ∧
      (s.report e).nextList = s.nextList := by
    intro s e; unfold Source.report; split <;> simp
  unfold Source.consume
  cases hrd : s.reader with
  | none =>
    have hn := h.nilr hrd
    show Holds (({ s with reader := none, current := [] } : Source).report .eof) _
    obtain ⟨r1, r2, r3⟩ := rep { s with reader := none, current := [] } .eof
    refine ⟨?_, ?_, ?_⟩
    · unfold Source.pending
      rw [r1, r2, r3, hrd]; simp
    · rw [r2]; trivial
    · intro _; rw [r3]; exact hn
  | some rs =>
    cases hnl : s.nextList with
    | cons nx rest =>
      refine ⟨?_, ?_, ?_⟩
      · simp [Source.pending, hrd]
      · have := h.last; rw [hrd] at this; simpa [hrd] using this
      · intro hx; simp at hx
    | nil =>
      have hl := h.last
      rw [hrd] at hl
      simp only [Option.getD_some] at hl
      cases rs with
      | nil =>
        obtain ⟨r1, r2, r3⟩ := rep s .eof
        refine ⟨?_, ?_, ?_⟩
        · simp [readOnce, Source.pending, r3, hnl, hrd]
        · simp [readOnce, ErrLast]
        · intro hx; simp at hx
      | cons x rs =>
        have hnx : ∀ s' : Source, s'.nextList = [] →
            Holds { s' with reader := some rs, current := x.1 } (s.nextList ++ s.pending).flatten := by
          intro s' hs'
          refine ⟨?_, ?_, ?_⟩
          · simp [Source.pending, hs', hnl, hrd]
          · simpa using errLast_tail hl
          · intro hx; simp at hx
        simp only [readOnce]
        rw [hnl] at hnx
        cases x.2 with
        | none => exact hnx s hnl
        | some e => exact hnx _ ((rep s e).2.2.trans hnl)

theorem consume_chunks (s : Source) (h : s.reader = none → s.nextList = []) :
    s.consume.chunks = s.chunks - 1 := chunks_consume s h

theorem consumeLoop_holds : ∀ (fuel : Nat) {s : Source} {r : Bytes} (n : Nat), Holds s r → n ≤ r.length →
    s.chunks + 2 ≤ fuel → ∃ s', consumeLoop fuel s n = some s' ∧ Holds s' (r.drop n) := by
  intro fuel
  induction fuel with
  | zero => intro s r n _ _ hf; omega
  | succ fuel ih =>
    intro s r n h hn hf
    simp only [consumeLoop]
    by_cases hc : n ≠ 0 ∧ n ≥ s.current.length
    · rw [if_pos hc]
      have h1 := consume_holds h
      have hlen : s.current.length ≤ r.length := by rw [← h.rest]; simp
      have hch := consume_chunks s h.nilr
      by_cases hz : s.chunks = 0
      · have e1 : s.nextList = [] := by
          apply List.eq_nil_of_length_eq_zero; unfold Source.chunks at hz; omega
        have e2 : s.pending = [] := by
          apply List.eq_nil_of_length_eq_zero
          unfold Source.chunks at hz; unfold Source.pending; rw [List.length_map]; omega
        have hcur : s.current = r := by rw [← h.rest, e1, e2]; simp
        have hn1 : n = s.current.length := by
          have h2 := hc.2
          rw [hcur] at h2 ⊢; omega
        have hn0 : n - s.current.length = 0 := by omega
        rw [hn0]
        obtain ⟨fuel', rfl⟩ : ∃ f, fuel = f + 1 := ⟨fuel - 1, by omega⟩
        refine ⟨{ s.consume with current := s.consume.current.drop 0 }, by simp [consumeLoop], ?_⟩
        rw [hn1]
        exact h1
      · obtain ⟨s', e, h2⟩ := ih (n - s.current.length) h1 (by rw [List.length_drop]; omega) (by omega)
        refine ⟨s', e, ?_⟩
        rw [List.drop_drop, show s.current.length + (n - s.current.length) = n by omega] at h2
        exact h2
    · rw [if_neg hc]
      refine ⟨_, rfl, ?_⟩
      have hle : n ≤ s.current.length := by
        by_cases hz : n = 0
        · omega
        · have : ¬ n ≥ s.current.length := fun hx => hc ⟨hz, hx⟩
          omega
      refine ⟨?_, h.last, h.nilr⟩
      rw [← h.rest, List.drop_append_of_le_length hle]
      rfl

theorem consumeN_holds {s : Source} {r : Bytes} (n : Nat) (h : Holds s r) (hn : n ≤ r.length) :
    ∃ s', s.consumeN n = .ok s' ∧ Holds s' (r.drop n) := by
  obtain ⟨s', e, h'⟩ := consumeLoop_holds (s.chunks + 2) n h hn (Nat.le_refl _)
  exact ⟨s', by simp [Source.consumeN, e], h'⟩

theorem peekRead_holds (n : Nat) : ∀ (rs : List ReadResult) (p : Bytes), p.length < n → ErrLast rs →
    (peekRead n rs p).1 = (p ++ (rs.map (·.1)).flatten).take n ∧
    ((peekRead n rs p).2.1 = none ↔ n ≤ (p ++ (rs.map (·.1)).flatten).length) ∧
    ((peekRead n rs p).2.2.2 ++ (peekRead n rs p).2.2.1.map (·.1)).flatten = (rs.map (·.1)).flatten ∧
    ErrLast (peekRead n rs p).2.2.1 := by
  intro rs
  induction rs with
  | nil =>
    intro p hp _
    have : ¬ p.length ≥ n := by omega
    simp only [peekRead, this, if_false]
    refine ⟨?_, ?_, by simp, trivial⟩
    · simp [List.take_of_length_le (by omega : p.length ≤ n)]
    · simp; omega
  | cons x rs ih =>
    intro p hp hl
    obtain ⟨nx, e⟩ := x
    simp only [peekRead]
    by_cases hx : (p ++ nx).length ≥ n
    · rw [if_pos hx]
      refine ⟨?_, ?_, by simp, errLast_tail hl⟩
      · simp only [List.map_cons, List.flatten_cons]
        rw [← List.append_assoc, List.take_append_of_le_length hx]
      · simp only [List.map_cons, List.flatten_cons, true_iff]
        rw [← List.append_assoc, List.length_append]; omega
    · rw [if_neg hx]
      cases e with
      | some e =>
        have : rs = [] := by
          cases rs with
          | nil => rfl
          | cons y ys => exact absurd hl.1 (by simp)
        subst this
        simp only [List.map_cons, List.map_nil, List.flatten_cons, List.flatten_nil, List.append_nil]
        refine ⟨?_, ?_, by simp, trivial⟩
        · rw [List.take_of_length_le (by omega)]
        · simp; simp at hx; omega
      | none =>
        obtain ⟨h1, h2, h3, h4⟩ := ih (p ++ nx) (by omega) (errLast_tail hl)
        simp only [List.map_cons, List.flatten_cons]
        rw [← List.append_assoc]
        refine ⟨h1, h2, ?_, h4⟩
        rw [List.cons_append, List.flatten_cons, h3]

theorem peekN_holds {s : Source} {r : Bytes} (n : Nat) (h : Holds s r) :
    (s.peekN n).1.1 = r.take n ∧ ((s.peekN n).1.2 = none ↔ n ≤ r.length) ∧ Holds (s.peekN n).2 r := by
  have hr := h.rest
  subst hr
  unfold Source.peekN
  by_cases hx : n ≤ s.current.length
  · rw [if_pos hx]
    refine ⟨?_, ?_, h⟩
    · simp only; rw [List.take_append_of_le_length hx]
    · simp only [true_iff, List.length_append]; omega
  rw [if_neg hx]
  cases hrd : s.reader with
  | none =>
    have hn := h.nilr hrd
    have hp : s.pending = [] := by simp [Source.pending, hrd]
    refine ⟨?_, ?_, h⟩
    · simp only [hn, hp]; simp [List.take_of_length_le (by omega : s.current.length ≤ n)]
    · simp [hn, hp]; omega
  | some rs =>
    have hp : s.pending = rs.map (·.1) := by simp [Source.pending, hrd]
    have hl := h.last
    rw [hrd] at hl
    simp only [Option.getD_some] at hl
    have hnx := peekNext_eq n s.nextList s.current (by omega)
    cases hpn : peekNext n s.nextList s.current with
    | inl peeked =>
      rw [hpn] at hnx
      split at hnx
      · rename_i hle
        simp only [Sum.inl.injEq] at hnx
        refine ⟨?_, ?_, h⟩
        · simp only
          rw [hnx, List.flatten_append, ← List.append_assoc, List.take_append_of_le_length hle]
        · simp only [true_iff, List.flatten_append, ← List.append_assoc]
          rw [List.length_append]; omega
      · simp at hnx
    | inr peeked =>
      rw [hpn] at hnx
      split at hnx
      · simp at hnx
      · rename_i hle
        simp only [Sum.inr.injEq] at hnx
        subst hnx
        obtain ⟨h1, h2, h3, h4⟩ := peekRead_holds n rs (s.current ++ s.nextList.flatten) (by omega) hl
        refine ⟨?_, ?_, ?_, h4, fun hx => by simp at hx⟩
        · simp only [h1, List.flatten_append, List.append_assoc, hp]
        · simp only [h2, List.flatten_append, List.append_assoc, hp]
        · simp only [Source.pending, Option.getD_some]
          rw [List.append_assoc, List.flatten_append, h3, hrd]
          simp

theorem runPC_good : ∀ (ops : List PC) {s : Source} {r : Bytes}, Holds s r → PCinside r ops →
    ∃ rs, runPC s ops = .ok rs ∧ PCgood r ops rs := by
  intro ops
  induction ops with
  | nil => intro s r _ _; exact ⟨[], rfl, rfl⟩
  | cons op ops ih =>
    intro s r h hin
    cases op with
    | peek n =>
      obtain ⟨h1, h2, h3⟩ := peekN_holds n h
      obtain ⟨rs, e, g⟩ := ih h3 hin
      exact ⟨_, by simp only [runPC, e, Except.map]; rfl, _, rs, by rw [← h1], h2, g⟩
    | consume n =>
      obtain ⟨s', e, h'⟩ := consumeN_holds n h hin.1
      obtain ⟨rs, e2, g⟩ := ih h' hin.2
      exact ⟨rs, by simp only [runPC, e, e2], g⟩

/-- C02: for every reader whose error, if any, comes last (with or without data, reads of
zero bytes allowed), every sequence of look-aheads (of any length) and consumptions
within the input: each `PeekN n` returns exactly the next `n` bytes, or all that is
left together with an error; looking never changes what comes next. -/
theorem peekN_pure (reader : List ReadResult) (hl : ErrLast reader) (s : Source)
    (hs : newSource reader = (some s, none)) (ops : List PC)
    (hin : PCinside (reader.map (·.1)).flatten ops) :
    ∃ rs, runPC s ops = .ok rs ∧ PCgood (reader.map (·.1)).flatten ops rs := by
  apply runPC_good ops _ hin
  cases reader with
  | nil => simp [newSource, readOnce] at hs
  | cons x rs =>
    have e : newSource (x :: rs) = if x.1.length = 0 then (none, x.2)
        else (some { err := none, reader := some rs, current := x.1, nextList := [] }, none) := rfl
    rw [e] at hs
    by_cases hx : x.1.length = 0
    · rw [if_pos hx] at hs; simp at hs
    · rw [if_neg hx] at hs
      simp only [Prod.mk.injEq, Option.some.injEq, and_true] at hs
      subst hs
      exact ⟨by simp [Source.pending], by simpa using errLast_tail hl, by simp⟩

/-- C02 for a source over a string. -/
theorem peekN_pure_string (input : Bytes) (ops : List PC) (hin : PCinside input ops) :
    ∃ rs, runPC (newSourceString input) ops = .ok rs ∧ PCgood input ops rs :=
  runPC_good ops ⟨by simp [newSourceString, Source.pending], trivial, fun _ => rfl⟩ hin

/-- Data with the final error, an empty read in between, look-ahead past the end twice. -/
example : ∃ s rs, newSource [(asc "ab", none), ([], none), (asc "c", some .eof)] = (some s, none) ∧
    runPC s [.peek 2, .peek 7, .consume 1, .peek 2, .peek 3] = .ok rs ∧
    rs = [(asc "ab", none), (asc "abc", some .eof), (asc "bc", none), (asc "bc", some .eof)] := by
  exact ⟨_, _, rfl, rfl, rfl⟩

/-! ### C10 -/

theorem consumeLoop_never : ∀ (fuel : Nat) {s : Source} {r : Bytes} (n : Nat), Holds s r → r.length < n →
    consumeLoop fuel s n = none := by
  intro fuel
  induction fuel with
  | zero => intro s r n _ _; rfl
  | succ fuel ih =>
    intro s r n h hn
    have hlen : s.current.length ≤ r.length := by rw [← h.rest]; simp
    simp only [consumeLoop]
    rw [if_pos ⟨by omega, by omega⟩]
    exact ih _ (consume_holds h) (by rw [List.length_drop]; omega)

/-- C10, negation: consuming one byte more than there is never returns, however long
one waits, for every reader and every reachable position. -/
theorem consumeN_past_end_hangs {s : Source} {r : Bytes} (h : Reached False s r) (n : Nat) (hn : r.length < n) :
    ∀ fuel, consumeLoop fuel s n = none := by
  intro fuel
  have hs := (reached_sim h).1
  refine consumeLoop_never fuel n ⟨hs.rest, ?_, hs.nilr⟩ hn
  have := hs.noErr
  generalize s.reader.getD [] = l at this
  clear hs h hn
  induction l with
  | nil => trivial
  | cons x xs ih =>
    cases xs with
    | nil => trivial
    | cons y ys => exact ⟨this x (by simp), ih (fun z hz => this z (by simp [hz]))⟩

/-- C10 (partial): within the input `ConsumeN` returns, leaves exactly the rest, and has
recorded `io.EOF` exactly if it reached the end.  Missing: beyond the input, where it
never returns. -/
theorem consumeN_partial {s : Source} {r : Bytes} (h : Reached True s r) (n : Nat) (hn : n ≤ r.length) :
    ∃ s', s.consumeN n = .ok s' ∧ LeftAt s' (r.drop n) := by
  obtain ⟨s', e, h'⟩ := consumeN_sim (reached_sim h).1 n hn
  exact ⟨s', e, leftAt_of_sim h'⟩

/-- The bound built into the model of `ConsumeN` cuts off no returning run: whatever
the reader does, if the loop ends at all it ends within that bound. -/
theorem consumeLoop_bound : ∀ (fuel : Nat) (s s' : Source) (n : Nat),
    (s.reader = none → s.nextList = []) →
    consumeLoop fuel s n = some s' → consumeLoop (s.chunks + 2) s n = some s' := by
  have dead : ∀ (fuel : Nat) (s : Source) (n : Nat), (s.reader = none → s.nextList = []) → s.chunks = 0 →
      s.current = [] → n ≠ 0 → consumeLoop fuel s n = none := by
    intro fuel
    induction fuel with
    | zero => intros; rfl
    | succ fuel ih =>
      intro s n hnr hch hcur hn
      simp only [consumeLoop, hcur]
      rw [if_pos ⟨hn, by simp⟩]
      have hnl : s.nextList = [] := by
        apply List.eq_nil_of_length_eq_zero; unfold Source.chunks at hch; omega
      have hrd : s.reader.getD [] = [] := by
        apply List.eq_nil_of_length_eq_zero; unfold Source.chunks at hch; omega
      have hcon : s.consume.current = [] ∧ s.consume.nextList = [] := by
        unfold Source.consume
        cases hr : s.reader with
        | none =>
          simp only [Source.report]; split <;> simp [hnl]
        | some rs =>
          rw [hr] at hrd; simp only [Option.getD_some] at hrd; subst hrd
          simp only [hnl, readOnce, Source.report]
          split <;> simp [hnl]
      apply ih
      · intro _; exact hcon.2
      · rw [chunks_consume s hnr]; omega
      · exact hcon.1
      · simpa using hn
  have mono : ∀ (fuel : Nat) (s s' : Source) (n : Nat), consumeLoop fuel s n = some s' →
      consumeLoop (fuel + 1) s n = some s' := by
    intro fuel
    induction fuel with
    | zero => intro s s' n h; simp [consumeLoop] at h
    | succ fuel ih =>
      intro s s' n h
      rw [consumeLoop] at h
      rw [consumeLoop]
      split
      · rename_i hc; rw [if_pos hc] at h; exact ih _ _ _ h
      · rename_i hc; rw [if_neg hc] at h; exact h
  have mono' : ∀ (k fuel : Nat) (s s' : Source) (n : Nat), consumeLoop fuel s n = some s' →
      consumeLoop (fuel + k) s n = some s' := by
    intro k
    induction k with
    | zero => intro fuel s s' n h; exact h
    | succ k ih => intro fuel s s' n h; exact mono _ _ _ _ (ih fuel s s' n h)
  have keepnr : ∀ s : Source, (s.reader = none → s.nextList = []) →
      (s.consume.reader = none → s.consume.nextList = []) := by
    intro s hnr
    unfold Source.consume
    cases hr : s.reader with
    | none => intro _; simp only [Source.report]; split <;> simp [hnr hr]
    | some rs =>
      cases hnl : s.nextList with
      | cons x xs => simp
      | nil => simp
  intro fuel
  induction fuel with
  | zero => intro s s' n _ h; simp [consumeLoop] at h
  | succ fuel ih =>
    intro s s' n hnr h
    rw [consumeLoop] at h
    by_cases hc : n ≠ 0 ∧ n ≥ s.current.length
    · rw [if_pos hc] at h
      have h1 := ih _ _ _ (keepnr s hnr) h
      rw [consumeLoop, if_pos hc]
      rw [chunks_consume s hnr] at h1
      by_cases hz : s.chunks = 0
      · -- the next round must be the last one
        by_cases hn : n - s.current.length = 0
        · rw [hn] at h1 ⊢
          simp only [consumeLoop, ne_eq, not_true, false_and, if_false, hz] at h1 ⊢
          exact h1
        · exfalso
          have hch' : s.consume.chunks = 0 := by rw [chunks_consume s hnr]; omega
          have hnl : s.nextList = [] := by
            apply List.eq_nil_of_length_eq_zero; unfold Source.chunks at hz; omega
          have hrd : s.reader.getD [] = [] := by
            apply List.eq_nil_of_length_eq_zero; unfold Source.chunks at hz; omega
          have hcon : s.consume.current = [] := by
            unfold Source.consume
            cases hr : s.reader with
            | none => simp only [Source.report]; split <;> simp
            | some rs =>
              rw [hr] at hrd; simp only [Option.getD_some] at hrd; subst hrd
              simp [hnl, readOnce]
          rw [dead _ _ _ (keepnr s hnr) hch' hcon hn] at h
          simp at h
      · rw [show s.chunks + 1 = s.chunks - 1 + 2 by omega]; exact h1
    · rw [if_neg hc] at h
      rw [consumeLoop, if_neg hc]; exact h

example : (newSourceString (asc "ab")).consumeN 3 = .error .hang := by rfl
example : ((newSourceString (asc "ab")).consumeN 2).map (·.err) = .ok (some .eof) := by rfl

/-! ### C11 -/

/-- `e` is recorded. -/
def Keeps (e : Err) (s : Source) : Prop := s.err = some e

theorem report_keeps {e e' : Err} {s : Source} (h : s.err = some e) : (s.report e').err = some e := by
  simp [Source.report, h]

theorem consume_keeps {e : Err} {s : Source} (h : s.err = some e) : s.consume.err = some e := by
  unfold Source.consume
  split
  · exact report_keeps h
  · split
    · exact h
    · simp only
      split
      · exact report_keeps h
      · exact h

theorem consumeLoop_keeps {e : Err} : ∀ (fuel : Nat) {s s' : Source} (n : Nat), s.err = some e →
    consumeLoop fuel s n = some s' → s'.err = some e := by
  intro fuel
  induction fuel with
  | zero => intro s s' n _ h; simp [consumeLoop] at h
  | succ fuel ih =>
    intro s s' n he h
    rw [consumeLoop] at h
    split at h
    · exact ih _ (consume_keeps he) h
    · simp only [Option.some.injEq] at h; subst h; exact he

theorem consumeN_keeps {e : Err} {s s' : Source} (n : Nat) (he : s.err = some e) (h : s.consumeN n = .ok s') :
    s'.err = some e := by
  unfold Source.consumeN at h
  split at h
  · rename_i s'' hs
    simp only [Except.ok.injEq] at h; subst h
    exact consumeLoop_keeps _ n he hs
  · simp at h

theorem peekN_keeps (s : Source) (n : Nat) : (s.peekN n).2.err = s.err := by
  unfold Source.peekN
  split
  · rfl
  · split
    · rfl
    · split <;> rfl

theorem peekRune_keeps_err (s : Source) : s.peekRune.2.err = s.err := by
  unfold Source.peekRune
  split
  · rfl
  · simp only
    split
    · rfl
    · exact peekN_keeps s _

theorem chunkLoop_keeps {σ : Type} {scan : σ → Bytes → Scan σ} {zero : σ} {e : Err} (fuel : Nat)
    {s : Source} {st : σ} {r : σ × Source} (he : s.err = some e)
    (h : chunkLoop scan zero fuel s st = .ok r) : r = (st, s) := by
  cases fuel with
  | zero => simp [chunkLoop] at h
  | succ fuel =>
    simp only [chunkLoop, he, Option.isSome_some, if_true, Except.ok.injEq] at h
    exact h.symm

theorem unicodeRangeLoop_keeps {e : Err} (table : RangeTable) : ∀ (fuel : Nat) {s : Source} {sp : List Nat}
    {r : List Nat × Source}, s.err = some e → unicodeRangeLoop table fuel s sp = .ok r → r.2.err = some e := by
  intro fuel
  induction fuel with
  | zero => intro s sp r _ h; simp [unicodeRangeLoop] at h
  | succ fuel ih =>
    intro s sp r he h
    simp only [unicodeRangeLoop] at h
    have hp : s.peekRune.2.err = some e := (peekRune_keeps_err s).trans he
    split at h
    · split at h
      · simp at h
      · rename_i s' hs
        exact ih (consumeN_keeps _ hp hs) h
    · simp only [Except.ok.injEq] at h; subst h; exact hp

theorem skipRangeLoop_keeps {e : Err} (table : RangeTable) : ∀ (fuel : Nat) {s : Source} {sp : Nat}
    {r : Nat × Source}, s.err = some e → skipRangeLoop table fuel s sp = .ok r → r.2.err = some e := by
  intro fuel
  induction fuel with
  | zero => intro s sp r _ h; simp [skipRangeLoop] at h
  | succ fuel ih =>
    intro s sp r he h
    simp only [skipRangeLoop] at h
    have hp : s.peekRune.2.err = some e := (peekRune_keeps_err s).trans he
    split at h
    · split at h
      · simp at h
      · rename_i s' hs
        exact ih (consumeN_keeps _ hp hs) h
    · simp only [Except.ok.injEq] at h; subst h; exact hp

theorem includesLoop_keeps {e : Err} (r n : Nat) : ∀ (incs : List RangeTable) {s : Source} {sp : List Nat}
    {q : List Nat × Source}, s.err = some e → includesLoop r n incs s sp = .ok q → q.2.err = some e := by
  intro incs
  induction incs with
  | nil => intro s sp q he h; simp only [includesLoop, Except.ok.injEq] at h; subst h; exact he
  | cons t ts ih =>
    intro s sp q he h
    simp only [includesLoop] at h
    split at h
    · split at h
      · simp at h
      · rename_i s' hs
        exact ih (consumeN_keeps _ he hs) h
    · exact ih he h

theorem skipIncludesLoop_keeps {e : Err} (r n : Nat) : ∀ (incs : List RangeTable) {s : Source} {sp : Nat}
    {q : Nat × Source}, s.err = some e → skipIncludesLoop r n incs s sp = .ok q → q.2.err = some e := by
  intro incs
  induction incs with
  | nil => intro s sp q he h; simp only [skipIncludesLoop, Except.ok.injEq] at h; subst h; exact he
  | cons t ts ih =>
    intro s sp q he h
    simp only [skipIncludesLoop] at h
    split at h
    · split at h
      · simp at h
      · rename_i s' hs
        exact ih (consumeN_keeps _ he hs) h
    · exact ih he h

theorem unicodeRangesLoop_keeps {e : Err} (inc exc : List RangeTable) : ∀ (fuel : Nat) {s : Source}
    {sp : List Nat} {r : List Nat × Source}, s.err = some e →
    unicodeRangesLoop inc exc fuel s sp = .ok r → r.2.err = some e := by
  intro fuel
  induction fuel with
  | zero => intro s sp r _ h; simp [unicodeRangesLoop] at h
  | succ fuel ih =>
    intro s sp r he h
    simp only [unicodeRangesLoop] at h
    have hp : s.peekRune.2.err = some e := (peekRune_keeps_err s).trans he
    split at h
    · simp only [Except.ok.injEq] at h; subst h; exact hp
    · split at h
      · split at h
        · simp at h
        · rename_i s' hs
          exact ih (consumeN_keeps _ hp hs) h
      · exact includesLoop_keeps _ _ _ hp h

/-- Every operation of the package that takes a source. -/
inductive AnyOp where
  | basic (op : Op)
  | consume
  | report (e : Err)
  | unicodeRanges (includes excludes : List RangeTable)
  | skipUnicodeRanges (includes excludes : List RangeTable)

/-- Run one, keeping the source. -/
def AnyOp.run (s : Source) : AnyOp → Out Source
  | .basic op => (op.run s).map (·.2)
  | .consume => .ok s.consume
  | .report e => .ok (s.report e)
  | .unicodeRanges i x => (Parse.unicodeRanges s [] i x).map (·.2)
  | .skipUnicodeRanges i x => (Parse.skipUnicodeRanges s i x).map (·.2)

/-- Run a sequence. -/
def runAny (s : Source) : List AnyOp → Out Source
  | [] => .ok s
  | op :: ops => match op.run s with
    | .error f => .error f
    | .ok s' => runAny s' ops

theorem map_ok {α β : Type} {f : α → β} {x : Out α} {b : β} (h : x.map f = .ok b) : ∃ a, x = .ok a ∧ f a = b := by
  cases x with
  | error e => simp [Except.map] at h
  | ok a => simp only [Except.map, Except.ok.injEq] at h; exact ⟨a, rfl, h⟩

theorem readUint64_keeps {e : Err} {s : Source} {r : UInt64 × Source} (he : s.err = some e)
    (h : readUint64 s = .ok r) : r.2.err = some e := by
  rw [chunkLoop_keeps _ he h]; exact he

theorem op_keeps {e : Err} {s s' : Source} {o : Obs} (op : Op) (he : s.err = some e)
    (h : op.run s = .ok (o, s')) : s'.err = some e := by
  have fin : ∀ {x y : Obs × Source}, x = y → x.2.err = some e → y.2.err = some e := by
    rintro x y rfl h; exact h
  cases op with
  | peekN n =>
    simp only [Op.run, Except.ok.injEq, Prod.mk.injEq] at h
    rw [← h.2, peekN_keeps]; exact he
  | peek1 =>
    obtain ⟨a, -, e2⟩ := map_ok h
    exact fin e2 he
  | consumeN n =>
    obtain ⟨a, e1, e2⟩ := map_ok h
    exact fin e2 (consumeN_keeps n he e1)
  | consume1 b =>
    obtain ⟨a, e1, e2⟩ := map_ok h
    refine fin e2 ?_
    unfold Source.consume1 at e1
    split at e1
    · simp at e1
    · refine consumeN_keeps 1 ?_ e1
      split
      · exact report_keeps he
      · exact he
  | peekRune =>
    simp only [Op.run, Except.ok.injEq, Prod.mk.injEq] at h
    rw [← h.2, peekRune_keeps_err]; exact he
  | anyExcept1 b =>
    obtain ⟨a, e1, e2⟩ := map_ok h
    rw [chunkLoop_keeps _ he e1] at e2
    exact fin e2 he
  | anyExcept2 b c =>
    obtain ⟨a, e1, e2⟩ := map_ok h
    rw [chunkLoop_keeps _ he e1] at e2
    exact fin e2 he
  | skipSpace =>
    obtain ⟨a, e1, e2⟩ := map_ok h
    rw [chunkLoop_keeps _ he e1] at e2
    exact fin e2 he
  | uint64 =>
    obtain ⟨a, e1, e2⟩ := map_ok h
    exact fin e2 (readUint64_keeps he e1)
  | int64 =>
    obtain ⟨a, e1, e2⟩ := map_ok h
    refine fin e2 ?_
    unfold readInt64 at e1
    split at e1
    · simp at e1
    · split at e1
      · split at e1
        · simp at e1
        · rename_i s1 hs1
          have h1 := consumeN_keeps 1 he hs1
          split at e1
          · simp at e1
          · rename_i v s2 hs2
            have h2 := readUint64_keeps h1 hs2
            split at e1 <;> simp only [Except.ok.injEq] at e1 <;> subst e1
            · exact report_keeps h2
            · exact h2
      · split at e1
        · simp at e1
        · rename_i v s2 hs2
          have h2 := readUint64_keeps he hs2
          split at e1 <;> simp only [Except.ok.injEq] at e1 <;> subst e1
          · exact report_keeps h2
          · exact h2
  | int32 =>
    obtain ⟨a, e1, e2⟩ := map_ok h
    refine fin e2 ?_
    unfold readInt32 at e1
    split at e1
    · simp at e1
    · split at e1
      · split at e1
        · simp at e1
        · rename_i s1 hs1
          have h1 := consumeN_keeps 1 he hs1
          split at e1
          · simp at e1
          · rename_i v s2 hs2
            have h2 := readUint64_keeps h1 hs2
            split at e1 <;> simp only [Except.ok.injEq] at e1 <;> subst e1
            · exact report_keeps h2
            · exact h2
      · split at e1
        · simp at e1
        · rename_i v s2 hs2
          have h2 := readUint64_keeps he hs2
          split at e1 <;> simp only [Except.ok.injEq] at e1 <;> subst e1
          · exact report_keeps h2
          · exact h2
  | unicodeRange t =>
    obtain ⟨a, e1, e2⟩ := map_ok h
    exact fin e2 (unicodeRangeLoop_keeps t _ he e1)
  | skipUnicodeRange t =>
    obtain ⟨a, e1, e2⟩ := map_ok h
    exact fin e2 (skipRangeLoop_keeps t _ he e1)
  | skipUnicodeSpace t =>
    obtain ⟨a, e1, e2⟩ := map_ok h
    unfold skipUnicodeSpace at e1
    simp only [skipUniSpaceLoop, he, Option.isSome_some, if_true, Except.ok.injEq] at e1
    subst e1
    exact fin e2 he
  | error =>
    simp only [Op.run, Except.ok.injEq, Prod.mk.injEq] at h
    rw [← h.2]; exact he

/-- C11: once an error is recorded, every sequence of operations (with any reader, within
the input or not) leaves it in place. -/
theorem first_error_kept {e : Err} : ∀ (ops : List AnyOp) {s s' : Source}, s.err = some e →
    runAny s ops = .ok s' → s'.err = some e := by
  intro ops
  induction ops with
  | nil => intro s s' he h; simp only [runAny, Except.ok.injEq] at h; subst h; exact he
  | cons op ops ih =>
    intro s s' he h
    simp only [runAny] at h
    split at h
    · simp at h
    · rename_i s1 h1
      refine ih ?_ h
      cases op with
      | basic op =>
        obtain ⟨a, e1, e2⟩ := map_ok h1
        subst e2
        exact op_keeps (o := a.1) op he e1
      | consume => simp only [AnyOp.run, Except.ok.injEq] at h1; subst h1; exact consume_keeps he
      | report e' => simp only [AnyOp.run, Except.ok.injEq] at h1; subst h1; exact report_keeps he
      | unicodeRanges i x =>
        obtain ⟨a, e1, e2⟩ := map_ok h1
        subst e2
        exact unicodeRangesLoop_keeps i x _ he e1
      | skipUnicodeRanges i x =>
        obtain ⟨a, e1, e2⟩ := map_ok h1
        subst e2
        simp only [skipUnicodeRanges] at e1
        have hp : s.peekRune.2.err = some e := (peekRune_keeps_err s).trans he
        split at e1
        · simp only [Except.ok.injEq] at e1; subst e1; exact hp
        · exact skipIncludesLoop_keeps _ _ _ hp e1

/-- C11: the first error reported is the one recorded. -/
theorem first_error_recorded (s : Source) (e : Err) (h : s.err = none) (ops : List AnyOp) (s' : Source)
    (hr : runAny s (.report e :: ops) = .ok s') : s'.err = some e := by
  simp only [runAny, AnyOp.run] at hr
  exact first_error_kept ops (by simp [Source.report, h]) hr

example : (runAny (newSourceString (asc "ab7")) [.basic (.consume1 120), .report (.io 5), .basic (.consumeN 1),
    .basic .uint64, .consume]).map (·.err) = .ok (some (.msg (asc "expect x but found a"))) := by rfl

/-- C11: once an error is recorded the readers driven by `Error() == nil` read nothing. -/
theorem readers_stop_on_error {e : Err} {s : Source} (h : s.err = some e) (space : Bytes) (b c : UInt8)
    (t : RangeTable) : anyExcept1 s space b = .ok (space, s) ∧ anyExcept2 s space b c = .ok (space, s) ∧
      skipSpace s = .ok (0, s) ∧ readUint64 s = .ok (0, s) ∧ skipUnicodeSpace s t = .ok (0, s) := by
  refine ⟨?_, ?_, ?_, ?_, ?_⟩
  · simp [anyExcept1, chunkLoop, h]
  · simp [anyExcept2, chunkLoop, h]
  · simp [skipSpace, chunkLoop, h]
  · simp [readUint64, chunkLoop, h]
  · simp [skipUnicodeSpace, skipUniSpaceLoop, h]

end Verif.Parse
