import Verif.Parse.ReadModel

/-!
# Simulation of a `Source` by the plain remaining input
-/

namespace Verif.Parse

/-- What a source stands for: the input not yet consumed and the recorded error. -/
structure Input where
  rest : Bytes
  err : Option Err
  deriving DecidableEq

/-- The input after `n` more bytes: reaching the end records `io.EOF`, unless an error
is already recorded. -/
def Input.advance (a : Input) (n : Nat) : Input :=
  { rest := a.rest.drop n
    err := if a.rest.drop n = [] then a.err.or (some .eof) else a.err }

/-- Chunks the reader will still deliver. -/
def Source.pending (s : Source) : List Bytes := (s.reader.getD []).map (·.1)

/-- Empty chunks only at the end. -/
def Packed : List Bytes → Prop
  | [] => True
  | c :: cs => (c = [] → cs.flatten = []) ∧ Packed cs

/-- The source `s` stands for the input `a`.  With `strict` the recorded errors agree
always, and no empty chunk is waiting; without it they agree as long as there is
input left. -/
structure Sim (strict : Prop) (s : Source) (a : Input) : Prop where
  rest : s.current ++ (s.nextList ++ s.pending).flatten = a.rest
  noErr : ∀ r ∈ s.reader.getD [], r.2 = none
  packed : Packed (s.nextList ++ s.pending)
  cur : s.current = [] → a.rest = []
  nilr : s.reader = none → s.nextList = []
  errEq : a.rest ≠ [] → s.err = a.err
  errNone : a.err = none → s.err = none
  endErr : a.rest = [] → a.err ≠ none
  strictErr : strict → s.err = a.err
  strictNe : strict → ∀ c ∈ s.nextList ++ s.pending, c ≠ []

theorem advance_zero (a : Input) (h : a.rest = [] → a.err ≠ none) : a.advance 0 = a := by
  cases a with
  | mk rest err =>
    simp only [Input.advance, List.drop_zero, Input.mk.injEq, true_and] at h ⊢
    split
    · rename_i hr
      have := h hr
      cases err <;> simp_all
    · rfl

theorem advance_add (a : Input) (n m : Nat) : (a.advance n).advance m = a.advance (n + m) := by
  simp only [Input.advance, List.drop_drop, Input.mk.injEq, true_and]
  by_cases h1 : a.rest.drop n = []
  · have h2 : a.rest.drop (n + m) = [] := by
      rw [List.drop_eq_nil_iff] at h1 ⊢; omega
    simp only [h1, h2, if_true]
    cases a.err <;> rfl
  · simp only [h1, if_false]

theorem advance_end (a : Input) (n : Nat) (_h : a.rest = [] → a.err ≠ none) :
    (a.advance n).rest = [] → (a.advance n).err ≠ none := by
  intro h1
  simp only [Input.advance] at h1 ⊢
  simp only [h1, if_true]
  cases a.err <;> simp

theorem chunks_consume (s : Source) (h : s.reader = none → s.nextList = []) :
    s.consume.chunks = s.chunks - 1 := by
  cases s with
  | mk err reader current nextList =>
    cases reader with
    | none =>
      simp only [forall_const] at h
      subst h
      cases err <;> simp [Source.consume, Source.chunks, Source.report]
    | some rs =>
      cases nextList with
      | cons c cs => simp only [Source.consume, Source.chunks, List.length_cons]; omega
      | nil =>
        cases rs with
        | nil => cases err <;> simp [Source.consume, readOnce, Source.report, Source.chunks]
        | cons r rs =>
          obtain ⟨b, e⟩ := r
          cases e <;> cases err <;>
            simp [Source.consume, readOnce, Source.report, Source.chunks]

theorem packed_cons_rest {c : Bytes} {cs : List Bytes} (h : Packed (c :: cs)) : c = [] → c ++ cs.flatten = [] := by
  intro hc
  rw [hc, h.1 hc, List.append_nil]

theorem consume_sim {strict : Prop} {s : Source} {a : Input} (h : Sim strict s a) :
    Sim strict s.consume (a.advance s.current.length) := by
  have hrest : (a.advance s.current.length).rest = (s.nextList ++ s.pending).flatten := by
    simp [Input.advance, ← h.rest]
  have hend := advance_end a s.current.length h.endErr
  have herr : (a.advance s.current.length).rest ≠ [] → (a.advance s.current.length).err = a.err := by
    intro hr
    simp only [Input.advance] at hr ⊢
    rw [if_neg hr]
  have hne : (a.advance s.current.length).rest ≠ [] → s.err = a.err := by
    intro hr
    apply h.errEq
    intro he
    apply hr
    simp [Input.advance, he]
  have hnone : (a.advance s.current.length).err = none → s.err = none := by
    intro hn
    apply h.errNone
    simp only [Input.advance] at hn
    split at hn
    · cases ha : a.err <;> simp_all
    · exact hn
  obtain ⟨err, reader, current, nextList⟩ := s
  cases reader with
  | none =>
    have hn := h.nilr rfl
    simp only at hn
    subst hn
    have hnil : (a.advance current.length).rest = [] := by
      rw [hrest]; simp [Source.pending]
    have haerr : (a.advance current.length).err = a.err.or (some .eof) := by
      simp only [Input.advance] at hnil ⊢
      rw [if_pos hnil]
    have hc : (Source.consume ⟨err, none, current, []⟩) = ⟨err.or (some .eof), none, [], []⟩ := by
      cases err <;> rfl
    rw [hc]
    refine ⟨by simp [Source.pending, hnil], by simp, by simp [Source.pending, Packed],
      fun _ => hnil, by simp, fun hx => absurd hnil hx, ?_, hend, ?_, by simp [Source.pending]⟩
    · intro hx; exact absurd hx (hend hnil)
    · intro hs
      have := h.strictErr hs
      simp only at this
      rw [haerr, this]
  | some rs =>
    cases nextList with
    | cons c cs =>
      have hp := h.packed
      simp only [List.cons_append] at hp
      have hrest' : (a.advance current.length).rest = c ++ (cs ++ Source.pending ⟨err, some rs, c, cs⟩).flatten := by
        rw [hrest]; simp [Source.pending]
      refine ⟨by rw [hrest']; simp [Source.consume], h.noErr, hp.2, ?_, by simp [Source.consume],
        ?_, ?_, hend, ?_, ?_⟩
      · intro hc
        simp only [Source.consume] at hc
        rw [hrest', hc, List.nil_append]
        exact hp.1 hc
      · intro hr
        rw [herr hr]
        exact hne hr
      · intro hn; exact hnone hn
      · intro hs
        have := h.strictNe hs c (by simp)
        have hr : (a.advance current.length).rest ≠ [] := by
          rw [hrest']; simp [this]
        rw [herr hr]; exact hne hr
      · intro hs c' hc'
        apply h.strictNe hs
        simp only [Source.consume] at hc'
        simp only [Source.pending] at hc' ⊢
        simp only [List.cons_append, List.mem_cons]
        exact Or.inr hc'
    | nil =>
      cases rs with
      | nil =>
        have hnil : (a.advance current.length).rest = [] := by
          rw [hrest]; simp [Source.pending]
        have haerr : (a.advance current.length).err = a.err.or (some .eof) := by
          simp only [Input.advance] at hnil ⊢
          rw [if_pos hnil]
        have hc : (Source.consume ⟨err, some [], current, []⟩) = ⟨err.or (some .eof), some [], [], []⟩ := by
          cases err <;> rfl
        rw [hc]
        refine ⟨by simp [Source.pending, hnil], by simp, by simp [Source.pending, Packed],
          fun _ => hnil, by simp, fun hx => absurd hnil hx, ?_, hend, ?_, by simp [Source.pending]⟩
        · intro hx; exact absurd hx (hend hnil)
        · intro hs
          have := h.strictErr hs
          simp only at this
          rw [haerr, this]
      | cons r rs =>
        obtain ⟨b, e⟩ := r
        have he : e = none := h.noErr (b, e) (by simp)
        subst he
        have hc : (Source.consume ⟨err, some ((b, none) :: rs), current, []⟩) = ⟨err, some rs, b, []⟩ := rfl
        rw [hc]
        have hp := h.packed
        simp only [Source.pending, Option.getD_some, List.map_cons, List.nil_append] at hp
        have hrest' : (a.advance current.length).rest = b ++ (rs.map (·.1)).flatten := by
          rw [hrest]; simp [Source.pending]
        refine ⟨by rw [hrest']; simp [Source.pending], ?_, by simpa [Source.pending] using hp.2, ?_, by simp,
          ?_, ?_, hend, ?_, ?_⟩
        · intro r hr
          exact h.noErr r (by simp at hr ⊢; exact Or.inr hr)
        · intro hc
          simp only at hc
          rw [hrest', hc, List.nil_append]
          exact hp.1 hc
        · intro hr; rw [herr hr]; exact hne hr
        · intro hn; exact hnone hn
        · intro hs
          have := h.strictNe hs b (by simp [Source.pending])
          have hr : (a.advance current.length).rest ≠ [] := by
            rw [hrest']; simp [this]
          rw [herr hr]; exact hne hr
        · intro hs c' hc'
          apply h.strictNe hs
          simp only [Source.pending, Option.getD_some, List.nil_append, List.map_cons, List.mem_cons] at hc' ⊢
          exact Or.inr hc'

theorem consumeLoop_sim {strict : Prop} : ∀ (fuel : Nat) {s : Source} {a : Input} (n : Nat),
    Sim strict s a → n ≤ a.rest.length → s.chunks + 2 ≤ fuel →
    ∃ s', consumeLoop fuel s n = some s' ∧ Sim strict s' (a.advance n) := by
  have fin : ∀ (fuel : Nat) {s : Source} {a : Input} (n : Nat), Sim strict s a →
      ¬ (n ≠ 0 ∧ n ≥ s.current.length) →
      ∃ s', consumeLoop (fuel + 1) s n = some s' ∧ Sim strict s' (a.advance n) := by
    intro fuel s a n h hc
    refine ⟨{ s with current := s.current.drop n }, by simp only [consumeLoop]; rw [if_neg hc], ?_⟩
    by_cases hn : n = 0
    · subst hn
      rw [advance_zero a h.endErr]
      simpa using h
    · have hlt : n < s.current.length := by
        simp only [not_and] at hc
        have := hc hn; omega
      have hcur : s.current.drop n ≠ [] := by
        intro he; rw [List.drop_eq_nil_iff] at he; omega
      have hr : (a.advance n).rest = s.current.drop n ++ (s.nextList ++ s.pending).flatten := by
        simp only [Input.advance, ← h.rest]
        rw [List.drop_append_of_le_length (by omega)]
      have hrne : (a.advance n).rest ≠ [] := by rw [hr]; simp [hcur]
      have hane : a.rest ≠ [] := by
        intro he; apply hrne; simp [Input.advance, he]
      have he : (a.advance n).err = a.err := by
        simp only [Input.advance] at hrne ⊢
        rw [if_neg hrne]
      exact ⟨by rw [hr]; rfl, h.noErr, h.packed, fun hx => absurd hx hcur, h.nilr,
        fun _ => by rw [he]; exact h.errEq hane, fun hx => by rw [he] at hx; exact h.errNone hx,
        fun hx => absurd hx hrne, fun hs => by rw [he]; exact h.strictErr hs, h.strictNe⟩
  intro fuel
  induction fuel with
  | zero => intro s a n _ _ hf; omega
  | succ fuel ih =>
    intro s a n h hn hf
    by_cases hc : n ≠ 0 ∧ n ≥ s.current.length
    · have hstep : consumeLoop (fuel + 1) s n = consumeLoop fuel s.consume (n - s.current.length) := by
        simp only [consumeLoop]; rw [if_pos hc]
      rw [hstep]
      have hsim := consume_sim h
      have hadd : (a.advance s.current.length).advance (n - s.current.length) = a.advance n := by
        rw [advance_add]; congr 1; omega
      rw [← hadd]
      have hlen : n - s.current.length ≤ (a.advance s.current.length).rest.length := by
        simp only [Input.advance, List.length_drop]; omega
      by_cases hch : s.chunks = 0
      · have : (a.advance s.current.length).rest.length = 0 := by
          have hr : a.rest = s.current := by
            rw [← h.rest]
            have h1 : s.nextList = [] := by
              apply List.eq_nil_of_length_eq_zero; unfold Source.chunks at hch; omega
            have h2 : s.pending = [] := by
              apply List.eq_nil_of_length_eq_zero
              unfold Source.chunks at hch; unfold Source.pending
              rw [List.length_map]; omega
            rw [h1, h2]; simp
          simp [Input.advance, hr]
        have hn0 : n - s.current.length = 0 := by omega
        rw [hn0]
        obtain ⟨f', rfl⟩ : ∃ f', fuel = f' + 1 := ⟨fuel - 1, by omega⟩
        exact fin f' 0 hsim (by simp)
      · exact ih _ hsim hlen (by rw [chunks_consume s h.nilr]; omega)
    · exact fin fuel n h hc

theorem consumeN_sim {strict : Prop} {s : Source} {a : Input} (h : Sim strict s a) (n : Nat)
    (hn : n ≤ a.rest.length) :
    ∃ s', s.consumeN n = .ok s' ∧ Sim strict s' (a.advance n) := by
  obtain ⟨s', hs, hsim⟩ := consumeLoop_sim (s.chunks + 2) n h hn (Nat.le_refl _)
  exact ⟨s', by simp [Source.consumeN, hs], hsim⟩

/-! ### PeekN -/

theorem peekNext_eq (n : Nat) : ∀ (nl : List Bytes) (p : Bytes), p.length < n →
    peekNext n nl p =
      if n ≤ (p ++ nl.flatten).length then .inl ((p ++ nl.flatten).take n) else .inr (p ++ nl.flatten) := by
  intro nl
  induction nl with
  | nil =>
    intro p hp
    have : ¬ n ≤ (p ++ ([] : List Bytes).flatten).length := by simp; omega
    rw [if_neg this]; simp [peekNext]
  | cons c cs ih =>
    intro p hp
    have e : p ++ (c :: cs).flatten = (p ++ c) ++ cs.flatten := by simp
    rw [e]
    simp only [peekNext]
    by_cases h : (p ++ c).length ≥ n
    · rw [if_pos h, if_pos (by rw [List.length_append]; omega), List.take_append_of_le_length h]
    · rw [if_neg h, ih _ (by omega)]

theorem peekRead_eq (n : Nat) : ∀ (rs : List ReadResult) (p : Bytes), p.length < n →
    (∀ r ∈ rs, r.2 = none) →
    ∃ pre suf : List ReadResult, rs = pre ++ suf ∧
      ((n ≤ (p ++ (rs.map (·.1)).flatten).length ∧
        peekRead n rs p = ((p ++ (rs.map (·.1)).flatten).take n, none, suf, pre.map (·.1))) ∨
       (¬ n ≤ (p ++ (rs.map (·.1)).flatten).length ∧ suf = [] ∧
        peekRead n rs p = (p ++ (rs.map (·.1)).flatten, some .eof, [], pre.map (·.1) ++ [[]]))) := by
  intro rs
  induction rs with
  | nil =>
    intro p hp _
    refine ⟨[], [], rfl, Or.inr ⟨?_, rfl, ?_⟩⟩
    · simp only [List.map_nil, List.flatten_nil, List.append_nil]; omega
    · have : ¬ p.length ≥ n := by omega
      simp [peekRead, this]
  | cons r rs ih =>
    intro p hp he
    obtain ⟨b, e⟩ := r
    have hen : e = none := he (b, e) (by simp)
    subst hen
    have e1 : p ++ (((b, none) :: rs : List ReadResult).map (·.1)).flatten = (p ++ b) ++ (rs.map (·.1)).flatten := by
      simp
    rw [e1]
    simp only [peekRead]
    by_cases h : (p ++ b).length ≥ n
    · refine ⟨[(b, none)], rs, rfl, Or.inl ⟨by rw [List.length_append]; omega, ?_⟩⟩
      rw [if_pos h, List.take_append_of_le_length h]; rfl
    · rw [if_neg h]
      obtain ⟨pre, suf, h1, h2⟩ := ih (p ++ b) (by omega) (fun r hr => he r (by simp [hr]))
      refine ⟨(b, none) :: pre, suf, by rw [h1]; rfl, ?_⟩
      rcases h2 with ⟨h2, h3⟩ | ⟨h2, h3, h4⟩
      · exact Or.inl ⟨h2, by rw [h3]; rfl⟩
      · exact Or.inr ⟨h2, h3, by rw [h4]; rfl⟩

theorem packed_snoc : ∀ l : List Bytes, Packed l → Packed (l ++ [[]]) := by
  intro l
  induction l with
  | nil => intro _; exact ⟨fun _ => rfl, trivial⟩
  | cons c cs ih =>
    intro h
    refine ⟨fun hc => ?_, ih h.2⟩
    show (cs ++ [[]]).flatten = []
    rw [List.flatten_append, h.1 hc]; rfl

/-- Looking ahead: the next `n` bytes, or all that is left with an error, and the source
still stands for the same input. -/
theorem peekN_sim {strict : Prop} {s : Source} {a : Input} (h : Sim strict s a) (n : Nat)
    (hn : strict → n ≤ a.rest.length) :
    (s.peekN n).1 = (a.rest.take n, if n ≤ a.rest.length then none else some .eof) ∧
    Sim strict (s.peekN n).2 a := by
  have hr := h.rest
  unfold Source.peekN
  by_cases h1 : n ≤ s.current.length
  · have hle : n ≤ a.rest.length := by rw [← hr, List.length_append]; omega
    rw [if_pos h1, if_pos hle]
    refine ⟨?_, h⟩
    rw [← hr, List.take_append_of_le_length h1]
  · rw [if_neg h1]
    obtain ⟨err, reader, current, nextList⟩ := s
    cases reader with
    | none =>
      have hnl := h.nilr rfl
      simp only at hnl
      subst hnl
      have hr' : a.rest = current := by rw [← hr]; simp [Source.pending]
      have hle : ¬ n ≤ a.rest.length := by rw [hr']; exact h1
      refine ⟨?_, h⟩
      simp only at h1 ⊢
      rw [hr'] at hle ⊢
      rw [if_neg hle, List.take_of_length_le (by omega)]
    | some rs =>
      simp only at h1 ⊢
      rw [peekNext_eq n nextList current (by omega)]
      have hr2 : a.rest = (current ++ nextList.flatten) ++ (rs.map (·.1)).flatten := by
        rw [← hr]; simp [Source.pending]
      by_cases h2 : n ≤ (current ++ nextList.flatten).length
      · rw [if_pos h2]
        have hle : n ≤ a.rest.length := by rw [hr2, List.length_append]; omega
        rw [if_pos hle]
        refine ⟨?_, h⟩
        simp only
        rw [hr2, List.take_append_of_le_length h2]
      · rw [if_neg h2]
        simp only
        obtain ⟨pre, suf, e1, e2⟩ := peekRead_eq n rs (current ++ nextList.flatten) (by omega) h.noErr
        rcases e2 with ⟨e2, e3⟩ | ⟨e2, e3, e4⟩
        · rw [← hr2] at e2
          rw [if_pos e2, e3]
          refine ⟨by rw [hr2], ?_⟩
          have hpre : (nextList ++ pre.map (·.1)) ++ suf.map (·.1) = nextList ++ rs.map (·.1) := by
            rw [e1]; simp
          refine ⟨?_, ?_, ?_, h.cur, by simp, h.errEq, h.errNone, h.endErr, h.strictErr, ?_⟩
          · simp only [Source.pending, Option.getD_some]; rw [hpre]; exact hr
          · intro r hr; apply h.noErr; simp only [Option.getD_some] at hr ⊢; rw [e1]; simp [hr]
          · simp only [Source.pending, Option.getD_some]; rw [hpre]; exact h.packed
          · simp only [Source.pending, Option.getD_some]; rw [hpre]; exact h.strictNe
        · have hstr : ¬ strict := fun hs => e2 (by rw [← hr2]; exact hn hs)
          rw [← hr2] at e2
          rw [if_neg e2, e4]
          subst e3
          rw [List.append_nil] at e1
          refine ⟨by rw [← hr2, List.take_of_length_le (by omega)], ?_⟩
          have hpre : (nextList ++ (pre.map (·.1) ++ [[]])) ++ [] = (nextList ++ rs.map (·.1)) ++ [[]] := by
            rw [e1]; simp
          refine ⟨?_, by simp, ?_, h.cur, by simp, h.errEq, h.errNone, h.endErr, h.strictErr,
            fun hs => absurd hs hstr⟩
          · simp only [Source.pending, Option.getD_some, List.map_nil]; rw [hpre]
            rw [List.flatten_append, ← List.append_assoc]
            have := hr
            simp only [Source.pending, Option.getD_some] at this
            rw [this]; simp
          · simp only [Source.pending, Option.getD_some, List.map_nil]; rw [hpre]
            exact packed_snoc _ h.packed

/-! ### The chunk loops -/

/-- Shift the stop index. -/
def Scan.shift {σ : Type} (k : Nat) : Scan σ → Scan σ
  | .stop i st => .stop (k + i) st
  | .more st => .more st
  | .fail e => .fail e

/-- A scan can be cut anywhere. -/
structure ScanHom {σ : Type} (scan : σ → Bytes → Scan σ) : Prop where
  nil : ∀ st, scan st [] = .more st
  app : ∀ st x y, scan st (x ++ y) =
    match scan st x with
    | .stop i st' => .stop i st'
    | .more st' => (scan st' y).shift x.length
    | .fail e => .fail e
  bound : ∀ st x i st', scan st x = .stop i st' → i < x.length

/-- What a chunk loop does to the whole remaining input. -/
def scanInput {σ : Type} (scan : σ → Bytes → Scan σ) (a : Input) (st : σ) : σ × Input :=
  if a.err.isSome then (st, a)
  else match scan st a.rest with
    | .stop i st' => (st', a.advance i)
    | .more st' => (st', a.advance a.rest.length)
    | .fail _ => (st, a)

theorem chunkLoop_sim {strict : Prop} {σ : Type} {scan : σ → Bytes → Scan σ} (hom : ScanHom scan)
    (zero : σ) : ∀ (fuel : Nat) {s : Source} {a : Input} (st : σ), Sim strict s a →
    (a.err = none → ∀ e, scan st a.rest ≠ .fail e) → s.chunks + 2 ≤ fuel →
    ∃ s', chunkLoop scan zero fuel s st = .ok ((scanInput scan a st).1, s') ∧
      Sim strict s' (scanInput scan a st).2 := by
  intro fuel
  induction fuel with
  | zero => intro s a st _ _ hf; omega
  | succ fuel ih =>
    intro s a st h hnf hf
    by_cases hs : s.err.isSome
    · have ha : a.err.isSome := by
        cases ha : a.err with
        | none => rw [h.errNone ha] at hs; simp at hs
        | some e => rfl
      refine ⟨s, ?_, ?_⟩
      · simp [chunkLoop, hs, scanInput, ha]
      · simp only [scanInput, ha, if_true]; exact h
    · have hsn : s.err = none := by cases hx : s.err <;> simp_all
      by_cases ha : a.err = none
      · have hane : a.rest ≠ [] := fun hx => h.endErr hx ha
        have hi : scanInput scan a st = match scan st a.rest with
            | .stop i st' => (st', a.advance i)
            | .more st' => (st', a.advance a.rest.length)
            | .fail _ => (st, a) := by simp [scanInput, ha]
        have happ := hom.app st s.current (s.nextList ++ s.pending).flatten
        rw [h.rest] at happ
        have hl : chunkLoop scan zero (fuel + 1) s st = match scan st s.current with
          | .stop i st' =>
            match s.consumeN i with
            | .ok s' => .ok (st', s')
            | .error f => .error f
          | .fail e => .ok (zero, s.report e)
          | .more st' => chunkLoop scan zero fuel s.consume st' := by
          simp [chunkLoop, hsn]
          rfl
        rw [hl]
        cases hsc : scan st s.current with
        | stop i st' =>
          rw [hsc] at happ
          simp only at happ
          rw [hi, happ]
          simp only
          have hb := hom.bound _ _ _ _ hsc
          obtain ⟨s', hs', hsim⟩ := consumeN_sim h i (by rw [← h.rest, List.length_append]; omega)
          exact ⟨s', by rw [hs'], hsim⟩
        | fail e =>
          rw [hsc] at happ
          exact absurd happ (hnf ha e)
        | more st' =>
          rw [hsc] at happ
          simp only at happ
          have hsim := consume_sim h
          have hrest' : (a.advance s.current.length).rest = (s.nextList ++ s.pending).flatten := by
            simp [Input.advance, ← h.rest]
          have hcl : s.current ≠ [] := fun hx => hane (h.cur hx)
          have key : scanInput scan (a.advance s.current.length) st' = scanInput scan a st := by
            rw [hi, happ]
            by_cases hx : (a.advance s.current.length).rest = []
            · have h1 : (s.nextList ++ s.pending).flatten = [] := by rw [← hrest']; exact hx
              have h2 : (a.advance s.current.length).err.isSome := by
                have := hsim.endErr hx
                cases he : (a.advance s.current.length).err <;> simp_all
              rw [h1, hom.nil]
              simp only [scanInput, h2, if_true, Scan.shift]
              rw [← h.rest, h1, List.append_nil]
            · have h2 : (a.advance s.current.length).err = none := by
                simp only [Input.advance] at hx ⊢
                rw [if_neg hx]; exact ha
              simp only [scanInput, h2, Option.isSome_none, Bool.false_eq_true, if_false]
              rw [hrest']
              cases hy : scan st' (s.nextList ++ s.pending).flatten with
              | stop i st'' => simp [Scan.shift, advance_add]
              | more st'' =>
                simp only [Scan.shift]
                rw [advance_add]
                rw [← h.rest, List.length_append]
              | fail e =>
                exfalso
                rw [hy] at happ
                exact hnf ha e happ
          rw [← key]
          by_cases hch : s.chunks = 0
          · have hx : (a.advance s.current.length).rest = [] := by
              rw [hrest']
              have h1 : s.nextList = [] := by
                apply List.eq_nil_of_length_eq_zero; unfold Source.chunks at hch; omega
              have h2 : s.pending = [] := by
                apply List.eq_nil_of_length_eq_zero
                unfold Source.chunks at hch; unfold Source.pending
                rw [List.length_map]; omega
              rw [h1, h2]; rfl
            obtain ⟨f', rfl⟩ : ∃ f', fuel = f' + 1 := ⟨fuel - 1, by omega⟩
            have hcs : s.consume.err.isSome := by
              obtain ⟨err, reader, current, nextList⟩ := s
              have h1 : nextList = [] := by
                apply List.eq_nil_of_length_eq_zero; unfold Source.chunks at hch; simp only at hch; omega
              subst h1
              cases reader with
              | none => cases err <;> rfl
              | some rs =>
                have h2 : rs = [] := by
                  apply List.eq_nil_of_length_eq_zero; unfold Source.chunks at hch
                  simp only [Option.getD_some] at hch; omega
                subst h2
                cases err <;> rfl
            have h2 : (a.advance s.current.length).err.isSome := by
              have := hsim.endErr hx
              cases he : (a.advance s.current.length).err <;> simp_all
            refine ⟨s.consume, ?_, ?_⟩
            · simp [chunkLoop, hcs, scanInput, h2]
            · simp only [scanInput, h2, if_true]; exact hsim
          · apply ih st' hsim
            · intro hn e hy
              rw [hrest'] at hy
              apply hnf ha e
              rw [happ, hy]; rfl
            · rw [chunks_consume s h.nilr]; omega
      · -- the input is used up, but the source has not recorded it yet
        have hrn : a.rest = [] := by
          by_cases hx : a.rest = []
          · exact hx
          · exact absurd ((h.errEq hx).symm.trans hsn) ha
        have hais : a.err.isSome := by cases hx : a.err <;> simp_all
        have hcur : s.current = [] := by
          have := h.rest; rw [hrn] at this; exact (List.append_eq_nil_iff.mp this).1
        have hl : chunkLoop scan zero (fuel + 1) s st = chunkLoop scan zero fuel s.consume st := by
          simp [chunkLoop, hsn, hcur, hom.nil]
        rw [hl]
        have hsim := consume_sim h
        have hadv : a.advance s.current.length = a := by
          rw [hcur]; exact advance_zero a h.endErr
        rw [hadv] at hsim
        by_cases hch : s.chunks = 0
        · obtain ⟨f', rfl⟩ : ∃ f', fuel = f' + 1 := ⟨fuel - 1, by omega⟩
          have hcs : s.consume.err.isSome := by
            obtain ⟨err, reader, current, nextList⟩ := s
            have h1 : nextList = [] := by
              apply List.eq_nil_of_length_eq_zero; unfold Source.chunks at hch; simp only at hch; omega
            subst h1
            cases reader with
            | none => cases err <;> rfl
            | some rs =>
              have h2 : rs = [] := by
                apply List.eq_nil_of_length_eq_zero; unfold Source.chunks at hch
                simp only [Option.getD_some] at hch; omega
              subst h2
              cases err <;> rfl
          refine ⟨s.consume, ?_, ?_⟩
          · simp [chunkLoop, hcs, scanInput, hais]
          · simp only [scanInput, hais, if_true]; exact hsim
        · apply ih st hsim hnf
          rw [chunks_consume s h.nilr]; omega

end Verif.Parse
