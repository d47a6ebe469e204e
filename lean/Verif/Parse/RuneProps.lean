import Verif.Parse.Props2

/-!
# C08: readers of runs of runes
-/

namespace Verif.Parse
open Verif.Spec

/-- Specification: `rs` is the longest run at the start of `r` of (well-formed) runes in
the class; `tail` is what follows. -/
def LongestRun (table : RangeTable) (r : Bytes) (rs : List Nat) (tail : Bytes) : Prop :=
  r = rs.flatMap utf8Encode ++ tail ∧ (∀ n ∈ rs, isScalar n = true ∧ table n = true) ∧
    ∀ n, isScalar n = true → table n = true → ¬ utf8Encode n <+: tail

theorem encode_ne (n : Nat) : utf8Encode n ≠ [] := by
  have := (encode_length n).1
  intro h; rw [h] at this; simp at this

theorem runeSpan_longest (table : RangeTable) (ht : table runeError = false) : ∀ (fuel : Nat) (r : Bytes),
    r.length + 1 ≤ fuel → LongestRun table r (runeSpan table fuel r).1 (r.drop (runeSpan table fuel r).2) := by
  intro fuel
  induction fuel with
  | zero => intro r h; omega
  | succ fuel ih =>
    intro r hf
    by_cases hne : r = []
    · subst hne
      simp only [runeSpan, if_true]
      refine ⟨rfl, by simp, ?_⟩
      intro n _ _ hp
      simp [encode_ne n] at hp
    · cases hx : table (decodeRune r).1 with
      | false =>
        simp only [runeSpan, if_neg hne, hx]
        refine ⟨by simp, by simp, ?_⟩
        rintro n hn htn ⟨t, ht'⟩
        simp only [Bool.false_eq_true, if_false, List.drop_zero] at ht'
        rw [← ht', decode_encode n hn] at hx
        simp [htn] at hx
      | true =>
        rcases decode_cases r hne with ⟨n, t, hn, hr, hd⟩ | hd
        · have hsz := decode_size r hne
          have := ih (r.drop (decodeRune r).2) (by rw [List.length_drop]; omega)
          simp only [runeSpan, if_neg hne, hx, if_true]
          obtain ⟨h1, h2, h3⟩ := this
          rw [List.drop_drop] at h1 h3
          refine ⟨?_, ?_, h3⟩
          · rw [List.flatMap_cons, List.append_assoc, ← h1]
            rw [hd]
            conv => lhs; rw [hr]
            rw [hr, List.drop_left]
          · intro m hm
            rcases List.mem_cons.mp hm with rfl | hm
            · rw [hd] at hx ⊢; exact ⟨hn, hx⟩
            · exact h2 m hm
        · rw [hd] at hx; simp only at hx; rw [ht] at hx; simp at hx

/-- C08 (partial): `read.UnicodeRange` appends exactly the longest run of runes in the
class and leaves the source after it, and `skip.UnicodeRange` skips exactly these bytes,
for every chunking, provided the class does not contain U+FFFD.  Missing: classes with
U+FFFD, which never return at the end of the input (`unicodeRange_hangs`);
`UnicodeRanges`, see `unicodeRanges_one` and `unicodeRanges_twice`. -/
theorem unicodeRange_partial {s : Source} {r : Bytes} (h : Reached False s r) (space : List Nat)
    (table : RangeTable) (ht : table runeError = false) :
    ∃ rs tail s' s'', LongestRun table r rs tail ∧
      unicodeRange s space table = .ok (space ++ rs, s') ∧ Delivers s' tail ∧
      skipUnicodeRange s table = .ok (r.length - tail.length, s'') ∧ Delivers s'' tail := by
  obtain ⟨hsim, -⟩ := reached_sim h
  obtain ⟨s', e1, h1⟩ := unicodeRange_sim table ht space hsim (fun hx => hx.elim)
  obtain ⟨s'', e2, h2⟩ := skipUnicodeRange_sim table ht hsim (fun hx => hx.elim)
  have hl := runeSpan_longest table ht (r.length + 1) r (Nat.le_refl _)
  refine ⟨_, _, s', s'', hl, e1, sim_delivers h1, ?_, sim_delivers h2⟩
  rw [e2]
  have := runeSpan_le table (r.length + 1) r
  rw [List.length_drop]
  congr 2; simp only; omega

/-- The longest run is unique, so `unicodeRange_partial` determines the result. -/
theorem longestRun_unique (table : RangeTable) : ∀ (rs rs' : List Nat) (r tail tail' : Bytes),
    LongestRun table r rs tail → LongestRun table r rs' tail' → rs = rs' ∧ tail = tail' := by
  intro rs
  induction rs with
  | nil =>
    intro rs' r tail tail' h h'
    cases rs' with
    | nil => exact ⟨rfl, by have h1 := h.1; have h2 := h'.1; simp at h1 h2; rw [← h1, ← h2]⟩
    | cons n ns =>
      exfalso
      have h1 := h.1
      simp only [List.flatMap_nil, List.nil_append] at h1
      obtain ⟨a, b⟩ := h'.2.1 n (by simp)
      refine h.2.2 n a b ?_
      rw [← h1, h'.1]
      exact ⟨ns.flatMap utf8Encode ++ tail', by simp⟩
  | cons n ns ih =>
    intro rs' r tail tail' h h'
    cases rs' with
    | nil =>
      exfalso
      have h1 := h'.1
      simp only [List.flatMap_nil, List.nil_append] at h1
      obtain ⟨a, b⟩ := h.2.1 n (by simp)
      refine h'.2.2 n a b ?_
      rw [← h1, h.1]
      exact ⟨ns.flatMap utf8Encode ++ tail, by simp⟩
    | cons m ms =>
      have e1 := h.1
      have e2 := h'.1
      rw [List.flatMap_cons, List.append_assoc] at e1 e2
      have d1 := decode_encode n (h.2.1 n (by simp)).1 (ns.flatMap utf8Encode ++ tail)
      have d2 := decode_encode m (h'.2.1 m (by simp)).1 (ms.flatMap utf8Encode ++ tail')
      rw [← e1] at d1
      rw [← e2, d1] at d2
      have hnm : n = m := (Prod.mk.inj d2).1
      subst hnm
      have e3 : ns.flatMap utf8Encode ++ tail = ms.flatMap utf8Encode ++ tail' :=
        List.append_cancel_left (e1.symm.trans e2)
      have := ih ms (ns.flatMap utf8Encode ++ tail) tail tail'
        ⟨rfl, fun k hk => h.2.1 k (by simp [hk]), h.2.2⟩
        ⟨e3, fun k hk => h'.2.1 k (by simp [hk]), h'.2.2⟩
      exact ⟨by rw [this.1], this.2⟩

/-- Letters `aé` then a digit, the two-byte rune cut in the middle. -/
example : ∃ s s', Reached False s [97, 0xC3, 0xA9, 49] ∧
    unicodeRange s [] (fun r => decide (97 ≤ r ∧ r ≤ 122 ∨ r = 0xE9)) = .ok ([97, 0xE9], s') := by
  refine ⟨⟨none, some [([0xA9, 49], none)], [97, 0xC3], []⟩, _,
    Reached.reader [[97, 0xC3], [0xA9, 49]] _ (by simp) rfl, rfl⟩

/-- C08, negation: with a class containing U+FFFD, a run reaching the end of the input
never returns. -/
theorem unicodeRangeLoop_hangs (table : RangeTable) (ht : table runeError = true) :
    ∀ (fuel : Nat) {s : Source} {a : Input} (space : List Nat), Sim False s a →
    (runeSpan table (a.rest.length + 1) a.rest).2 = a.rest.length →
    unicodeRangeLoop table fuel s space = .error .hang := by
  intro fuel
  induction fuel with
  | zero => intros; rfl
  | succ fuel ih =>
    intro s a space h hall
    obtain ⟨hr, hs2⟩ := peekRune_sim h (fun hx => hx.elim)
    simp only [unicodeRangeLoop]
    rw [hr]
    by_cases hne : a.rest = []
    · have hru : a.rune = (runeError, 1) := by unfold Input.rune; rw [if_pos hne]
      rw [hru]
      simp only [ht, if_true]
      have : s.peekRune.2.consumeN 1 = .error .hang := by
        have hh : Holds s.peekRune.2 a.rest := ⟨hs2.rest, by
          have := hs2.noErr
          generalize s.peekRune.2.reader.getD [] = l at this
          clear hs2 h hr hall hru hne
          induction l with
          | nil => trivial
          | cons x xs ih =>
            cases xs with
            | nil => trivial
            | cons y ys => exact ⟨this x (by simp), ih (fun z hz => this z (by simp [hz]))⟩, hs2.nilr⟩
        unfold Source.consumeN
        rw [consumeLoop_never _ 1 hh (by rw [hne]; simp)]
      rw [this]
    · have hru : a.rune = decodeRune a.rest := by unfold Input.rune; rw [if_neg hne]
      have hsz := decode_size a.rest hne
      rw [hru]
      cases hx : table (decodeRune a.rest).1 with
      | false =>
        exfalso
        rw [runeSpan.eq_def] at hall
        simp only [if_neg hne, hx, Bool.false_eq_true, if_false] at hall
        exact hne (List.eq_nil_of_length_eq_zero hall.symm)
      | true =>
        simp only [if_true]
        obtain ⟨s1, e1, h1⟩ := consumeN_sim hs2 (decodeRune a.rest).2 hsz.2
        rw [e1]
        refine ih _ h1 ?_
        have hlen : (a.advance (decodeRune a.rest).2).rest = a.rest.drop (decodeRune a.rest).2 := rfl
        rw [runeSpan.eq_def] at hall
        simp only [if_neg hne, hx, if_true] at hall
        rw [runeSpan_fuel table a.rest.length _ (by rw [List.length_drop]; omega)] at hall
        rw [hlen, List.length_drop]
        rw [List.length_drop] at hall
        omega

theorem unicodeRange_hangs {s : Source} {r : Bytes} (h : Reached False s r) (space : List Nat) (table : RangeTable)
    (ht : table runeError = true) (hall : (runeSpan table (r.length + 1) r).2 = r.length) :
    unicodeRange s space table = .error .hang :=
  unicodeRangeLoop_hangs table ht _ space (reached_sim h).1 hall

/-- E.g. any input at all and the class of all runes. -/
example : unicodeRange (newSourceString (asc "xyz")) [] (fun _ => true) = .error .hang := by rfl

/-- `UnicodeRanges` without includes is `UnicodeRange` for the complement of the excludes,
so it never returns when nothing excluded comes before the end (unless U+FFFD is
excluded). -/
theorem unicodeRanges_no_includes (excludes : List RangeTable) : ∀ (fuel : Nat) (s : Source) (space : List Nat),
    unicodeRangesLoop [] excludes fuel s space =
      unicodeRangeLoop (fun r => !excludes.any fun t => t r) fuel s space := by
  intro fuel
  induction fuel with
  | zero => intros; rfl
  | succ fuel ih =>
    intro s space
    rw [unicodeRangesLoop, unicodeRangeLoop]
    by_cases hx : excludes.any (fun t => t s.peekRune.1.1) = true
    · rw [if_pos hx, if_neg (by rw [hx]; decide)]
    · rw [if_neg hx, if_pos (by simp : ([] : List RangeTable).length = 0), if_pos (by simpa using hx)]
      cases s.peekRune.2.consumeN s.peekRune.1.2 with
      | error f => rfl
      | ok s' => exact ih s' _

theorem peek_then_consume {s : Source} {r : Bytes} {n : Nat} (h : Sim False s ⟨r, none⟩) (hn : isScalar n = true)
    (hp : utf8Encode n <+: r) :
    s.peekRune.1 = (n, (utf8Encode n).length) ∧ Sim False s.peekRune.2 ⟨r, none⟩ := by
  obtain ⟨h1, h2⟩ := peekRune_sim h (fun hx => hx.elim)
  refine ⟨?_, h2⟩
  obtain ⟨t, rfl⟩ := hp
  rw [h1]
  have hne : utf8Encode n ++ t ≠ [] := by simp [encode_ne]
  simp only [Input.rune]
  rw [if_neg hne, decode_encode n hn]

/-- C08, negation: with a non-empty list of includes, `UnicodeRanges` stops after one rune
although the next one is in the class too. -/
theorem unicodeRanges_one {s : Source} {tail : Bytes} {n m : Nat}
    (h : Reached False s (utf8Encode n ++ utf8Encode m ++ tail)) (space : List Nat)
    (inc : RangeTable) (hn : isScalar n = true) (_hm : isScalar m = true) (hin : inc n = true)
    (_him : inc m = true) :
    ∃ s', unicodeRanges s space [inc] [] = .ok (space ++ [n], s') ∧ Delivers s' (utf8Encode m ++ tail) ∧
      ∃ s'', skipUnicodeRanges s [inc] [] = .ok ((utf8Encode n).length, s'') ∧
        Delivers s'' (utf8Encode m ++ tail) := by
  rw [List.append_assoc] at h
  obtain ⟨hsim, hne⟩ := reached_sim h
  obtain ⟨h1, h2⟩ := peek_then_consume hsim hn ⟨_, rfl⟩
  obtain ⟨s', e, h3⟩ := consumeN_sim h2 (utf8Encode n).length (by simp)
  have hd := sim_delivers h3
  simp only [Input.advance, List.drop_left] at hd
  refine ⟨s', ?_, hd, s', ?_, hd⟩
  · simp [unicodeRanges, unicodeRangesLoop, includesLoop, h1, hin, e]
  · simp [skipUnicodeRanges, skipIncludesLoop, h1, hin, e]

/-- C08, negation: a rune in two of the includes is appended twice, and the second time
other bytes are consumed for it. -/
theorem unicodeRanges_twice {s : Source} {tail : Bytes} {n m : Nat}
    (h : Reached False s (utf8Encode n ++ utf8Encode m ++ tail)) (space : List Nat)
    (inc1 inc2 : RangeTable) (hn : isScalar n = true) (h1' : inc1 n = true) (h2' : inc2 n = true)
    (hlen : (utf8Encode m).length = (utf8Encode n).length) :
    ∃ s', unicodeRanges s space [inc1, inc2] [] = .ok (space ++ [n, n], s') ∧ Delivers s' tail := by
  obtain ⟨hsim, hne⟩ := reached_sim h
  obtain ⟨h1, h2⟩ := peek_then_consume hsim hn ⟨utf8Encode m ++ tail, by simp⟩
  obtain ⟨s1, e1, h3⟩ := consumeN_sim h2 (utf8Encode n).length (by simp)
  obtain ⟨s2, e2, h4⟩ := consumeN_sim h3 (utf8Encode n).length (by simp [Input.advance, hlen])
  rw [advance_add] at h4
  have hd := sim_delivers h4
  simp only [Input.advance] at hd
  rw [show (utf8Encode n).length + (utf8Encode n).length = (utf8Encode n ++ utf8Encode m).length by
    simp [hlen], List.drop_left] at hd
  refine ⟨s2, ?_, hd⟩
  simp [unicodeRanges, unicodeRangesLoop, includesLoop, h1, h1', h2', e1, e2]

example : (unicodeRanges (newSourceString (asc "abc")) [] [fun _ => true] []).map (·.1) = .ok [97] := by rfl
example : (unicodeRanges (newSourceString (asc "abc")) [] [fun _ => true, fun r => decide (r < 128)] []).map
    (fun r => (r.1, r.2.current)) = .ok ([97, 97], asc "c") := by rfl

/-- C08: `skip.UnicodeSpace` skips exactly the longest run of white-space runes. -/
theorem skipUnicodeSpace_exact {s : Source} {r : Bytes} (h : Reached False s r) (isSpace : RangeTable)
    (ht : isSpace runeError = false) :
    ∃ rs tail s', LongestRun isSpace r rs tail ∧
      skipUnicodeSpace s isSpace = .ok (r.length - tail.length, s') ∧ Delivers s' tail := by
  obtain ⟨hsim, -⟩ := reached_sim h
  obtain ⟨s'', e2, h2⟩ := skipUnicodeSpace_sim isSpace ht hsim rfl (fun hx => hx.elim)
  have hl := runeSpan_longest isSpace ht (r.length + 1) r (Nat.le_refl _)
  refine ⟨_, _, s'', hl, ?_, sim_delivers h2⟩
  rw [e2]
  have := runeSpan_le isSpace (r.length + 1) r
  rw [List.length_drop]
  congr 2; simp only; omega

example : (skipUnicodeSpace (newSourceString [32, 0xC2, 0xA0, 9, 97])
    (fun r => decide (r = 32 ∨ r = 9 ∨ r = 0xA0))).map (·.1) = .ok 4 := by rfl

end Verif.Parse
