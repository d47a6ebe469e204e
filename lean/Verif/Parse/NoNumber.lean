import Verif.Parse.Props

/-!
# C06 for `Int`, and C170: numbers that are not there
-/

namespace Verif.Parse

/-! ### Model -/

/-- `Int`, parse/read/int.go:25-30, for an int of 32 or 64 bits; the result as a number. -/
def readInt (is32 : Bool) (s : Source) : Out (Int × Source) :=
  if is32 then (readInt32 s).map fun r => (r.1.toInt, r.2) else (readInt64 s).map fun r => (r.1.toInt, r.2)

/-! ### C06 -/

/-- C06: in the range of int, of whatever size, `Int` returns the exact signed value. -/
theorem readInt_exact (is32 : Bool) {s : Source} (neg : Bool) {ds tail : Bytes} (h : Reached True s (signText neg ++ ds ++ tail)) (hne : ds ≠ [])
    (hd : ∀ c ∈ ds, isDigit c = true) (ht : ∀ c ∈ tail.head?, isDigit c = false)
    (hr : -2 ^ (if is32 then 31 else 63) ≤ signedOf neg (natOfDigits 0 ds) ∧ signedOf neg (natOfDigits 0 ds) < 2 ^ (if is32 then 31 else 63)) :
    ∃ s', readInt is32 s = .ok (signedOf neg (natOfDigits 0 ds), s') ∧ LeftAt s' tail := by
  cases is32 with
  | true =>
    obtain ⟨v, s', h1, h2, h3⟩ := readInt32_exact neg h hne hd ht hr
    exact ⟨s', by simp [readInt, h1, Except.map, h2], h3⟩
  | false =>
    obtain ⟨v, s', h1, h2, h3⟩ := readInt64_exact neg h hne hd ht hr
    exact ⟨s', by simp [readInt, h1, Except.map, h2], h3⟩

/-- C06, part: outside the range `Int` returns 0 and records the overflow if a byte follows the number. -/
theorem readInt_overflow_partial (is32 : Bool) {s : Source} (neg : Bool) {ds tail : Bytes} (h : Reached True s (signText neg ++ ds ++ tail))
    (hne : ds ≠ []) (hd : ∀ c ∈ ds, isDigit c = true) (ht : ∀ c ∈ tail.head?, isDigit c = false) (hlt : natOfDigits 0 ds < 2 ^ 64) (htl : tail ≠ [])
    (hr : signedOf neg (natOfDigits 0 ds) < -2 ^ (if is32 then 31 else 63) ∨ 2 ^ (if is32 then 31 else 63) ≤ signedOf neg (natOfDigits 0 ds)) :
    ∃ s', readInt is32 s = .ok (0, s') ∧ s'.err = some (.msg (if is32 then asc "int32: overflow" else asc "int64: overflow")) ∧ Delivers s' tail := by
  cases is32 with
  | true =>
    obtain ⟨s', h1, h2, h3⟩ := readInt32_overflow_partial neg h hne hd ht hlt hr
    exact ⟨s', by simp [readInt, h1, Except.map], by simp [h3, htl], h2⟩
  | false =>
    obtain ⟨s', h1, h2, h3⟩ := readInt64_overflow_partial neg h hne hd ht hlt htl hr
    exact ⟨s', by simp [readInt, h1, Except.map], by simp [h2], h3⟩

/-- The most negative int of 32 bits, over two chunks. -/
example : ∃ s s', Reached True s (signText true ++ asc "2147483648" ++ asc " ") ∧ readInt true s = .ok (-2147483648, s') ∧ LeftAt s' (asc " ") := by
  have h : Reached True ⟨none, some [(asc "147483648 ", none)], asc "-2", []⟩ (signText true ++ asc "2147483648" ++ asc " ") :=
    Reached.reader [asc "-2", asc "147483648 "] _ (by decide) rfl
  obtain ⟨s', h1, h2⟩ := readInt_exact true true h (by decide) (by decide) (by decide) (by decide)
  exact ⟨_, s', h, h1, h2⟩

/-- The same number with 64 bits is in range, one more digit with 32 bits is not. -/
example : ∃ s s', Reached True s (signText true ++ asc "21474836480" ++ asc " ") ∧ readInt true s = .ok (0, s') ∧
    s'.err = some (.msg (asc "int32: overflow")) := by
  have h : Reached True ⟨none, some [(asc "1474836480 ", none)], asc "-2", []⟩ (signText true ++ asc "21474836480" ++ asc " ") :=
    Reached.reader [asc "-2", asc "1474836480 "] _ (by decide) rfl
  obtain ⟨s', h1, h2, -⟩ := readInt_overflow_partial true true h (by decide) (by decide) (by decide) (by decide) (by decide) (by decide)
  exact ⟨_, s', h, h1, h2⟩

/-! ### C170 -/

/-- C170, part: where there is no number, `Uint64` consumes nothing and returns 0.  Missing: that it reports an error (`no_error`), the signed
readers (`sign_swallowed`), and the end of the input (`second_read_panics`). -/
theorem nothing_consumed_partial {s : Source} {r : Bytes} (h : Reached True s r) (hd : ∀ c ∈ r.head?, isDigit c = false) :
    ∃ s', readUint64 s = .ok (0, s') ∧ Delivers s' r := by
  obtain ⟨v, s', h1, h2, h3⟩ := readUint64_exact (ds := []) (tail := r) h (by simp) hd (by decide)
  refine ⟨s', ?_, h3.1⟩
  rw [h1]
  have : v = 0 := UInt64.toNat_inj.mp (by rw [h2]; rfl)
  rw [this]

/-- C170 fails: no error is reported, for any input that does not begin with a digit; the result is the same as that of reading `0`, except that
nothing is consumed. -/
theorem no_error {s : Source} {r : Bytes} (h : Reached True s r) (hd : ∀ c ∈ r.head?, isDigit c = false) :
    ∃ s', readUint64 s = .ok (0, s') ∧ s'.err = none := by
  obtain ⟨-, hne⟩ := reached_sim h
  obtain ⟨v, s', h1, h2, h3⟩ := readUint64_exact (ds := []) (tail := r) h (by simp) hd (by decide)
  refine ⟨s', ?_, by rw [h3.2, if_neg hne]⟩
  rw [h1]
  have : v = 0 := UInt64.toNat_inj.mp (by rw [h2]; rfl)
  rw [this]

/-- What the signed readers see where there is no number, with or without a sign. -/
theorem unsigned_rest (neg : Bool) (tail : Bytes) (hne : signText neg ++ tail ≠ []) (ht : ∀ c ∈ tail.head?, isDigit c = false)
    (hm : neg = false → tail.head? ≠ some 45) :
    let a : Input := ⟨signText neg ++ tail, none⟩
    a.rest ≠ [] ∧ a.afterSign.fits64 ∧ ((a.rest.head? = some 45) ↔ neg = true) ∧ a.afterSign.uint64 = (0, a.advance (signText neg).length) := by
  have key : ∀ err, Input.skipWhile ⟨tail, err⟩ isDigit = ([], Input.skipWhile ⟨tail, err⟩ isDigit |>.2) := by
    intro err
    have : tail.takeWhile isDigit = [] := by
      cases tail with
      | nil => rfl
      | cons c t => rw [List.takeWhile_cons, ht c (by simp)]; rfl
    unfold Input.skipWhile
    split <;> simp [this]
  cases neg with
  | false =>
    have hh : tail.head? ≠ some 45 := hm rfl
    have htl : tail ≠ [] := by simpa [signText] using hne
    have has : Input.afterSign ⟨signText false ++ tail, none⟩ = ⟨tail, none⟩ := by simp [Input.afterSign, signText, hh]
    have h2 := uint64_digits [] tail (by simp) ht
    simp only [List.nil_append] at h2
    refine ⟨hne, ?_, by simp [signText, hh], ?_⟩
    · rw [has]; unfold Input.fits64; rw [key]; exact Nat.two_pow_pos 64
    · rw [has]; unfold Input.uint64; rw [h2]; rfl
  | true =>
    have has : Input.afterSign ⟨signText true ++ tail, none⟩ = Input.advance ⟨signText true ++ tail, none⟩ 1 := by
      simp [Input.afterSign, signText]
    have hadv : Input.advance ⟨signText true ++ tail, none⟩ 1 = ⟨tail, if tail = [] then some .eof else none⟩ := by
      simp [Input.advance, signText]
    refine ⟨hne, ?_, by simp [signText], ?_⟩
    · rw [has, hadv]; unfold Input.fits64; rw [key]; exact Nat.two_pow_pos 64
    · have e1 : (signText true).length = 1 := rfl
      rw [has, e1, hadv]
      unfold Input.uint64
      by_cases htl : tail = []
      · subst htl; rfl
      · rw [if_neg htl]
        have h2 := uint64_digits [] tail (by simp) ht
        simp only [List.nil_append] at h2
        rw [h2]
        have : Input.advance ⟨tail, none⟩ ([] : Bytes).length = ⟨tail, none⟩ := by simp [Input.advance, htl]
        rw [this]; rfl

/-- C170 fails: the signed readers take a minus sign that no digit follows, and report nothing unless the input ends behind it. -/
theorem sign_swallowed (is32 : Bool) {s : Source} (neg : Bool) {tail : Bytes} (h : Reached True s (signText neg ++ tail))
    (ht : ∀ c ∈ tail.head?, isDigit c = false) (hm : neg = false → tail.head? ≠ some 45) :
    ∃ s', readInt is32 s = .ok (0, s') ∧ LeftAt s' tail := by
  obtain ⟨hsim, hne⟩ := reached_sim h
  obtain ⟨h1, h2, h3, h4⟩ := unsigned_rest neg tail hne ht hm
  have hleft : ∀ s', Sim True s' (Input.advance ⟨signText neg ++ tail, none⟩ (signText neg).length) → LeftAt s' tail := by
    intro s' hs
    have := leftAt_of_sim hs
    rwa [List.drop_left] at this
  cases is32 with
  | true =>
    obtain ⟨s', e1, e2⟩ := readInt32_sim hsim h1 h2
    unfold Input.int32 at e1 e2
    rw [h4] at e1 e2
    refine ⟨s', ?_, hleft s' ?_⟩
    · simp only [readInt, if_true, e1, Except.map]
      split <;> rfl
    · revert e2
      simp only
      split <;> exact id
  | false =>
    obtain ⟨s', e1, e2⟩ := readInt64_sim hsim h1 h2
    unfold Input.int64 at e1 e2
    rw [h4] at e1 e2
    refine ⟨s', ?_, hleft s' ?_⟩
    · simp only [readInt, Bool.false_eq_true, if_false, e1, Except.map]
      split <;> rfl
    · revert e2
      simp only
      split <;> exact id

/-- C170 fails: reading a signed number after the last one in the input panics, instead of reporting the end of the input. -/
theorem second_read_panics (is32 : Bool) {s : Source} {ds : Bytes} (h : Reached True s ds) (hd : ∀ c ∈ ds, isDigit c = true)
    (hr : natOfDigits 0 ds < 2 ^ (if is32 then 31 else 63)) :
    ∃ s', readInt is32 s = .ok ((natOfDigits 0 ds : Nat), s') ∧ readInt is32 s' = .error .panic := by
  obtain ⟨-, hne⟩ := reached_sim h
  have h' : Reached True s (signText false ++ ds ++ []) := by simpa [signText] using h
  have hr' : -2 ^ (if is32 then 31 else 63) ≤ signedOf false (natOfDigits 0 ds) ∧
      signedOf false (natOfDigits 0 ds) < 2 ^ (if is32 then 31 else 63) := by
    cases is32 <;> simp [signedOf] at hr ⊢ <;> omega
  obtain ⟨s', h1, h2⟩ := readInt_exact is32 false h' hne hd (by simp) hr'
  refine ⟨s', by rw [h1]; simp [signedOf], ?_⟩
  have hcur : s'.current = [] := by
    have := h2.1 1
    by_cases hc : s'.current = []
    · exact hc
    · exfalso
      obtain ⟨c, t, hct⟩ : ∃ c t, s'.current = c :: t := by cases hx : s'.current <;> simp_all
      have h3 : (s'.peekN 1).1 = ([c], none) := by
        unfold Source.peekN
        simp [hct]
      rw [h3] at this
      simp at this
  cases is32 <;> simp [readInt, readInt32, readInt64, hcur, Except.map]

/-- `-x`: the sign is gone, nothing is reported. -/
example : ∃ s s', Reached True s (asc "-x") ∧ readInt false s = .ok (0, s') ∧ LeftAt s' (asc "x") := by
  have h : Reached True (newSourceString (asc "-x")) (asc "-x") := Reached.string _ (by decide)
  obtain ⟨s', h1, h2⟩ := sign_swallowed false true (tail := asc "x") h (by decide) (by decide)
  exact ⟨_, s', h, h1, h2⟩

/-- `x`: nothing is consumed, nothing is reported. -/
example : (∃ s', readUint64 (newSourceString (asc "x")) = .ok (0, s') ∧ Delivers s' (asc "x")) ∧
    ∃ s', readUint64 (newSourceString (asc "x")) = .ok (0, s') ∧ s'.err = none :=
  ⟨nothing_consumed_partial (Reached.string _ (by decide)) (by decide), no_error (Reached.string _ (by decide)) (by decide)⟩

/-- `12`, read twice. -/
example : ∃ s', readInt false (newSourceString (asc "12")) = .ok (12, s') ∧ readInt false s' = .error .panic := by
  obtain ⟨s', h1, h2⟩ := second_read_panics false (Reached.string (strict := True) (asc "12") (by decide)) (by decide) (by decide)
  exact ⟨s', h1, h2⟩

end Verif.Parse
