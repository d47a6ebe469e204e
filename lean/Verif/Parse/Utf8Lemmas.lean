import Verif.Parse.Model
import Verif.Spec.Utf8

/-!
# `decodeRune` inverts UTF-8
-/

namespace Verif.Parse
open Verif.Spec

theorem first_eq (b : UInt8) : first b =
    if b.toNat < 0x80 then 0xF0 else if b.toNat < 0xC2 then 0xF1 else if b.toNat < 0xE0 then 0x02
    else if b.toNat = 0xE0 then 0x13 else if b.toNat = 0xED then 0x23 else if b.toNat < 0xF0 then 0x03
    else if b.toNat = 0xF0 then 0x34 else if b.toNat < 0xF4 then 0x04 else if b.toNat = 0xF4 then 0x44
    else 0xF1 := by
  have tab : ∀ i : Fin 256, first (UInt8.ofNat i.val) =
    if i.val < 0x80 then 0xF0 else if i.val < 0xC2 then 0xF1 else if i.val < 0xE0 then 0x02
    else if i.val = 0xE0 then 0x13 else if i.val = 0xED then 0x23 else if i.val < 0xF0 then 0x03
    else if i.val = 0xF0 then 0x34 else if i.val < 0xF4 then 0x04 else if i.val = 0xF4 then 0x44
    else 0xF1 := by decide +kernel
  have t := tab ⟨b.toNat, b.toNat_lt⟩
  simp only [UInt8.ofNat_toNat] at t
  exact t

/-- Bytes a `PeekRune` needs to look at beyond the current chunk. -/
def runeNeed (b : UInt8) : Nat :=
  if b.toNat < 0xC2 then 1 else if b.toNat < 0xE0 then 2 else if b.toNat < 0xF0 then 3
  else if b.toNat < 0xF5 then 4 else 1

/-- `decodeRune` in terms of numbers. -/
theorem decode_1 (p0 : UInt8) (t : Bytes) (h : p0.toNat < 0x80) :
    decodeRune (p0 :: t) = (p0.toNat, 1) := by
  have : first p0 = 0xF0 := by rw [first_eq, if_pos h]
  simp [decodeRune, this]

theorem decode_bad (p0 : UInt8) (t : Bytes)
    (h : (0x80 ≤ p0.toNat ∧ p0.toNat < 0xC2) ∨ 0xF5 ≤ p0.toNat) :
    decodeRune (p0 :: t) = (runeError, 1) := by
  have : first p0 = 0xF1 := by
    rw [first_eq]
    rcases h with h | h
    · rw [if_neg (by omega), if_pos (by omega)]
    · simp only [show ¬ p0.toNat < 0x80 by omega, show ¬ p0.toNat < 0xC2 by omega,
        show ¬ p0.toNat < 0xE0 by omega, show ¬ p0.toNat = 0xE0 by omega,
        show ¬ p0.toNat = 0xED by omega, show ¬ p0.toNat < 0xF0 by omega,
        show ¬ p0.toNat = 0xF0 by omega, show ¬ p0.toNat < 0xF4 by omega,
        show ¬ p0.toNat = 0xF4 by omega, if_false]
  simp [decodeRune, this]

theorem decode_2 (p0 : UInt8) (t : Bytes) (h : 0xC2 ≤ p0.toNat ∧ p0.toNat < 0xE0) :
    decodeRune (p0 :: t) =
      match t with
      | b1 :: _ => if 0x80 ≤ b1.toNat ∧ b1.toNat ≤ 0xBF then
          (p0.toNat % 32 * 64 + b1.toNat % 64, 2) else (runeError, 1)
      | _ => (runeError, 1) := by
  have : first p0 = 0x02 := by
    rw [first_eq, if_neg (by omega), if_neg (by omega), if_pos (by omega)]
  have e1 : ((2 : UInt8) &&& 7).toNat = 2 := by decide
  have e2 : acceptRange ((2 : UInt8) >>> 4) = (0x80, 0xBF) := by decide
  have e3 : ¬ (2 : UInt8) ≥ 0xF0 := by decide
  rcases t with _ | ⟨b1, t⟩
  · simp [decodeRune, this, e1, e3]
  · simp only [decodeRune, this, e1, e2, e3, if_false, List.length_cons, List.getD_cons_zero, if_true]
    rw [if_neg (by omega)]
    by_cases hb : 0x80 ≤ b1.toNat ∧ b1.toNat ≤ 0xBF
    · rw [if_pos hb, if_neg]
      simp only [Bool.or_eq_true, decide_eq_true_eq, UInt8.lt_iff_toNat_lt, not_or, Nat.not_lt]
      exact hb
    · rw [if_neg hb, if_pos]
      simp only [Bool.or_eq_true, decide_eq_true_eq, UInt8.lt_iff_toNat_lt]
      have e1 : (0x80 : UInt8).toNat = 128 := rfl
      have e2 : (0xBF : UInt8).toNat = 191 := rfl
      omega

/-- Bounds of the second byte of a three or four byte sequence. -/
def lo1 (b : Nat) : Nat := if b = 0xE0 then 0xA0 else if b = 0xF0 then 0x90 else 0x80
def hi1 (b : Nat) : Nat := if b = 0xED then 0x9F else if b = 0xF4 then 0x8F else 0xBF

theorem lo1_spec (b : Nat) : (b = 0xE0 → lo1 b = 0xA0) ∧ (b = 0xF0 → lo1 b = 0x90) ∧
    (b ≠ 0xE0 → b ≠ 0xF0 → lo1 b = 0x80) := by
  unfold lo1; refine ⟨?_, ?_, ?_⟩ <;> intros <;> simp_all

theorem hi1_spec (b : Nat) : (b = 0xED → hi1 b = 0x9F) ∧ (b = 0xF4 → hi1 b = 0x8F) ∧
    (b ≠ 0xED → b ≠ 0xF4 → hi1 b = 0xBF) := by
  unfold hi1; refine ⟨?_, ?_, ?_⟩ <;> intros <;> simp_all

theorem decode_3 (p0 : UInt8) (t : Bytes) (h : 0xE0 ≤ p0.toNat ∧ p0.toNat < 0xF0) :
    decodeRune (p0 :: t) =
      match t with
      | b1 :: b2 :: _ => if (lo1 p0.toNat ≤ b1.toNat ∧ b1.toNat ≤ hi1 p0.toNat) ∧
            (0x80 ≤ b2.toNat ∧ b2.toNat ≤ 0xBF) then
          (p0.toNat % 16 * 4096 + b1.toNat % 64 * 64 + b2.toNat % 64, 3) else (runeError, 1)
      | _ => (runeError, 1) := by
  have hx : ∃ x : UInt8, first p0 = x ∧ ¬ x ≥ 0xF0 ∧ (x &&& 7).toNat = 3 ∧
      (acceptRange (x >>> 4)).1.toNat = lo1 p0.toNat ∧ (acceptRange (x >>> 4)).2.toNat = hi1 p0.toNat := by
    rw [first_eq, if_neg (by omega), if_neg (by omega), if_neg (by omega)]
    unfold lo1 hi1
    by_cases h1 : p0.toNat = 0xE0
    · rw [if_pos h1]
      refine ⟨_, rfl, by decide, by decide, ?_, ?_⟩
      · rw [if_pos h1]; decide
      · rw [if_neg (by omega), if_neg (by omega)]; decide
    · rw [if_neg h1]
      by_cases h2 : p0.toNat = 0xED
      · rw [if_pos h2]
        refine ⟨_, rfl, by decide, by decide, ?_, ?_⟩
        · rw [if_neg (by omega), if_neg (by omega)]; decide
        · rw [if_pos h2]; decide
      · rw [if_neg h2, if_pos (by omega)]
        refine ⟨_, rfl, by decide, by decide, ?_, ?_⟩
        · rw [if_neg (by omega), if_neg (by omega)]; decide
        · rw [if_neg (by omega), if_neg (by omega)]; decide
  obtain ⟨x, h1, h2, h3, h4, h5⟩ := hx
  rcases t with _ | ⟨b1, _ | ⟨b2, t⟩⟩
  · simp [decodeRune, h1, h2, h3]
  · simp [decodeRune, h1, h2, h3]
  · simp only [decodeRune, h1, h2, h3, if_false, List.length_cons, List.getD_cons_zero,
      List.getD_cons_succ, if_true]
    rw [if_neg (by omega)]
    have e1 : (0x80 : UInt8).toNat = 128 := rfl
    have e2 : (0xBF : UInt8).toNat = 191 := rfl
    simp only [Bool.or_eq_true, decide_eq_true_eq, UInt8.lt_iff_toNat_lt, h4, h5, e1, e2]
    by_cases c1 : lo1 p0.toNat ≤ b1.toNat ∧ b1.toNat ≤ hi1 p0.toNat
    · rw [if_neg (by omega), if_neg (by omega)]
      by_cases c2 : 0x80 ≤ b2.toNat ∧ b2.toNat ≤ 0xBF
      · rw [if_neg (by omega), if_pos ⟨c1, c2⟩]
      · rw [if_pos (by omega), if_neg (fun hx => c2 hx.2)]
    · rw [if_pos (by omega), if_neg (fun hx => c1 hx.1)]

theorem decode_4 (p0 : UInt8) (t : Bytes) (h : 0xF0 ≤ p0.toNat ∧ p0.toNat < 0xF5) :
    decodeRune (p0 :: t) =
      match t with
      | b1 :: b2 :: b3 :: _ => if (lo1 p0.toNat ≤ b1.toNat ∧ b1.toNat ≤ hi1 p0.toNat) ∧
            (0x80 ≤ b2.toNat ∧ b2.toNat ≤ 0xBF) ∧ (0x80 ≤ b3.toNat ∧ b3.toNat ≤ 0xBF) then
          (p0.toNat % 8 * 262144 + b1.toNat % 64 * 4096 + b2.toNat % 64 * 64 + b3.toNat % 64, 4)
          else (runeError, 1)
      | _ => (runeError, 1) := by
  have hx : ∃ x : UInt8, first p0 = x ∧ ¬ x ≥ 0xF0 ∧ (x &&& 7).toNat = 4 ∧
      (acceptRange (x >>> 4)).1.toNat = lo1 p0.toNat ∧ (acceptRange (x >>> 4)).2.toNat = hi1 p0.toNat := by
    rw [first_eq, if_neg (by omega), if_neg (by omega), if_neg (by omega), if_neg (by omega),
      if_neg (by omega), if_neg (by omega)]
    unfold lo1 hi1
    by_cases h1 : p0.toNat = 0xF0
    · rw [if_pos h1]
      refine ⟨_, rfl, by decide, by decide, ?_, ?_⟩
      · rw [if_neg (by omega), if_pos h1]; decide
      · rw [if_neg (by omega), if_neg (by omega)]; decide
    · rw [if_neg h1]
      by_cases h2 : p0.toNat = 0xF4
      · rw [if_neg (by omega), if_pos h2]
        refine ⟨_, rfl, by decide, by decide, ?_, ?_⟩
        · rw [if_neg (by omega), if_neg (by omega)]; decide
        · rw [if_neg (by omega), if_pos h2]; decide
      · rw [if_pos (by omega)]
        refine ⟨_, rfl, by decide, by decide, ?_, ?_⟩
        · rw [if_neg (by omega), if_neg (by omega)]; decide
        · rw [if_neg (by omega), if_neg (by omega)]; decide
  obtain ⟨x, h1, h2, h3, h4, h5⟩ := hx
  rcases t with _ | ⟨b1, _ | ⟨b2, _ | ⟨b3, t⟩⟩⟩
  · simp [decodeRune, h1, h2, h3]
  · simp [decodeRune, h1, h2, h3]
  · simp [decodeRune, h1, h2, h3]
  · simp only [decodeRune, h1, h2, h3, if_false, List.length_cons, List.getD_cons_zero,
      List.getD_cons_succ]
    rw [if_neg (by omega)]
    have e1 : (0x80 : UInt8).toNat = 128 := rfl
    have e2 : (0xBF : UInt8).toNat = 191 := rfl
    simp only [Bool.or_eq_true, decide_eq_true_eq, UInt8.lt_iff_toNat_lt, h4, h5, e1, e2]
    by_cases c1 : lo1 p0.toNat ≤ b1.toNat ∧ b1.toNat ≤ hi1 p0.toNat
    · rw [if_neg (by omega), if_neg (by omega)]
      by_cases c2 : 0x80 ≤ b2.toNat ∧ b2.toNat ≤ 0xBF
      · rw [if_neg (by omega), if_neg (by omega)]
        by_cases c3 : 0x80 ≤ b3.toNat ∧ b3.toNat ≤ 0xBF
        · rw [if_neg (by omega), if_pos ⟨c1, c2, c3⟩]
        · rw [if_pos (by omega), if_neg (fun hx => c3 hx.2.2)]
      · rw [if_pos (by omega), if_neg (fun hx => c2 hx.2.1)]
    · rw [if_pos (by omega), if_neg (fun hx => c1 hx.1)]

theorem toNat_of (n : Nat) (h : n < 256) : (UInt8.ofNat n).toNat = n := by
  rw [UInt8.toNat_ofNat']; omega

/-- Decoding an encoded scalar value gives it back with its length. -/
theorem decode_encode (n : Nat) (hn : isScalar n = true) (tail : Bytes) :
    decodeRune (utf8Encode n ++ tail) = (n, (utf8Encode n).length) := by
  simp only [isScalar, Bool.or_eq_true, Bool.and_eq_true, decide_eq_true_eq] at hn
  unfold utf8Encode
  by_cases h1 : n < 0x80
  · rw [if_pos h1]
    simp only [List.cons_append, List.nil_append, List.length_cons, List.length_nil]
    rw [decode_1 _ _ (by rw [toNat_of n (by omega)]; omega), toNat_of n (by omega)]
  rw [if_neg h1]
  by_cases h2 : n < 0x800
  · rw [if_pos h2]
    simp only [List.cons_append, List.nil_append, List.length_cons, List.length_nil]
    rw [decode_2 _ _ (by rw [toNat_of _ (by omega)]; omega)]
    simp only [toNat_of (0xC0 + n / 64) (by omega), toNat_of (0x80 + n % 64) (by omega)]
    rw [if_pos (by omega)]
    simp only [Prod.mk.injEq, Nat.reduceAdd, and_true]; omega
  rw [if_neg h2]
  by_cases h3 : n < 0x10000
  · rw [if_pos h3]
    simp only [List.cons_append, List.nil_append, List.length_cons, List.length_nil]
    rw [decode_3 _ _ (by rw [toNat_of _ (by omega)]; omega)]
    simp only [toNat_of (0xE0 + n / 4096) (by omega), toNat_of (0x80 + n / 64 % 64) (by omega),
      toNat_of (0x80 + n % 64) (by omega)]
    rw [if_pos]
    · simp only [Prod.mk.injEq, Nat.reduceAdd, and_true]; omega
    · have l := lo1_spec (0xE0 + n / 4096)
      have r := hi1_spec (0xE0 + n / 4096)
      refine ⟨?_, by omega⟩
      omega
  · rw [if_neg h3]
    simp only [List.cons_append, List.nil_append, List.length_cons, List.length_nil]
    rw [decode_4 _ _ (by rw [toNat_of _ (by omega)]; omega)]
    simp only [toNat_of (0xF0 + n / 262144) (by omega), toNat_of (0x80 + n / 4096 % 64) (by omega),
      toNat_of (0x80 + n / 64 % 64) (by omega), toNat_of (0x80 + n % 64) (by omega)]
    rw [if_pos]
    · simp only [Prod.mk.injEq, Nat.reduceAdd, and_true]; omega
    · have l := lo1_spec (0xF0 + n / 262144)
      have r := hi1_spec (0xF0 + n / 262144)
      refine ⟨?_, by omega, by omega⟩
      omega

theorem ofNat_eq (b : UInt8) (n : Nat) (h : n = b.toNat) : UInt8.ofNat n = b := by
  rw [h, UInt8.ofNat_toNat]

/-- Either the input starts with the encoding of a scalar value, which is what is
decoded, or the result is the replacement character with length one. -/
theorem decode_cases (p : Bytes) (hp : p ≠ []) :
    (∃ n tail, isScalar n = true ∧ p = utf8Encode n ++ tail ∧
      decodeRune p = (n, (utf8Encode n).length)) ∨ decodeRune p = (runeError, 1) := by
  obtain ⟨p0, t, rfl⟩ : ∃ p0 t, p = p0 :: t := by cases p <;> simp_all
  have hlt := p0.toNat_lt
  have mk : ∀ n tail, isScalar n = true → p0 :: t = utf8Encode n ++ tail →
      (∃ n tail, isScalar n = true ∧ p0 :: t = utf8Encode n ++ tail ∧
      decodeRune (p0 :: t) = (n, (utf8Encode n).length)) ∨ decodeRune (p0 :: t) = (runeError, 1) := by
    intro n tail h1 h2
    exact Or.inl ⟨n, tail, h1, h2, by rw [h2]; exact decode_encode n h1 tail⟩
  by_cases h1 : p0.toNat < 0x80
  · refine mk p0.toNat t ?_ ?_
    · simp only [isScalar, Bool.or_eq_true, decide_eq_true_eq]; omega
    · unfold utf8Encode; rw [if_pos h1]; simp
  by_cases hb : p0.toNat < 0xC2 ∨ 0xF5 ≤ p0.toNat
  · exact Or.inr (decode_bad p0 t (by omega))
  by_cases h2 : p0.toNat < 0xE0
  · rw [decode_2 p0 t (by omega)] at mk ⊢
    rcases t with _ | ⟨b1, t⟩
    · exact Or.inr rfl
    · simp only at mk ⊢
      by_cases c : 0x80 ≤ b1.toNat ∧ b1.toNat ≤ 0xBF
      · refine mk (p0.toNat % 32 * 64 + b1.toNat % 64) t ?_ ?_
        · simp only [isScalar, Bool.or_eq_true, decide_eq_true_eq]; omega
        · unfold utf8Encode
          rw [if_neg (by omega), if_pos (by omega)]
          rw [ofNat_eq p0 _ (by omega), ofNat_eq b1 _ (by omega)]; rfl
      · exact Or.inr (by rw [if_neg c])
  by_cases h3 : p0.toNat < 0xF0
  · rw [decode_3 p0 t (by omega)] at mk ⊢
    rcases t with _ | ⟨b1, _ | ⟨b2, t⟩⟩
    · exact Or.inr rfl
    · exact Or.inr rfl
    · simp only at mk ⊢
      by_cases c : (lo1 p0.toNat ≤ b1.toNat ∧ b1.toNat ≤ hi1 p0.toNat) ∧ (0x80 ≤ b2.toNat ∧ b2.toNat ≤ 0xBF)
      · have hl : 0x80 ≤ b1.toNat ∧ b1.toNat ≤ 0xBF ∧ (p0.toNat = 0xE0 → 0xA0 ≤ b1.toNat) ∧
            (p0.toNat = 0xED → b1.toNat ≤ 0x9F) := by
          have := c.1
          have l := lo1_spec p0.toNat
          have r := hi1_spec p0.toNat
          omega
        refine mk (p0.toNat % 16 * 4096 + b1.toNat % 64 * 64 + b2.toNat % 64) t ?_ ?_
        · simp only [isScalar, Bool.or_eq_true, Bool.and_eq_true, decide_eq_true_eq]; omega
        · unfold utf8Encode
          rw [if_neg (by omega), if_neg (by omega), if_pos (by omega)]
          rw [ofNat_eq p0 _ (by omega), ofNat_eq b1 _ (by omega), ofNat_eq b2 _ (by omega)]; rfl
      · exact Or.inr (by rw [if_neg c])
  · rw [decode_4 p0 t (by omega)] at mk ⊢
    rcases t with _ | ⟨b1, _ | ⟨b2, _ | ⟨b3, t⟩⟩⟩
    · exact Or.inr rfl
    · exact Or.inr rfl
    · exact Or.inr rfl
    · simp only at mk ⊢
      by_cases c : (lo1 p0.toNat ≤ b1.toNat ∧ b1.toNat ≤ hi1 p0.toNat) ∧
          (0x80 ≤ b2.toNat ∧ b2.toNat ≤ 0xBF) ∧ (0x80 ≤ b3.toNat ∧ b3.toNat ≤ 0xBF)
      · have hl : 0x80 ≤ b1.toNat ∧ b1.toNat ≤ 0xBF ∧ (p0.toNat = 0xF0 → 0x90 ≤ b1.toNat) ∧
            (p0.toNat = 0xF4 → b1.toNat ≤ 0x8F) := by
          have := c.1
          have l := lo1_spec p0.toNat
          have r := hi1_spec p0.toNat
          omega
        refine mk (p0.toNat % 8 * 262144 + b1.toNat % 64 * 4096 + b2.toNat % 64 * 64 + b3.toNat % 64) t ?_ ?_
        · simp only [isScalar, Bool.or_eq_true, Bool.and_eq_true, decide_eq_true_eq]; omega
        · unfold utf8Encode
          rw [if_neg (by omega), if_neg (by omega), if_neg (by omega)]
          rw [ofNat_eq p0 _ (by omega), ofNat_eq b1 _ (by omega), ofNat_eq b2 _ (by omega),
            ofNat_eq b3 _ (by omega)]; rfl
      · exact Or.inr (by rw [if_neg c])

theorem encode_length (n : Nat) : 1 ≤ (utf8Encode n).length ∧ (utf8Encode n).length ≤ 4 := by
  unfold utf8Encode
  split
  · simp
  · split
    · simp
    · split <;> simp

/-- The replacement character with length one means no encoded scalar value is there. -/
theorem decode_error_iff (p : Bytes) (hp : p ≠ []) :
    decodeRune p = (runeError, 1) ↔ ∀ n, isScalar n = true → ¬ utf8Encode n <+: p := by
  constructor
  · rintro h n hn ⟨tail, rfl⟩
    rw [decode_encode n hn] at h
    simp only [Prod.mk.injEq] at h
    obtain ⟨h1, h2⟩ := h
    subst h1
    revert h2; decide
  · intro h
    rcases decode_cases p hp with ⟨n, tail, h1, h2, -⟩ | h2
    · exact absurd ⟨tail, h2.symm⟩ (h n h1)
    · exact h2

theorem decode_size (p : Bytes) (hp : p ≠ []) : 1 ≤ (decodeRune p).2 ∧ (decodeRune p).2 ≤ p.length := by
  have : 1 ≤ p.length := by cases p <;> simp_all
  rcases decode_cases p hp with ⟨n, tail, -, h2, h3⟩ | h2
  · rw [h3]
    have := encode_length n
    refine ⟨this.1, ?_⟩
    rw [h2, List.length_append]; exact Nat.le_add_right _ _
  · rw [h2]; exact ⟨Nat.le_refl _, this⟩

/-- Decoding looks at `runeNeed` bytes only. -/
theorem decode_take (p0 : UInt8) (t : Bytes) (k : Nat) (hk : runeNeed p0 ≤ k) :
    decodeRune ((p0 :: t).take k) = decodeRune (p0 :: t) := by
  unfold runeNeed at hk
  have hlt := p0.toNat_lt
  by_cases h1 : p0.toNat < 0x80
  · rw [if_pos (by omega)] at hk
    obtain ⟨k', rfl⟩ : ∃ k', k = k' + 1 := ⟨k - 1, by omega⟩
    rw [List.take_succ_cons, decode_1 _ _ h1, decode_1 _ _ h1]
  by_cases hb : p0.toNat < 0xC2 ∨ 0xF5 ≤ p0.toNat
  · obtain ⟨k', rfl⟩ : ∃ k', k = k' + 1 := ⟨k - 1, by split at hk <;> (try split at hk) <;> (try split at hk) <;> (try split at hk) <;> omega⟩
    rw [List.take_succ_cons, decode_bad _ _ (by omega), decode_bad _ _ (by omega)]
  rw [if_neg (by omega)] at hk
  by_cases h2 : p0.toNat < 0xE0
  · rw [if_pos h2] at hk
    obtain ⟨k', rfl⟩ : ∃ k', k = k' + 2 := ⟨k - 2, by omega⟩
    rw [List.take_succ_cons, decode_2 _ _ (by omega), decode_2 _ _ (by omega)]
    cases t <;> rfl
  rw [if_neg h2] at hk
  by_cases h3 : p0.toNat < 0xF0
  · rw [if_pos h3] at hk
    obtain ⟨k', rfl⟩ : ∃ k', k = k' + 3 := ⟨k - 3, by omega⟩
    rw [List.take_succ_cons, decode_3 _ _ (by omega), decode_3 _ _ (by omega)]
    rcases t with _ | ⟨b1, _ | ⟨b2, t⟩⟩ <;> rfl
  · rw [if_neg h3, if_pos (by omega)] at hk
    obtain ⟨k', rfl⟩ : ∃ k', k = k' + 4 := ⟨k - 4, by omega⟩
    rw [List.take_succ_cons, decode_4 _ _ (by omega), decode_4 _ _ (by omega)]
    rcases t with _ | ⟨b1, _ | ⟨b2, _ | ⟨b3, t⟩⟩⟩ <;> rfl

/-- The size `PeekRune` computes from the table. -/
theorem first_need (b : UInt8) :
    (first b ≥ 0xF0 → runeNeed b = 1) ∧ (¬ first b ≥ 0xF0 → (first b &&& 7).toNat = runeNeed b) := by
  have tab : ∀ i : Fin 256, (first (UInt8.ofNat i.val) ≥ 0xF0 → runeNeed (UInt8.ofNat i.val) = 1) ∧
      (¬ first (UInt8.ofNat i.val) ≥ 0xF0 →
        (first (UInt8.ofNat i.val) &&& 7).toNat = runeNeed (UInt8.ofNat i.val)) := by decide +kernel
  have t := tab ⟨b.toNat, b.toNat_lt⟩
  simp only [UInt8.ofNat_toNat] at t
  exact t

end Verif.Parse
