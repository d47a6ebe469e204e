import Verif.Assert.Collections
import Mathlib.Data.Int.Log
import Mathlib.Data.Rat.Floor
import Mathlib.Tactic.Positivity
import Mathlib.Tactic.FieldSimp
import Mathlib.Tactic.Ring
import Mathlib.Tactic.Linarith

/-!
# Arithmetic of `float64`

The IEEE 754 arithmetic that `InDelta` and `InEpsilon` (test/testify/assert/assertions.go) use: the exact result, rounded to the
nearest number with 53 binary digits, to even in the middle.
-/

namespace Verif.Assert

/-- The nearest integer, the even one in the middle (IEEE 754, for assertions.go 900 and 983). -/
def roundEven (x : ℚ) : ℤ :=
  let n := ⌊x⌋
  if x - n < 1 / 2 then n else if 1 / 2 < x - n then n + 1 else if n % 2 = 0 then n else n + 1

/-- The exponent of the last binary digit of a `float64` near `q` (for assertions.go 900 and 983). -/
def ulpExp (q : ℚ) : ℤ := max (Int.log 2 |q| - 52) (-1074)

/-- `|q|` rounded, without regard to overflow (for assertions.go 900 and 983). -/
def magn (q : ℚ) : ℚ := roundEven (|q| / 2 ^ ulpExp q) * 2 ^ ulpExp q

/-- Rounding to a `float64`, for conversions, differences and quotients (assertions.go 849-870, 900 and 983). -/
def rnd (q : ℚ) : Fl := if magn q < 2 ^ (1024 : ℕ) then .fin (if q < 0 then -magn q else magn q) else .inf (q < 0)

/-- `-` (assertions.go 900, 983). -/
def Fl.sub : Fl → Fl → Fl
  | .nan, _ => .nan
  | _, .nan => .nan
  | .inf s, .inf t => if s = t then .nan else .inf s
  | .inf s, .fin _ => .inf s
  | .fin _, .inf t => .inf (!t)
  | .fin a, .fin b => rnd (a - b)

/-- Negation (assertions.go 901). -/
def Fl.neg : Fl → Fl
  | .nan => .nan
  | .inf s => .inf (!s)
  | .fin a => .fin (-a)

/-- `math.Abs` (assertions.go 983). -/
def Fl.abs : Fl → Fl
  | .nan => .nan
  | .inf _ => .inf false
  | .fin a => .fin |a|

/-- `/` (assertions.go 983) of numbers that are not negative, by one that is not zero.  Simplified: dividing by zero, which
`calcRelativeError` excludes, gives NaN. -/
def Fl.div : Fl → Fl → Fl
  | .nan, _ => .nan
  | _, .nan => .nan
  | .inf _, .inf _ => .nan
  | .inf s, .fin _ => .inf s
  | .fin _, .inf _ => .fin 0
  | .fin a, .fin b => if b = 0 then .nan else rnd (a / b)

/-- `<` (assertions.go 901, 992). -/
def Fl.lt : Fl → Fl → Bool
  | .nan, _ => false
  | _, .nan => false
  | .inf s, .inf t => s && !t
  | .inf s, .fin _ => s
  | .fin _, .inf t => !t
  | .fin a, .fin b => a < b

/-! ### Facts about rounding -/

/-- The numbers a `float64` can hold. -/
def IsFloat (q : ℚ) : Prop := rnd q = .fin q

theorem floor_le_round (x : ℚ) : ⌊x⌋ ≤ roundEven x := by
  simp only [roundEven]
  split
  · exact le_refl _
  · split
    · omega
    · split <;> omega

theorem round_le_floor (x : ℚ) : roundEven x ≤ ⌊x⌋ + 1 := by
  simp only [roundEven]
  split
  · omega
  · split
    · exact le_refl _
    · split <;> omega

theorem round_int (n : ℤ) : roundEven n = n := by
  simp [roundEven]

theorem round_mono {x y : ℚ} (h : x ≤ y) : roundEven x ≤ roundEven y := by
  have hf : ⌊x⌋ ≤ ⌊y⌋ := Int.floor_le_floor h
  rcases lt_or_eq_of_le hf with hl | he
  · exact (round_le_floor x).trans ((by omega : ⌊x⌋ + 1 ≤ ⌊y⌋).trans (floor_le_round y))
  · simp only [roundEven]
    rw [he]
    have hd : x - ⌊y⌋ ≤ y - ⌊y⌋ := by linarith
    by_cases h1 : x - ⌊y⌋ < 1 / 2
    · rw [if_pos h1]
      split
      · exact le_refl _
      · split
        · omega
        · split <;> omega
    · rw [if_neg h1, if_neg (by linarith : ¬y - (⌊y⌋ : ℚ) < 1 / 2)]
      by_cases h2 : 1 / 2 < x - (⌊y⌋ : ℚ)
      · rw [if_pos h2, if_pos (by linarith : 1 / 2 < y - (⌊y⌋ : ℚ))]
      · rw [if_neg h2]
        split
        · split <;> omega
        · omega

theorem round_dist (x : ℚ) : |x - roundEven x| ≤ 1 / 2 := by
  have h0 : (⌊x⌋ : ℚ) ≤ x := Int.floor_le x
  have h1 : x < ⌊x⌋ + 1 := Int.lt_floor_add_one x
  simp only [roundEven]
  split
  · rw [abs_le]; constructor <;> linarith
  · split
    · push_cast
      rw [abs_le]; constructor <;> linarith
    · split
      · rw [abs_le]; constructor <;> linarith
      · push_cast
        rw [abs_le]; constructor <;> linarith

theorem two_pow_pos (e : ℤ) : (0 : ℚ) < 2 ^ e := zpow_pos (by norm_num) e

theorem magn_abs (q : ℚ) : magn |q| = magn q := by simp [magn, ulpExp]

theorem magn_neg (q : ℚ) : magn (-q) = magn q := by simp [magn, ulpExp]

theorem magn_nonneg (q : ℚ) : 0 ≤ magn q := by
  unfold magn
  have h : (0 : ℤ) ≤ roundEven (|q| / 2 ^ ulpExp q) := by
    have : (0 : ℚ) ≤ |q| / 2 ^ ulpExp q := div_nonneg (abs_nonneg _) (two_pow_pos _).le
    have := round_mono this
    rw [show (0 : ℚ) = ((0 : ℤ) : ℚ) by simp, round_int] at this
    exact this
  exact mul_nonneg (by exact_mod_cast h) (two_pow_pos _).le

theorem magn_zero : magn 0 = 0 := by
  have : roundEven 0 = 0 := by
    have := round_int 0
    simpa using this
  simp [magn, this]

/-- A multiple of the last digit is kept. -/
theorem magn_mul (q : ℚ) (n : ℤ) (h : |q| = n * 2 ^ ulpExp q) : magn q = |q| := by
  unfold magn
  rw [h, mul_div_assoc, div_self (two_pow_pos _).ne', mul_one, round_int]

theorem magn_mono {p q : ℚ} (hp : 0 ≤ p) (h : p ≤ q) : magn p ≤ magn q := by
  rcases eq_or_lt_of_le hp with rfl | hp0
  · rw [magn_zero]; exact magn_nonneg q
  have hq0 : 0 < q := lt_of_lt_of_le hp0 h
  have hap : |p| = p := abs_of_pos hp0
  have haq : |q| = q := abs_of_pos hq0
  have hlog : Int.log 2 p ≤ Int.log 2 q := Int.log_mono_right hp0 h
  have he : ulpExp p ≤ ulpExp q := by unfold ulpExp; rw [hap, haq]; omega
  rcases eq_or_lt_of_le he with he | he
  · unfold magn
    rw [hap, haq, he]
    have := round_mono (div_le_div_of_nonneg_right h (two_pow_pos (ulpExp q)).le)
    exact mul_le_mul_of_nonneg_right (by exact_mod_cast this) (two_pow_pos _).le
  · -- the power of two at the start of the binade of `q` is between the two
    have hq : ulpExp q = Int.log 2 q - 52 := by
      unfold ulpExp at he ⊢
      rw [haq, hap] at *
      omega
    have hlp : Int.log 2 p < Int.log 2 q := by
      unfold ulpExp at he
      rw [haq, hap] at he
      omega
    have hpl : Int.log 2 q ≥ ulpExp p := by omega
    have hpq : p ≤ 2 ^ Int.log 2 q := by
      have h1 : p < (2 : ℕ) ^ (Int.log 2 p + 1) := Int.lt_zpow_succ_log_self (by norm_num) p
      have h2 : ((2 : ℕ) : ℚ) ^ (Int.log 2 p + 1) ≤ ((2 : ℕ) : ℚ) ^ Int.log 2 q := zpow_le_zpow_right₀ (by norm_num) (by omega)
      have := h1.le.trans h2
      simpa using this
    have hqq : (2 : ℚ) ^ Int.log 2 q ≤ q := by
      have := Int.zpow_log_le_self (b := 2) (by norm_num) hq0
      simpa using this
    have a1 : magn p ≤ 2 ^ Int.log 2 q := by
      unfold magn
      rw [hap]
      have hk : ∃ k : ℤ, (2 : ℚ) ^ Int.log 2 q = k * 2 ^ ulpExp p := by
        refine ⟨2 ^ (Int.log 2 q - ulpExp p).toNat, ?_⟩
        push_cast
        rw [← zpow_natCast, ← zpow_add₀ (by norm_num)]
        congr 1
        omega
      obtain ⟨k, hk⟩ := hk
      have : p / 2 ^ ulpExp p ≤ (k : ℚ) := by
        rw [div_le_iff₀ (two_pow_pos _), ← hk]
        exact hpq
      have := round_mono this
      rw [round_int] at this
      rw [hk]
      exact mul_le_mul_of_nonneg_right (by exact_mod_cast this) (two_pow_pos _).le
    have a2 : (2 : ℚ) ^ Int.log 2 q ≤ magn q := by
      unfold magn
      rw [haq]
      have hk : (2 : ℚ) ^ Int.log 2 q = ((2 ^ 52 : ℤ) : ℚ) * 2 ^ ulpExp q := by
        rw [hq, Int.cast_pow, Int.cast_ofNat, ← zpow_natCast, ← zpow_add₀ (by norm_num)]
        congr 1
        omega
      have : ((2 ^ 52 : ℤ) : ℚ) ≤ q / 2 ^ ulpExp q := by
        rw [le_div_iff₀ (two_pow_pos _), ← hk]
        exact hqq
      have := round_mono this
      rw [round_int] at this
      rw [hk]
      exact mul_le_mul_of_nonneg_right (by exact_mod_cast this) (two_pow_pos _).le
    exact a1.trans a2

/-- Rounding moves a number by at most one part in 2⁵³, or half of the smallest number. -/
theorem magn_dist (q : ℚ) : |q| ≤ magn q + |q| / 2 ^ 53 + 2 ^ (-1075 : ℤ) := by
  rcases eq_or_lt_of_le (abs_nonneg q) with h0 | hq0
  · rw [← h0, zero_div, add_zero]
    exact add_nonneg (magn_nonneg q) (two_pow_pos _).le
  have h := round_dist (|q| / 2 ^ ulpExp q)
  rw [abs_le] at h
  have hu := two_pow_pos (ulpExp q)
  have h1 : |q| ≤ magn q + 2 ^ ulpExp q / 2 := by
    unfold magn
    have := h.2
    have h2 : |q| / 2 ^ ulpExp q * 2 ^ ulpExp q = |q| := div_mul_cancel₀ _ hu.ne'
    nlinarith
  have h2 : (2 : ℚ) ^ ulpExp q / 2 ≤ |q| / 2 ^ 53 + 2 ^ (-1075 : ℤ) := by
    by_cases hc : Int.log 2 |q| - 52 ≤ -1074
    · have : ulpExp q = -1074 := by unfold ulpExp; omega
      rw [this]
      have e1 : (2 : ℚ) ^ (-1074 : ℤ) / 2 = 2 ^ (-1075 : ℤ) := by
        rw [show (-1075 : ℤ) = -1074 - 1 by norm_num, zpow_sub_one₀ (by norm_num), div_eq_mul_inv]
      rw [e1]
      have : 0 ≤ |q| / 2 ^ 53 := by positivity
      linarith
    · have : ulpExp q = Int.log 2 |q| - 52 := by unfold ulpExp; omega
      rw [this]
      have hl : (2 : ℚ) ^ Int.log 2 |q| ≤ |q| := by
        have := Int.zpow_log_le_self (b := 2) (by norm_num) hq0
        simpa using this
      have e1 : (2 : ℚ) ^ (Int.log 2 |q| - 52) / 2 = 2 ^ Int.log 2 |q| / 2 ^ 53 := by
        rw [zpow_sub₀ (by norm_num), div_div]
        norm_num
      rw [e1]
      have h3 : (2 : ℚ) ^ Int.log 2 |q| / 2 ^ 53 ≤ |q| / 2 ^ 53 := div_le_div_of_nonneg_right hl (by positivity)
      have := two_pow_pos (-1075)
      linarith
  linarith

theorem isFloat_iff (q : ℚ) : IsFloat q ↔ magn q = |q| ∧ |q| < 2 ^ 1024 := by
  unfold IsFloat rnd
  constructor
  · intro h
    split at h
    · rename_i hlt
      injection h with h
      have : magn q = |q| := by
        split at h
        · rw [← abs_of_nonneg (magn_nonneg q), ← abs_neg, h]
        · rw [← abs_of_nonneg (magn_nonneg q), h]
      exact ⟨this, this ▸ hlt⟩
    · cases h
  · rintro ⟨h1, h2⟩
    rw [h1, if_pos h2]
    congr 1
    split
    · rename_i h; rw [abs_of_neg h, neg_neg]
    · rename_i h; exact abs_of_nonneg (not_lt.mp h)

/-- A `float64` holds all integers up to 2⁵³. -/
theorem isFloat_int (n : ℤ) (h : |n| ≤ 2 ^ 53) : IsFloat n := by
  rw [isFloat_iff]
  have hlt : |(n : ℚ)| ≤ 2 ^ 53 := by exact_mod_cast h
  constructor
  · rcases eq_or_ne n 0 with rfl | hn
    · simp [magn_zero]
    have hpos : 0 < |(n : ℚ)| := abs_pos.mpr (by exact_mod_cast hn)
    have hl : (2 : ℚ) ^ Int.log 2 |(n : ℚ)| ≤ |(n : ℚ)| := by
      have := Int.zpow_log_le_self (b := 2) (by norm_num) hpos
      simpa using this
    rcases eq_or_lt_of_le hlt with he | hl53
    · have hlog : Int.log 2 |(n : ℚ)| = 53 := by
        rw [he]
        have := Int.log_zpow (R := ℚ) (b := 2) (by norm_num) 53
        simpa using this
      have hu : ulpExp n = 1 := by unfold ulpExp; omega
      apply magn_mul _ (2 ^ 52)
      rw [hu, he]
      norm_num
    · have hlog : Int.log 2 |(n : ℚ)| ≤ 52 := by
        have : Int.log 2 |(n : ℚ)| < 53 := by
          rw [← Int.lt_zpow_iff_log_lt (by norm_num) hpos]
          exact_mod_cast hl53
        omega
      have hu : ulpExp n ≤ 0 := by unfold ulpExp; omega
      apply magn_mul _ (|n| * 2 ^ (-ulpExp (n : ℚ)).toNat)
      push_cast
      rw [mul_assoc, ← zpow_natCast, ← zpow_add₀ (by norm_num)]
      rw [show (((-ulpExp (n : ℚ)).toNat : ℕ) : ℤ) + ulpExp n = 0 by omega, zpow_zero, mul_one]
  · exact lt_of_le_of_lt hlt (pow_lt_pow_right₀ (by norm_num) (by norm_num))

theorem rnd_neg (q : ℚ) : rnd (-q) = (rnd q).neg := by
  unfold rnd
  rw [magn_neg]
  rcases lt_trichotomy q 0 with h | h | h
  · have h' : ¬(-q < 0) := by linarith
    simp only [h, h', if_true, if_false, decide_true, decide_false]
    split <;> simp [Fl.neg]
  · subst h
    simp [magn_zero, Fl.neg]
  · have h' : ¬(q < 0) := by linarith
    have h'' : -q < 0 := by linarith
    simp only [h', h'', if_true, if_false, decide_true, decide_false]
    split <;> simp [Fl.neg]

end Verif.Assert
