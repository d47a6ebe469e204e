import Verif.Jsonfmt.FloatModel
import Verif.Jsonfmt.IntLemmas

/-!
# C19: floats are printed to six decimals without distortion
-/

namespace Verif.Spec

/-- `t` is the shortest plain decimal text of `n / 10^6`: a canonical integer part
and, unless the fraction is zero, a point and at most six digits not ending in
`0`. -/
def SixDecimals (t : Bytes) (n : Nat) : Prop :=
  ∃ ip fr, t = ip ++ fr ∧ CanonicalDecimal ip (n / 1000000) ∧
    ((n % 1000000 = 0 ∧ fr = []) ∨
     (n % 1000000 ≠ 0 ∧ ∃ ds, fr = 46 :: ds ∧ (∀ c ∈ ds, isDigit c = true) ∧ ds ≠ [] ∧
        ds.length ≤ 6 ∧ ds.getLast? ≠ some 48 ∧
        decimalValue ds * 10 ^ (6 - ds.length) = n % 1000000))

end Verif.Spec

namespace Verif.Jsonfmt
open Verif.Spec

/-- Six digits of `f` (helper). -/
def pad6 (f : Nat) : Bytes :=
  [dig (f / 100000), dig (f / 10000), dig (f / 1000), dig (f / 100), dig (f / 10), dig f]

theorem dig_small (n : Nat) (h : n % 10 = 0) : dig n = 48 := by
  apply UInt8.toNat_inj.mp; rw [dig_toNat, h]; rfl

theorem padLoop_write (sp : Bytes) (f : UInt64) (h : f.toNat < 1000000) :
    writeUint64 (padLoop sp f 5) f = sp ++ pad6 f.toNat := by
  rw [writeUint64_eq _ _ (by omega)]
  have lt : ∀ a : UInt64, f < a ↔ f.toNat < a.toNat := fun a => UInt64.lt_iff_toNat_lt
  have e5 : pow10.getD 5 0 = 100000 := rfl
  have e4 : pow10.getD 4 0 = 10000 := rfl
  have e3 : pow10.getD 3 0 = 1000 := rfl
  have e2 : pow10.getD 2 0 = 100 := rfl
  have e1 : pow10.getD 1 0 = 10 := rfl
  have n5 : (100000 : UInt64).toNat = 100000 := rfl
  have n4 : (10000 : UInt64).toNat = 10000 := rfl
  have n3 : (1000 : UInt64).toNat = 1000 := rfl
  have n2 : (100 : UInt64).toNat = 100 := rfl
  have n1 : (10 : UInt64).toNat = 10 := rfl
  simp only [padLoop, Nat.zero_add, Nat.reduceAdd, lt, e1, e2, e3, e4, e5, n1, n2, n3, n4, n5]
  generalize f.toNat = n at *
  unfold pad6
  by_cases h5 : n < 100000
  · by_cases h4 : n < 10000
    · by_cases h3 : n < 1000
      · by_cases h2 : n < 100
        · by_cases h1 : n < 10
          · simp only [h5, h4, h3, h2, h1, if_true]
            rw [natDec, if_pos h1, dig_small (n/100000) (by omega), dig_small (n/10000) (by omega),
              dig_small (n/1000) (by omega), dig_small (n/100) (by omega), dig_small (n/10) (by omega)]
            simp
          · simp only [h5, h4, h3, h2, h1, if_true, if_false]
            rw [natDec, if_neg h1, natDec, if_pos (by omega),
              dig_small (n/100000) (by omega), dig_small (n/10000) (by omega),
              dig_small (n/1000) (by omega), dig_small (n/100) (by omega)]
            simp
        · simp only [h5, h4, h3, h2, if_true, if_false]
          rw [natDec, if_neg (by omega), natDec, if_neg (by omega), natDec, if_pos (by omega),
              dig_small (n/100000) (by omega), dig_small (n/10000) (by omega),
              dig_small (n/1000) (by omega)]
          simp [Nat.div_div_eq_div_mul]
      · simp only [h5, h4, h3, if_true, if_false]
        rw [natDec, if_neg (by omega), natDec, if_neg (by omega), natDec, if_neg (by omega),
          natDec, if_pos (by omega),
              dig_small (n/100000) (by omega), dig_small (n/10000) (by omega)]
        simp [Nat.div_div_eq_div_mul]
    · simp only [h5, h4, if_true, if_false]
      rw [natDec, if_neg (by omega), natDec, if_neg (by omega), natDec, if_neg (by omega),
        natDec, if_neg (by omega), natDec, if_pos (by omega), dig_small (n/100000) (by omega)]
      simp [Nat.div_div_eq_div_mul]
  · simp only [h5, if_false]
    rw [natDec, if_neg (by omega), natDec, if_neg (by omega), natDec, if_neg (by omega),
        natDec, if_neg (by omega), natDec, if_neg (by omega), natDec, if_pos (by omega)]
    simp [Nat.div_div_eq_div_mul]

theorem pad6_value (f : Nat) (h : f < 1000000) : decimalValue (pad6 f) = f := by
  simp only [pad6, decimalValue, List.foldl_cons, List.foldl_nil, dig_toNat]
  omega

theorem pad6_digits (f : Nat) : ∀ c ∈ pad6 f, isDigit c = true := by
  intro c hc
  simp only [pad6, List.mem_cons, List.not_mem_nil, or_false] at hc
  rcases hc with rfl | rfl | rfl | rfl | rfl | rfl <;> exact dig_isDigit _

/-- Trimming after the point keeps the point and strips exactly the final zeros. -/
theorem trim_spec (a ds : Bytes) : ∃ z, ∃ t, ds = t ++ List.replicate z 48 ∧
    t.getLast? ≠ some 48 ∧ (trimZeros (a ++ 46 :: ds) = a ++ 46 :: t) := by
  refine ⟨(ds.reverse.takeWhile (· = 48)).length, (ds.reverse.dropWhile (· = 48)).reverse, ?_, ?_, ?_⟩
  · have h1 := List.takeWhile_append_dropWhile (p := fun c : UInt8 => decide (c = 48)) (l := ds.reverse)
    have h2 : ds.reverse.takeWhile (fun c => decide (c = 48)) =
        List.replicate (ds.reverse.takeWhile (fun c => decide (c = 48))).length 48 := by
      apply List.eq_replicate_of_mem
      intro b hb
      have := List.all_eq_true.mp List.all_takeWhile b hb
      simpa using this
    have h3 := congrArg List.reverse h1
    rw [List.reverse_append, List.reverse_reverse] at h3
    rw [h2] at h3
    simp only [List.reverse_replicate] at h3
    exact h3.symm
  · rw [List.getLast?_reverse]
    intro hh
    have hne : ds.reverse.dropWhile (fun c => decide (c = 48)) ≠ [] := by
      intro he; rw [he] at hh; simp at hh
    have := List.head_dropWhile_not (fun c : UInt8 => decide (c = 48)) hne
    rw [List.head?_eq_some_head hne] at hh
    simp only [Option.some.injEq] at hh
    rw [hh] at this
    simp at this
  · unfold trimZeros
    rw [List.reverse_append, List.reverse_cons, List.append_assoc]
    have : ∀ l : Bytes, (l ++ ([46] ++ a.reverse)).dropWhile (fun c => decide (c = 48)) =
        l.dropWhile (fun c => decide (c = 48)) ++ ([46] ++ a.reverse) := by
      intro l
      induction l with
      | nil => simp
      | cons c l ih =>
        simp only [List.cons_append, List.dropWhile_cons]
        split
        · exact ih
        · simp
    rw [this]
    simp

theorem decimalValue_zeros (z : Nat) : decimalValue (List.replicate z 48) = 0 := by
  induction z with
  | zero => rfl
  | succ z ih =>
    rw [List.replicate_succ, show (48 : UInt8) :: List.replicate z 48 = [48] ++ List.replicate z 48 from rfl,
      decimalValue_append, ih]
    simp [decimalValue]

/-- C19 (printing): from the rounded magnitude `lval` on, the text appended is the
shortest decimal text of `lval / 10^6`, for every 64 bit `lval`. -/
theorem writeLossyTail_exact (space : Bytes) (lval : UInt64) :
    ∃ t, writeLossyTail space lval = space ++ t ∧ SixDecimals t lval.toNat := by
  have hl := lval.toNat_lt
  have hk : (1000000 : UInt64).toNat = 1000000 := rfl
  have hd : (lval / 1000000).toNat = lval.toNat / 1000000 := by rw [UInt64.toNat_div, hk]
  have hm : (lval % 1000000).toNat = lval.toNat % 1000000 := by rw [UInt64.toNat_mod, hk]
  have hz : lval % 1000000 = 0 ↔ lval.toNat % 1000000 = 0 := by
    rw [← UInt64.toNat_inj, hm]; simp
  unfold writeLossyTail
  simp only [hz]
  rw [writeUint64_eq _ _ (by omega), hd]
  split
  · rename_i h
    exact ⟨_, rfl, natDec (lval.toNat / 1000000), [], by simp, natDec_canonical _, Or.inl ⟨h, rfl⟩⟩
  · rename_i h
    rw [padLoop_write _ _ (by omega), hm, List.append_assoc, List.append_assoc]
    obtain ⟨z, t, ht, hlast, htrim⟩ := trim_spec (space ++ natDec (lval.toNat / 1000000))
      (pad6 (lval.toNat % 1000000))
    have hval := pad6_value (lval.toNat % 1000000) (by omega)
    have hlen : t.length + z = 6 := by
      have := congrArg List.length ht
      simpa [pad6] using this.symm
    have hval' : decimalValue t * 10 ^ z = lval.toNat % 1000000 := by
      rw [← hval, ht, decimalValue_append, decimalValue_zeros]; simp
    refine ⟨natDec (lval.toNat / 1000000) ++ 46 :: t, ?_, natDec (lval.toNat / 1000000), 46 :: t,
      rfl, natDec_canonical _, Or.inr ⟨h, t, rfl, ?_, ?_, by omega, hlast, ?_⟩⟩
    · have := htrim
      simp only [List.append_assoc, List.cons_append, List.nil_append] at this ⊢
      exact this
    · intro c hc
      exact pad6_digits _ c (by rw [ht]; simp [hc])
    · rintro rfl
      simp [decimalValue] at hval'; omega
    · rw [show 6 - t.length = z by omega]; exact hval'

example : writeLossyTail (asc "v=") 1002300 = asc "v=1.0023" := by decide +kernel
example : writeLossyTail [] 83886079000001 = asc "83886079.000001" := by decide +kernel

theorem up_bound (x w r m : Nat) (hdm : x + r = m) (hr : r < 2 * w)
    (hlow : w * 9007199254740992 ≤ m) (hc : w ≤ r) :
    (x + 2 * w) * 9007199254740992 ≤ m * 9007199254740992 + m ∧
      m * 9007199254740992 ≤ (x + 2 * w) * 9007199254740992 + m := by omega

theorem down_bound (x w r m : Nat) (hdm : x + r = m)
    (hlow : w * 9007199254740992 ≤ m) (hc : r ≤ w) :
    x * 9007199254740992 ≤ m * 9007199254740992 + m ∧
      m * 9007199254740992 ≤ x * 9007199254740992 + m := by omega

/-- The arithmetic of the model is that of IEEE 754 doubles: the result has at most 53 significant bits, no such number on its
grid is nearer, and of two equally near ones it is the one with an even significand. -/
theorem round53_ieee (m : Nat) : ∃ q s, round53 m = q * 2 ^ s ∧ q ≤ 2 ^ 53 ∧ (s ≠ 0 → 2 ^ 52 ≤ q) ∧ (m < 2 ^ 53 → s = 0) ∧
    2 * round53 m ≤ 2 * m + 2 ^ s ∧ 2 * m ≤ 2 * round53 m + 2 ^ s ∧
    (2 * round53 m = 2 * m + 2 ^ s ∨ 2 * m = 2 * round53 m + 2 ^ s → q % 2 = 0) := by
  have hs : m < 2 ^ 53 → m.log2 + 1 - 53 = 0 := by
    intro h
    by_cases h0 : m = 0
    · subst h0; rfl
    · have := (Nat.log2_lt h0).mpr h; omega
  have hq : m / 2 ^ (m.log2 + 1 - 53) < 2 ^ 53 := by
    rw [Nat.div_lt_iff_lt_mul (Nat.two_pow_pos _), ← Nat.pow_add]
    refine Nat.lt_of_lt_of_le Nat.lt_log2_self (Nat.pow_le_pow_right (by omega) (by omega))
  have hlow : m.log2 + 1 - 53 ≠ 0 → 2 ^ 52 ≤ m / 2 ^ (m.log2 + 1 - 53) := by
    intro h
    rw [Nat.le_div_iff_mul_le (Nat.two_pow_pos _), ← Nat.pow_add, show 52 + (m.log2 + 1 - 53) = m.log2 by omega]
    exact Nat.log2_self_le (by rintro rfl; simp at h)
  unfold round53
  simp only
  generalize m.log2 + 1 - 53 = s at *
  have hdm := Nat.div_add_mod m (2 ^ s)
  have hlt := Nat.mod_lt m (Nat.two_pow_pos s)
  rw [Nat.mul_comm] at hdm
  generalize m / 2 ^ s = q at *
  generalize m % 2 ^ s = r at *
  have hodd : s = 0 → r = 0 := by intro h; subst h; omega
  have hadd : (q + 1) * 2 ^ s = q * 2 ^ s + 2 ^ s := by rw [Nat.add_mul, Nat.one_mul]
  generalize hx : 2 ^ s = x at *
  split
  · rename_i h
    refine ⟨q + 1, s, by rw [hx], by omega, fun h => Nat.le_succ_of_le (hlow h), hs, ?_⟩
    rw [hadd]
    generalize q * x = y at *
    refine ⟨by omega, by omega, by omega⟩
  · rename_i h
    refine ⟨q, s, by rw [hx], by omega, hlow, hs, ?_⟩
    generalize q * x = y at *
    refine ⟨by omega, by omega, by omega⟩

/-- A tie. -/
example : round53 (2 ^ 53 + 1) = 2 ^ 53 ∧ round53 (2 ^ 53 + 3) = 2 ^ 53 + 4 := by decide

/-- Rounding to 53 bits has relative error at most 2^-53. -/
theorem round53_error (m : Nat) :
    round53 m * 2 ^ 53 ≤ m * 2 ^ 53 + m ∧ m * 2 ^ 53 ≤ round53 m * 2 ^ 53 + m := by
  unfold round53
  simp only
  generalize hs : m.log2 + 1 - 53 = s
  by_cases hs0 : s = 0
  · subst hs0
    simp only [Nat.pow_zero, Nat.div_one, Nat.mod_one, Nat.mul_zero, Nat.mul_one]
    rw [if_neg (by omega)]; omega
  · -- m has s + 53 bits
    have hm0 : m ≠ 0 := by
      intro h; subst h; simp at hs; omega
    have hlog : m.log2 = s + 52 := by omega
    have hlow : 2 ^ (s + 52) ≤ m := by rw [← hlog]; exact Nat.log2_self_le hm0
    have hpow : (2 : Nat) ^ s = 2 * 2 ^ (s - 1) := by
      conv => lhs; rw [show s = (s - 1) + 1 by omega]
      rw [Nat.pow_succ]; omega
    have hlow' : 2 ^ (s - 1) * 2 ^ 53 ≤ m := by
      rw [← Nat.pow_add, show s - 1 + 53 = s + 52 by omega]; exact hlow
    have hdm := Nat.div_add_mod m (2 ^ s)
    have hr := Nat.mod_lt m (show 0 < 2 ^ s from Nat.pow_pos (by decide))
    generalize hq : m / 2 ^ s = q at *
    generalize hrr : m % 2 ^ s = r at *
    generalize h1 : (2 : Nat) ^ (s - 1) = w at *
    rw [hpow] at hr hdm ⊢
    have hmul : 2 * w * q = q * (2 * w) := Nat.mul_comm _ _
    rw [hmul] at hdm
    have hexp : (q + 1) * (2 * w) = q * (2 * w) + 2 * w := by rw [Nat.add_mul, Nat.one_mul]
    have h53 : (2 : Nat) ^ 53 = 9007199254740992 := by decide
    rw [h53] at hlow' ⊢
    clear hlow hq hrr h1 hpow hs hlog h53
    split
    · rename_i hc
      rw [hexp]
      exact up_bound _ w r m hdm hr hlow' (by omega)
    · rename_i hc
      exact down_bound _ w r m hdm hlow' (by omega)

/-- C19 (rounding): for every magnitude `m / 2^k` in the lossy range, the number
`lossyLval m k / 10^6` that is printed differs from it by at most 0.54 units of the
sixth decimal. -/
theorem lossyLval_error (m k : Nat) (h : m ≤ 83886079 * 2 ^ k) :
    100 * (lossyLval m k * 2 ^ k) ≤ 100 * (m * 1000000) + 54 * 2 ^ k ∧
    100 * (m * 1000000) ≤ 100 * (lossyLval m k * 2 ^ k) + 54 * 2 ^ k := by
  unfold lossyLval
  simp only
  have e1 := round53_error (m * 1000000)
  generalize hp : round53 (m * 1000000) = p at *
  have e2 := round53_error (2 * p + 2 ^ k)
  generalize hq : round53 (2 * p + 2 ^ k) = q at *
  have hdm := Nat.div_add_mod q (2 ^ (k + 1))
  have hr := Nat.mod_lt q (show 0 < 2 ^ (k + 1) from Nat.pow_pos (by decide))
  generalize q / 2 ^ (k + 1) = l at *
  generalize q % 2 ^ (k + 1) = r at *
  have hmul : 2 ^ (k + 1) * l = 2 * (l * 2 ^ k) := by
    rw [Nat.pow_succ, Nat.mul_comm (2 ^ k) 2, Nat.mul_assoc, Nat.mul_comm (2 ^ k)]
  rw [hmul] at hdm
  rw [Nat.pow_succ] at hr
  generalize l * 2 ^ k = x at *
  generalize (2 : Nat) ^ k = w at *
  omega

/-- The decimal point position: 1.5 as m = 3, k = 1; the hypothesis holds up to 83886079. -/
example : (3 : Nat) ≤ 83886079 * 2 ^ 1 ∧ lossyLval 3 1 = 1500000 := by decide +kernel

/-- C19 (partial): a value whose millionths are within 0.45 of a whole number `n`
(in particular the double nearest to any decimal with up to six decimals) is
printed as exactly `n / 10^6`, with a minus sign iff negative.  Missing: values near
a tie, where the claim is false (`lossy_tie_wrong`), and values above 0x4ffffff. -/
theorem writeFloatLossy_exact_partial (space : Bytes) (neg : Bool) (m k n : Nat)
    (h : m ≤ 83886079 * 2 ^ k)
    (hn1 : 100 * (n * 2 ^ k) ≤ 100 * (m * 1000000) + 45 * 2 ^ k)
    (hn2 : 100 * (m * 1000000) ≤ 100 * (n * 2 ^ k) + 45 * 2 ^ k) :
    ∃ t, writeFloatLossy space neg m k = space ++ (if neg then [45] else []) ++ t ∧
      SixDecimals t n := by
  have he := lossyLval_error m k h
  have hw : 0 < 2 ^ k := Nat.pow_pos (by decide)
  have hln : lossyLval m k = n := by
    generalize lossyLval m k = l at *
    rcases Nat.lt_trichotomy l n with hlt | heq | hgt
    · exfalso
      have : (l + 1) * 2 ^ k ≤ n * 2 ^ k := Nat.mul_le_mul_right _ hlt
      rw [Nat.add_mul, Nat.one_mul] at this
      omega
    · exact heq
    · exfalso
      have : (n + 1) * 2 ^ k ≤ l * 2 ^ k := Nat.mul_le_mul_right _ hgt
      rw [Nat.add_mul, Nat.one_mul] at this
      omega
  have hbound : n < 2 ^ 64 := by
    have : n * 2 ^ k < 100000000000000 * 2 ^ k := by
      have : m * 1000000 ≤ 83886079 * 2 ^ k * 1000000 := Nat.mul_le_mul_right _ h
      omega
    have := Nat.lt_of_mul_lt_mul_right this
    omega
  unfold writeFloatLossy
  simp only [hln]
  obtain ⟨t, ht, hs⟩ := writeLossyTail_exact (if neg then space ++ [45] else space) (UInt64.ofNat n)
  have hto : (UInt64.ofNat n).toNat = n := by
    rw [UInt64.toNat_ofNat']; omega
  rw [hto] at hs
  refine ⟨t, ?_, hs⟩
  rw [ht]
  cases neg <;> simp

/-- The double nearest to 0.1 is 3602879701896397 / 2^55. -/
example : writeFloatLossy [] true 3602879701896397 55 = asc "-0.1" := by decide +kernel

/-- C19, negation near ties: the double nearest to 0.0000005 lies strictly below
half a unit of the sixth decimal, yet prints as 0.000001. -/
theorem lossy_tie_wrong :
    writeFloatLossy [] false 4722366482869645 73 = asc "0.000001" ∧
    2 * (4722366482869645 * 1000000) < 2 ^ 73 := by decide +kernel

end Verif.Jsonfmt
