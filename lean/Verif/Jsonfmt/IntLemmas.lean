import Verif.Jsonfmt.IntModel
import Verif.Jsonfmt.DecimalSpec

/-! Helper lemmas for the integer writers. -/

namespace Verif.Jsonfmt
open Verif.Spec

/-- The byte of a decimal digit. -/
def dig (n : Nat) : UInt8 := UInt8.ofNat (n % 10 + 48)

/-- Reference decimal printer used inside the proofs (not part of any
statement; it is connected to `CanonicalDecimal` by `natDec_canonical`). -/
def natDec (n : Nat) : Bytes :=
  if n < 10 then [dig n] else natDec (n / 10) ++ [dig n]
termination_by n

def pad3 (n : Nat) : Bytes := [dig (n / 100), dig (n / 10), dig n]

theorem writeFirstBuf_space (s : Bytes) (v : UInt32) :
    writeFirstBuf s v = s ++ writeFirstBuf [] v := by
  unfold writeFirstBuf
  by_cases h : v >>> 24 = 0 <;> by_cases h' : v >>> 24 = 1 <;> simp [h, h']

theorem writeBuf_space (s : Bytes) (v : UInt32) : writeBuf s v = s ++ writeBuf [] v := by
  simp [writeBuf]

private def first3 (n : Nat) : Bytes :=
  if n < 10 then [dig n] else if n < 100 then [dig (n / 10), dig n] else pad3 n

private theorem firstBuf_table : ∀ i : Fin 1000,
    writeFirstBuf [] (digits (UInt32.ofNat i.val)) = first3 i.val := by
  decide +kernel

private theorem buf_table : ∀ i : Fin 1000,
    writeBuf [] (digits (UInt32.ofNat i.val)) = pad3 i.val := by
  decide +kernel

private theorem first3_eq (n : Nat) (h : n < 1000) : first3 n = natDec n := by
  unfold first3 pad3
  by_cases h1 : n < 10
  · rw [natDec]; simp [h1]
  · by_cases h2 : n < 100
    · rw [natDec]; simp only [h1, h2, if_true, if_false]
      rw [natDec]; simp [show n / 10 < 10 by omega]
    · rw [natDec]; simp only [h1, h2, if_false]
      rw [natDec]; simp only [show ¬ n / 10 < 10 by omega, if_false]
      rw [natDec]; simp [show n / 100 < 10 by omega, Nat.div_div_eq_div_mul]

theorem firstBuf_eq (s : Bytes) (v : UInt32) (h : v.toNat < 1000) :
    writeFirstBuf s (digits v) = s ++ natDec v.toNat := by
  rw [writeFirstBuf_space]
  have := firstBuf_table ⟨v.toNat, h⟩
  simp only [UInt32.ofNat_toNat] at this
  rw [this, first3_eq _ h]

theorem buf_eq (s : Bytes) (v : UInt32) (h : v.toNat < 1000) :
    writeBuf s (digits v) = s ++ pad3 v.toNat := by
  rw [writeBuf_space]
  have := buf_table ⟨v.toNat, h⟩
  simp only [UInt32.ofNat_toNat] at this
  rw [this]

theorem natDec_step (n : Nat) (h : 1000 ≤ n) : natDec n = natDec (n / 1000) ++ pad3 (n % 1000) := by
  rw [natDec]; simp only [show ¬ n < 10 by omega, if_false]
  rw [natDec]; simp only [show ¬ n / 10 < 10 by omega, if_false]
  rw [natDec]; simp only [show ¬ n / 10 / 10 < 10 by omega, if_false]
  simp only [pad3, dig, Nat.div_div_eq_div_mul, List.append_assoc, List.cons_append, List.nil_append]
  rw [show n % 1000 / 100 % 10 = n / 100 % 10 by omega,
      show n % 1000 / 10 % 10 = n / 10 % 10 by omega,
      show n % 1000 % 10 = n % 10 by omega]

theorem dig_toNat (n : Nat) : (dig n).toNat = n % 10 + 48 := by
  simp only [dig, UInt8.toNat_ofNat']
  omega

theorem dig_isDigit (n : Nat) : isDigit (dig n) = true := by
  have h := dig_toNat n
  simp only [isDigit, Bool.and_eq_true, decide_eq_true_eq, UInt8.le_iff_toNat_le, h]
  constructor
  · simp
  · have : n % 10 < 10 := Nat.mod_lt _ (by decide)
    have h57 : (57 : UInt8).toNat = 57 := rfl
    omega

theorem decimalValue_append (a b : Bytes) :
    decimalValue (a ++ b) = decimalValue a * 10 ^ b.length + decimalValue b := by
  have key : ∀ (b : Bytes) (x : Nat),
      b.foldl (fun acc c => 10 * acc + (c.toNat - 48)) x
        = x * 10 ^ b.length + b.foldl (fun acc c => 10 * acc + (c.toNat - 48)) 0 := by
    intro b
    induction b with
    | nil => intro x; simp
    | cons c b ih =>
      intro x
      simp only [List.foldl_cons, List.length_cons]
      rw [ih (10 * x + (c.toNat - 48)), ih (10 * 0 + (c.toNat - 48))]
      simp only [Nat.pow_succ, Nat.add_mul, Nat.mul_zero, Nat.zero_add]
      rw [show x * (10 ^ b.length * 10) = 10 * x * 10 ^ b.length by
        rw [Nat.mul_comm (10 ^ b.length) 10, ← Nat.mul_assoc, Nat.mul_comm x 10]]
      omega
  simp only [decimalValue, List.foldl_append]
  exact key b _

theorem natDec_value (n : Nat) : decimalValue (natDec n) = n := by
  induction n using Nat.strongRecOn with
  | _ n ih =>
    rw [natDec]
    split
    · simp [decimalValue, dig_toNat]; omega
    · rw [decimalValue_append, ih (n / 10) (by omega)]
      simp [decimalValue, dig_toNat]; omega

theorem natDec_ne_nil (n : Nat) : natDec n ≠ [] := by
  rw [natDec]; split <;> simp

theorem natDec_digits (n : Nat) : ∀ c ∈ natDec n, isDigit c = true := by
  induction n using Nat.strongRecOn with
  | _ n ih =>
    rw [natDec]
    split
    · intro c hc; simp at hc; subst hc; exact dig_isDigit n
    · intro c hc
      simp only [List.mem_append, List.mem_singleton] at hc
      rcases hc with hc | hc
      · exact ih (n / 10) (by omega) c hc
      · subst hc; exact dig_isDigit n

theorem natDec_head (n : Nat) (hn : 0 < n) : (natDec n).head? ≠ some 48 := by
  induction n using Nat.strongRecOn with
  | _ n ih =>
    rw [natDec]
    split
    · intro h
      simp only [List.head?_cons, Option.some.injEq] at h
      have := congrArg UInt8.toNat h
      rw [dig_toNat] at this
      have h48 : (48 : UInt8).toNat = 48 := rfl
      omega
    · rename_i h10
      have hne := natDec_ne_nil (n / 10)
      have := ih (n / 10) (by omega) (by omega)
      cases hd : natDec (n / 10) with
      | nil => exact absurd hd hne
      | cons c t => rw [hd] at this; simpa using this

theorem natDec_canonical (n : Nat) : CanonicalDecimal (natDec n) n := by
  refine ⟨natDec_ne_nil n, natDec_digits n, natDec_value n, ?_⟩
  intro h
  by_cases h0 : n = 0
  · subst h0; rw [natDec]; rfl
  · exact absurd h (natDec_head n (by omega))

theorem writeUint16_eq (s : Bytes) (v : UInt16) : writeUint16 s v = s ++ natDec v.toNat := by
  have hv := v.toNat_lt
  unfold writeUint16
  simp only
  have hq : (v / 1000).toNat = v.toNat / 1000 := by simp [UInt16.toNat_div]
  split
  · rename_i h
    have h' := congrArg UInt16.toNat h
    rw [hq] at h'; simp at h'
    rw [firstBuf_eq _ _ (by simpa using h')]; simp
  · rename_i h
    have hge : 1000 ≤ v.toNat := by
      apply Decidable.byContradiction; intro hlt
      exact h (UInt16.toNat_inj.mp (by rw [hq]; simp; omega))
    have hr : (v - v / 1000 * 1000).toNat = v.toNat % 1000 := by
      rw [UInt16.toNat_sub, UInt16.toNat_mul, hq]
      have : (1000 : UInt16).toNat = 1000 := rfl
      rw [this]; omega
    rw [firstBuf_eq _ _ (by simp [UInt16.toNat_toUInt32]; omega),
        buf_eq _ _ (by simp only [UInt16.toNat_toUInt32, hr]; omega)]
    simp only [UInt16.toNat_toUInt32, hr, hq, List.append_assoc]
    rw [← natDec_step _ hge]

theorem writeUint32_eq (s : Bytes) (v : UInt32) (hlt : v.toNat < 1000000000) :
    writeUint32 s v = s ++ natDec v.toNat := by
  have hk : (1000 : UInt32).toNat = 1000 := rfl
  have q : ∀ a : UInt32, (a / 1000).toNat = a.toNat / 1000 := by
    intro a; simp [UInt32.toNat_div]
  have r : ∀ a : UInt32, (a - a / 1000 * 1000).toNat = a.toNat % 1000 := by
    intro a
    have := a.toNat_lt
    rw [UInt32.toNat_sub, UInt32.toNat_mul, q, hk]; omega
  have z : ∀ a : UInt32, a = 0 ↔ a.toNat = 0 := by
    intro a; rw [← UInt32.toNat_inj]; simp
  unfold writeUint32
  simp only [z, q]
  split
  · rw [firstBuf_eq _ _ (by omega)]
  split
  · rw [firstBuf_eq _ _ (by rw [q]; omega), buf_eq _ _ (by rw [r]; omega), q, r,
      natDec_step v.toNat (by omega)]
    simp
  split
  · rw [firstBuf_eq _ _ (by rw [q, q]; omega), buf_eq _ _ (by rw [r]; omega),
      buf_eq _ _ (by rw [r]; omega), r, r, q, q,
      natDec_step v.toNat (by omega), natDec_step (v.toNat / 1000) (by omega)]
    simp
  · omega

theorem writeUint64_eq (s : Bytes) (v : UInt64) (hlt : v.toNat < 10000000000000000000) :
    writeUint64 s v = s ++ natDec v.toNat := by
  have hk : (1000 : UInt64).toNat = 1000 := rfl
  have q : ∀ a : UInt64, (a / 1000).toNat = a.toNat / 1000 := by
    intro a; simp [UInt64.toNat_div]
  have r : ∀ a : UInt64, (a - a / 1000 * 1000).toNat = a.toNat % 1000 := by
    intro a
    have := a.toNat_lt
    rw [UInt64.toNat_sub, UInt64.toNat_mul, q, hk]; omega
  have z : ∀ a : UInt64, a = 0 ↔ a.toNat = 0 := by
    intro a; rw [← UInt64.toNat_inj]; simp
  have c : ∀ a : UInt64, a.toNat < 1000 → a.toUInt32.toNat = a.toNat := by
    intro a h; simp; omega
  have f : ∀ (s : Bytes) (a : UInt64), a.toNat < 1000 →
      writeFirstBuf s (digits a.toUInt32) = s ++ natDec a.toNat := by
    intro s a h; rw [firstBuf_eq _ _ (by rw [c a h]; exact h), c a h]
  have b : ∀ (s : Bytes) (a : UInt64), a.toNat < 1000 →
      writeBuf s (digits a.toUInt32) = s ++ pad3 a.toNat := by
    intro s a h; rw [buf_eq _ _ (by rw [c a h]; exact h), c a h]
  have br : ∀ (s : Bytes) (a : UInt64),
      writeBuf s (digits (a - a / 1000 * 1000).toUInt32) = s ++ pad3 (a.toNat % 1000) := by
    intro s a
    rw [b _ _ (by rw [r]; omega), r]
  unfold writeUint64
  simp only [z, q, br]
  split
  · rw [f _ _ (by omega)]
  split
  · rw [f _ _ (by simp only [q]; omega), q, natDec_step v.toNat (by omega)]; simp
  split
  · rw [f _ _ (by simp only [q]; omega), q, q, natDec_step v.toNat (by omega),
      natDec_step (v.toNat / 1000) (by omega)]; simp
  split
  · rw [f _ _ (by simp only [q]; omega)]
    simp only [q]
    rw [natDec_step v.toNat (by omega),
      natDec_step (v.toNat / 1000) (by omega), natDec_step (v.toNat / 1000 / 1000) (by omega)]; simp
  split
  · rw [f _ _ (by simp only [q]; omega)]
    simp only [q]
    rw [natDec_step v.toNat (by omega),
      natDec_step (v.toNat / 1000) (by omega), natDec_step (v.toNat / 1000 / 1000) (by omega),
      natDec_step (v.toNat / 1000 / 1000 / 1000) (by omega)]; simp
  · split
    · rw [f _ _ (by simp only [q]; omega)]
      simp only [q]
      rw [natDec_step v.toNat (by omega),
        natDec_step (v.toNat / 1000) (by omega), natDec_step (v.toNat / 1000 / 1000) (by omega),
        natDec_step (v.toNat / 1000 / 1000 / 1000) (by omega),
        natDec_step (v.toNat / 1000 / 1000 / 1000 / 1000) (by omega)]; simp
    · have h6 : (v / 1000 / 1000 / 1000 / 1000 / 1000 / 1000).toNat < 10 := by
        simp only [q]; omega
      have hd : ((v / 1000 / 1000 / 1000 / 1000 / 1000 / 1000) + 48).toUInt8 =
          dig (v / 1000 / 1000 / 1000 / 1000 / 1000 / 1000).toNat := by
        apply UInt8.toNat_inj.mp
        rw [dig_toNat]
        simp only [UInt64.toNat_toUInt8, UInt64.toNat_add]
        have : (48 : UInt64).toNat = 48 := rfl
        rw [this]; omega
      rw [hd]
      simp only [q] at h6 ⊢
      rw [natDec_step v.toNat (by omega),
        natDec_step (v.toNat / 1000) (by omega), natDec_step (v.toNat / 1000 / 1000) (by omega),
        natDec_step (v.toNat / 1000 / 1000 / 1000) (by omega),
        natDec_step (v.toNat / 1000 / 1000 / 1000 / 1000) (by omega),
        natDec_step (v.toNat / 1000 / 1000 / 1000 / 1000 / 1000) (by omega)]
      rw [natDec.eq_def (v.toNat / 1000 / 1000 / 1000 / 1000 / 1000 / 1000)]
      simp only [h6, if_true]
      simp

end Verif.Jsonfmt
