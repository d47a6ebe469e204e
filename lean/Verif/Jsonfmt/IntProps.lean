import Verif.Jsonfmt.IntLemmas

/-!
# C12, C13: integers are printed exactly

`CanonicalDecimal`/`CanonicalInt` (Verif/Jsonfmt/DecimalSpec.lean) say what the
canonical text of a number is, independently of the writers.  Each theorem says:
for every buffer content and every value, the writer appends such a text and
leaves the buffer in front of it untouched.
-/

namespace Verif.Jsonfmt
open Verif.Spec

/-- Helper: the canonical text is the one the reference printer gives. -/
theorem canonicalDecimal_unique (t : Bytes) (n : Nat) (h : CanonicalDecimal t n) :
    t = natDec n := by
  obtain ⟨hne, hdig, hval, hz⟩ := h
  induction n using Nat.strongRecOn generalizing t with
  | _ n ih =>
    rcases List.eq_nil_or_concat t with rfl | ⟨u, c, rfl⟩
    · exact absurd rfl hne
    simp only [List.concat_eq_append] at hne hdig hval hz ⊢
    have hc := hdig c (by simp)
    have hc1 : 48 ≤ c.toNat ∧ c.toNat ≤ 57 := by
      simp only [isDigit, Bool.and_eq_true, decide_eq_true_eq, UInt8.le_iff_toNat_le] at hc
      exact hc
    rw [decimalValue_append] at hval
    have hcv : decimalValue [c] = c.toNat - 48 := by simp [decimalValue]
    rw [hcv] at hval
    simp only [List.length_singleton, Nat.pow_one] at hval
    have hcd : c = dig n := by
      apply UInt8.toNat_inj.mp; rw [dig_toNat]; omega
    by_cases hu : u = []
    · subst hu
      have : n < 10 := by simp [decimalValue] at hval; omega
      rw [natDec]; simp [this, hcd]
    · have hu48 : u.head? ≠ some 48 := by
        intro h48
        cases u with
        | nil => exact hu rfl
        | cons a u' => have := hz (by simpa using h48); simp at this
      have hupos : 0 < decimalValue u := by
        cases u with
        | nil => exact absurd rfl hu
        | cons a u' =>
          have ha := hdig a (by simp)
          simp only [isDigit, Bool.and_eq_true, decide_eq_true_eq, UInt8.le_iff_toNat_le] at ha
          have h48 : (48 : UInt8).toNat = 48 := rfl
          have : a.toNat ≠ 48 := by
            intro hh; apply hu48; simp
            exact UInt8.toNat_inj.mp hh
          rw [show a :: u' = [a] ++ u' from rfl, decimalValue_append]
          have : 0 < decimalValue [a] := by simp [decimalValue]; omega
          have := Nat.mul_pos this (Nat.pow_pos (n := u'.length) (show 0 < 10 by decide))
          omega
      have hn : n / 10 = decimalValue u := by omega
      have := ih (n / 10) (by omega) u hu (fun x hx => hdig x (by simp [hx])) hn.symm
        (fun h => absurd h hu48)
      rw [natDec]; simp only [show ¬ n < 10 by omega, if_false]
      rw [← this, hcd]

/-- There is at most one canonical text per number. -/
theorem canonicalDecimal_inj (t t' : Bytes) (n : Nat)
    (h : CanonicalDecimal t n) (h' : CanonicalDecimal t' n) : t = t' := by
  rw [canonicalDecimal_unique t n h, canonicalDecimal_unique t' n h']

example : CanonicalDecimal (asc "1024") 1024 := by
  refine ⟨by decide, by decide, by decide, by decide⟩

/-- **C12** (uint8). -/
theorem writeUint8_exact (space : Bytes) (v : UInt8) :
    ∃ t, writeUint8 space v = space ++ t ∧ CanonicalDecimal t v.toNat := by
  refine ⟨natDec v.toNat, ?_, natDec_canonical _⟩
  have := v.toNat_lt
  unfold writeUint8
  rw [firstBuf_eq _ _ (by simp; omega)]; simp

/-- **C12** (uint16). -/
theorem writeUint16_exact (space : Bytes) (v : UInt16) :
    ∃ t, writeUint16 space v = space ++ t ∧ CanonicalDecimal t v.toNat :=
  ⟨natDec v.toNat, writeUint16_eq space v, natDec_canonical _⟩

/-- **C12** (uint64, uint, uintptr), partial: the full claim is
`∀ v, ∃ t, writeUint64 space v = space ++ t ∧ CanonicalDecimal t v.toNat`;
it holds exactly for values below 10^19 (see `writeUint64_wrong`). -/
theorem writeUint64_exact_partial (space : Bytes) (v : UInt64)
    (h : v.toNat < 10000000000000000000) :
    ∃ t, writeUint64 space v = space ++ t ∧ CanonicalDecimal t v.toNat :=
  ⟨natDec v.toNat, writeUint64_eq space v h, natDec_canonical _⟩

example : ∃ v : UInt64, v.toNat < 10000000000000000000 ∧ v.toNat > 9223372036854775807 ∧
    writeUint64 (asc "x=") v = asc "x=9999999999999999999" :=
  ⟨9999999999999999999, by decide +kernel⟩

/-- **C12** (int8), all values including -128. -/
theorem writeInt8_exact (space : Bytes) (v : Int8) :
    ∃ t, writeInt8 space v = space ++ t ∧ CanonicalInt t v.toInt := by
  have key : ∀ i : Fin 256,
      writeInt8 [] (Int8.ofInt ((i.val : Int) - 128)) =
        (if (i.val : Int) - 128 < 0 then [45] else []) ++
          writeUint8 [] (UInt8.ofNat (((i.val : Int) - 128).natAbs)) := by
    decide +kernel
  have hr1 := v.le_toInt
  have hr2 := v.toInt_lt
  have hv := key ⟨(v.toInt + 128).toNat, by omega⟩
  have e : (((v.toInt + 128).toNat : Nat) : Int) - 128 = v.toInt := by omega
  simp only [e, Int8.ofInt_toInt] at hv
  have hsp : writeInt8 space v = space ++ writeInt8 [] v := by
    unfold writeInt8; split
    · rw [writeFirstBuf_space, writeFirstBuf_space ([] ++ [45])]; simp
    · rw [writeFirstBuf_space]
  obtain ⟨t, ht, hc⟩ := writeUint8_exact [] (UInt8.ofNat v.toInt.natAbs)
  have hn : (UInt8.ofNat v.toInt.natAbs).toNat = v.toInt.natAbs := by
    simp only [UInt8.toNat_ofNat']; omega
  rw [hn] at hc
  rw [ht] at hv
  refine ⟨_, by rw [hsp, hv], ?_⟩
  unfold CanonicalInt
  split
  · simp; exact hc
  · simp; exact hc

/-- **C12** (int16), all values including -32768. -/
theorem writeInt16_exact (space : Bytes) (v : Int16) :
    ∃ t, writeInt16 space v = space ++ t ∧ CanonicalInt t v.toInt := by
  have hr1 := v.le_toInt
  have hr2 := v.toInt_lt
  have hlt : (v < 0) ↔ v.toInt < 0 := by rw [Int16.lt_iff_toInt_lt]; simp
  have hneg : v.toInt < 0 → (-v).toUInt16.toNat = v.toInt.natAbs := by
    intro h
    have h1 : (-v).toUInt16 = UInt16.ofNat v.toInt.natAbs := by
      apply UInt16.toBitVec_inj.mp
      have hb : v.toBitVec.toInt = v.toInt := rfl
      show -v.toBitVec = BitVec.ofNat 16 v.toInt.natAbs
      apply BitVec.eq_of_toInt_eq
      rw [BitVec.toInt_neg, BitVec.toInt_ofNat', hb]
      congr 1; omega
    rw [h1]; simp only [UInt16.toNat_ofNat']; omega
  have hpos : 0 ≤ v.toInt → v.toUInt16.toNat = v.toInt.natAbs := by
    intro h
    have h1 : v.toUInt16 = UInt16.ofNat v.toInt.natAbs := by
      apply UInt16.toBitVec_inj.mp
      have hb : v.toBitVec.toInt = v.toInt := rfl
      show v.toBitVec = BitVec.ofNat 16 v.toInt.natAbs
      apply BitVec.eq_of_toInt_eq
      rw [BitVec.toInt_ofNat', hb, show ((v.toInt.natAbs : Nat) : Int) = v.toInt by omega, ← hb,
        BitVec.toInt_bmod_cancel]
    rw [h1]; simp only [UInt16.toNat_ofNat']; omega
  unfold writeInt16 CanonicalInt
  by_cases h : v.toInt < 0
  · simp only [hlt, h, if_true]
    exact ⟨45 :: natDec v.toInt.natAbs, by rw [writeUint16_eq, hneg h]; simp,
      _, rfl, natDec_canonical _⟩
  · simp only [hlt, h, if_false]
    exact ⟨natDec v.toInt.natAbs, by rw [writeUint16_eq, hpos (by omega)], natDec_canonical _⟩

theorem int64_natAbs_neg (v : Int64) (h : v.toInt < 0) :
    (-v).toUInt64.toNat = v.toInt.natAbs := by
  have hr1 := v.le_toInt
  have hr2 := v.toInt_lt
  have h1 : (-v).toUInt64 = UInt64.ofNat v.toInt.natAbs := by
    apply UInt64.toBitVec_inj.mp
    have hb : v.toBitVec.toInt = v.toInt := rfl
    show -v.toBitVec = BitVec.ofNat 64 v.toInt.natAbs
    apply BitVec.eq_of_toInt_eq
    rw [BitVec.toInt_neg, BitVec.toInt_ofNat', hb]
    congr 1; omega
  rw [h1]; simp only [UInt64.toNat_ofNat']; omega

theorem int64_natAbs_pos (v : Int64) (h : 0 ≤ v.toInt) :
    v.toUInt64.toNat = v.toInt.natAbs := by
  have hr1 := v.le_toInt
  have hr2 := v.toInt_lt
  have h1 : v.toUInt64 = UInt64.ofNat v.toInt.natAbs := by
    apply UInt64.toBitVec_inj.mp
    have hb : v.toBitVec.toInt = v.toInt := rfl
    show v.toBitVec = BitVec.ofNat 64 v.toInt.natAbs
    apply BitVec.eq_of_toInt_eq
    rw [BitVec.toInt_ofNat', hb, show ((v.toInt.natAbs : Nat) : Int) = v.toInt by omega, ← hb,
      BitVec.toInt_bmod_cancel]
  rw [h1]; simp only [UInt64.toNat_ofNat']; omega

theorem int32_natAbs_neg (v : Int32) (h : v.toInt < 0) :
    (-v).toUInt32.toNat = v.toInt.natAbs := by
  have hr1 := v.le_toInt
  have hr2 := v.toInt_lt
  have h1 : (-v).toUInt32 = UInt32.ofNat v.toInt.natAbs := by
    apply UInt32.toBitVec_inj.mp
    have hb : v.toBitVec.toInt = v.toInt := rfl
    show -v.toBitVec = BitVec.ofNat 32 v.toInt.natAbs
    apply BitVec.eq_of_toInt_eq
    rw [BitVec.toInt_neg, BitVec.toInt_ofNat', hb]
    congr 1; omega
  rw [h1]; simp only [UInt32.toNat_ofNat']; omega

theorem int32_natAbs_pos (v : Int32) (h : 0 ≤ v.toInt) :
    v.toUInt32.toNat = v.toInt.natAbs := by
  have hr1 := v.le_toInt
  have hr2 := v.toInt_lt
  have h1 : v.toUInt32 = UInt32.ofNat v.toInt.natAbs := by
    apply UInt32.toBitVec_inj.mp
    have hb : v.toBitVec.toInt = v.toInt := rfl
    show v.toBitVec = BitVec.ofNat 32 v.toInt.natAbs
    apply BitVec.eq_of_toInt_eq
    rw [BitVec.toInt_ofNat', hb, show ((v.toInt.natAbs : Nat) : Int) = v.toInt by omega, ← hb,
      BitVec.toInt_bmod_cancel]
  rw [h1]; simp only [UInt32.toNat_ofNat']; omega

/-- **C12** (int64, int), all values including the most negative one. -/
theorem writeInt64_exact (space : Bytes) (v : Int64) :
    ∃ t, writeInt64 space v = space ++ t ∧ CanonicalInt t v.toInt := by
  have hr1 := v.le_toInt
  have hr2 := v.toInt_lt
  have hlt : (v < 0) ↔ v.toInt < 0 := by rw [Int64.lt_iff_toInt_lt]; simp
  unfold writeInt64 CanonicalInt
  by_cases h : v.toInt < 0
  · have hn := int64_natAbs_neg v h
    simp only [hlt, h, if_true]
    exact ⟨45 :: natDec v.toInt.natAbs, by rw [writeUint64_eq _ _ (by omega), hn]; simp,
      _, rfl, natDec_canonical _⟩
  · have hn := int64_natAbs_pos v (by omega)
    simp only [hlt, h, if_false]
    exact ⟨natDec v.toInt.natAbs, by rw [writeUint64_eq _ _ (by omega), hn], natDec_canonical _⟩

example : writeInt64 [] (-9223372036854775808) = asc "-9223372036854775808" := by decide +kernel
example : writeInt16 (asc "[") (-32768) = asc "[-32768" := by decide +kernel

/-- **C12 fails** for every uint64 of at least 10^19: the text produced is not the
decimal text of the value (the leading "digit" is byte `'0' + v / 10^18`, which is
not a digit). -/
theorem writeUint64_wrong (space : Bytes) (v : UInt64)
    (h : 10000000000000000000 ≤ v.toNat) :
    ¬ ∃ t, writeUint64 space v = space ++ t ∧ CanonicalDecimal t v.toNat := by
  have hk : (1000 : UInt64).toNat = 1000 := rfl
  have hv := v.toNat_lt
  have q : ∀ a : UInt64, (a / 1000).toNat = a.toNat / 1000 := by
    intro a; simp [UInt64.toNat_div]
  have z : ∀ a : UInt64, a = 0 ↔ a.toNat = 0 := by
    intro a; rw [← UInt64.toNat_inj]; simp
  rintro ⟨t, ht, -, hd, -, -⟩
  have hmem : (v / 1000 / 1000 / 1000 / 1000 / 1000 / 1000 + 48).toUInt8 ∈ t := by
    unfold writeUint64 at ht
    simp only [z, q] at ht
    repeat rw [if_neg (by omega)] at ht
    simp only [writeBuf, List.append_assoc, List.append_cancel_left_eq] at ht
    rw [← ht]; simp
  have := hd _ hmem
  simp only [isDigit, Bool.and_eq_true, decide_eq_true_eq, UInt8.le_iff_toNat_le,
    UInt64.toNat_toUInt8, UInt64.toNat_add, q] at this
  have h48 : (48 : UInt64).toNat = 48 := rfl
  have h57 : (57 : UInt8).toNat = 57 := rfl
  rw [h48, h57] at this
  omega

example : writeUint64 [] 18446744073709551615 = asc "B446744073709551615" := by decide +kernel

/-- **C13** (uint32), partial: the full claim is
`∀ v, ∃ t, writeUint32 space v = space ++ t ∧ CanonicalDecimal t v.toNat`;
it holds exactly for values below 10^9 (see `writeUint32_wrong`). -/
theorem writeUint32_exact_partial (space : Bytes) (v : UInt32) (h : v.toNat < 1000000000) :
    ∃ t, writeUint32 space v = space ++ t ∧ CanonicalDecimal t v.toNat :=
  ⟨natDec v.toNat, writeUint32_eq space v h, natDec_canonical _⟩

example : writeUint32 (asc "a") 999000001 = asc "a999000001" := by decide +kernel

/-- **C13 fails** for every uint32 of at least 10^9: the writer prints the value
divided by 10^6 (the last six digits are dropped). -/
theorem writeUint32_wrong (space : Bytes) (v : UInt32) (h : 1000000000 ≤ v.toNat) :
    (∃ t, writeUint32 space v = space ++ t ∧ CanonicalDecimal t (v.toNat / 1000000)) ∧
    ¬ ∃ t, writeUint32 space v = space ++ t ∧ CanonicalDecimal t v.toNat := by
  have hk : (1000 : UInt32).toNat = 1000 := rfl
  have hv := v.toNat_lt
  have q : ∀ a : UInt32, (a / 1000).toNat = a.toNat / 1000 := by
    intro a; simp [UInt32.toNat_div]
  have r : ∀ a : UInt32, (a - a / 1000 * 1000).toNat = a.toNat % 1000 := by
    intro a
    have := a.toNat_lt
    rw [UInt32.toNat_sub, UInt32.toNat_mul, q, hk]; omega
  have z : ∀ a : UInt32, a = 0 ↔ a.toNat = 0 := by
    intro a; rw [← UInt32.toNat_inj]; simp
  have first : ∃ t, writeUint32 space v = space ++ t ∧
      CanonicalDecimal t (v.toNat / 1000000) := by
    refine ⟨natDec (v.toNat / 1000000), ?_, natDec_canonical _⟩
    unfold writeUint32
    simp only [z, q]
    repeat rw [if_neg (by omega)]
    have hd : ((v / 1000 / 1000 / 1000) + 48).toUInt8 = dig (v.toNat / 1000000000) := by
      apply UInt8.toNat_inj.mp
      rw [dig_toNat]
      simp only [UInt32.toNat_toUInt8, UInt32.toNat_add, q]
      have : (48 : UInt32).toNat = 48 := rfl
      rw [this]; omega
    rw [buf_eq _ _ (by rw [r]; omega), r, hd, natDec_step (v.toNat / 1000000) (by omega),
      natDec]
    simp only [q, show v.toNat / 1000000 / 1000 < 10 by omega, if_true]
    simp only [Nat.div_div_eq_div_mul, List.append_assoc]
  refine ⟨first, ?_⟩
  rintro ⟨t', ht', hc'⟩
  obtain ⟨t, ht, hc⟩ := first
  rw [ht] at ht'
  simp only [List.append_cancel_left_eq] at ht'
  subst ht'
  have h1 := hc.2.2.1
  have h2 := hc'.2.2.1
  omega

example : writeUint32 [] 4294967295 = asc "4294" := by decide +kernel

/-- **C13** (int32), partial: holds for every value of magnitude below 10^9; outside
that range `writeUint32_wrong` applies to the magnitude (see `writeInt32_wrong`). -/
theorem writeInt32_exact_partial (space : Bytes) (v : Int32) (hb : v.toInt.natAbs < 1000000000) :
    ∃ t, writeInt32 space v = space ++ t ∧ CanonicalInt t v.toInt := by
  have hlt : (v < 0) ↔ v.toInt < 0 := by rw [Int32.lt_iff_toInt_lt]; simp
  unfold writeInt32 CanonicalInt
  by_cases h : v.toInt < 0
  · have hn := int32_natAbs_neg v h
    simp only [hlt, h, if_true]
    exact ⟨45 :: natDec v.toInt.natAbs, by rw [writeUint32_eq _ _ (by omega), hn]; simp,
      _, rfl, natDec_canonical _⟩
  · have hn := int32_natAbs_pos v (by omega)
    simp only [hlt, h, if_false]
    exact ⟨natDec v.toInt.natAbs, by rw [writeUint32_eq _ _ (by omega), hn], natDec_canonical _⟩

example : writeInt32 [] (-999999999) = asc "-999999999" := by decide +kernel

/-- **C13 fails** for every int32 of magnitude at least 10^9. -/
theorem writeInt32_wrong (space : Bytes) (v : Int32) (hb : 1000000000 ≤ v.toInt.natAbs) :
    ¬ ∃ t, writeInt32 space v = space ++ t ∧ CanonicalInt t v.toInt := by
  have hlt : (v < 0) ↔ v.toInt < 0 := by rw [Int32.lt_iff_toInt_lt]; simp
  unfold writeInt32 CanonicalInt
  by_cases h : v.toInt < 0
  · have hn := int32_natAbs_neg v h
    simp only [hlt, h, if_true]
    rintro ⟨t, ht, u, rfl, hu⟩
    refine (writeUint32_wrong (space ++ [45]) (-v).toUInt32 (by omega)).2 ⟨u, ?_, by rw [hn]; exact hu⟩
    rw [ht]; simp
  · have hn := int32_natAbs_pos v (by omega)
    simp only [hlt, h, if_false]
    rintro ⟨t, ht, hu⟩
    exact (writeUint32_wrong space v.toUInt32 (by omega)).2 ⟨t, ht, by rw [hn]; exact hu⟩

example : writeInt32 [] (-2147483648) = asc "-2147" := by decide +kernel

end Verif.Jsonfmt
