import Verif.Jsonfmt.ValSpec
import Verif.Jsonfmt.IntProps
import Verif.Jsonfmt.StrProps
import Verif.Jsonfmt.FloatProps

/-! Lemmas for C17: scalars and keys parse back. -/

namespace Verif.Jsonfmt
open Verif.Spec

/-- What may follow a value: not a digit, not a point. -/
def NumEnd (rest : Bytes) : Prop := ∀ c r, rest = c :: r → isDigit c = false ∧ c ≠ 46

theorem numEnd_cons (c : UInt8) (r : Bytes) (h : isDigit c = false) (h' : c ≠ 46) :
    NumEnd (c :: r) := by
  intro c' r' he; simp only [List.cons.injEq] at he; rw [← he.1]; exact ⟨h, h'⟩

theorem numEnd_nil : NumEnd [] := by intro c r h; simp at h

theorem span_digits (t rest : Bytes) (ht : ∀ c ∈ t, isDigit c = true)
    (hr : ∀ c r, rest = c :: r → isDigit c = false) :
    spanDigits (t ++ rest) = (t, rest) := by
  unfold spanDigits
  rw [List.takeWhile_append_of_pos ht, List.dropWhile_append_of_pos ht]
  cases rest with
  | nil => simp
  | cons c r => have := hr c r rfl; simp [this]

theorem parseUnsigned_int (t rest : Bytes) (n : Nat) (ht : CanonicalDecimal t n)
    (hr : NumEnd rest) : parseUnsigned (t ++ rest) = some ((n, 0), rest) := by
  obtain ⟨hne, hd, hv, hz⟩ := ht
  unfold parseUnsigned
  rw [span_digits t rest hd (fun c r h => (hr c r h).1)]
  simp only
  rw [if_neg]
  · cases rest with
    | nil => simp [hv]
    | cons c r =>
      have := (hr c r rfl).2
      split
      · rename_i heq; simp only [List.cons.injEq] at heq; exact absurd heq.1 this
      · simp [hv]
  · rintro (h | ⟨h1, h2⟩)
    · exact hne h
    · exact h2 (hz h1)

theorem parseUnsigned_frac (ip ds rest : Bytes) (n : Nat) (ht : CanonicalDecimal ip n)
    (hd : ∀ c ∈ ds, isDigit c = true) (hds : ds ≠ []) (hr : NumEnd rest) :
    parseUnsigned (ip ++ 46 :: ds ++ rest) = some ((decimalValue (ip ++ ds), ds.length), rest) := by
  obtain ⟨hne, hd', hv, hz⟩ := ht
  unfold parseUnsigned
  rw [List.append_assoc, List.cons_append, span_digits ip (46 :: (ds ++ rest)) hd'
    (fun c r h => by simp only [List.cons.injEq] at h; rw [← h.1]; decide)]
  simp only
  rw [if_neg]
  · rw [span_digits ds rest hd (fun c r h => (hr c r h).1)]
    simp [hds]
  · rintro (h | ⟨h1, h2⟩)
    · exact hne h
    · exact h2 (hz h1)

/-- A text starting with a digit or a minus sign is read as a number. -/
theorem parseValue_number (f : Nat) (c : UInt8) (s : Bytes) (h : isDigit c = true ∨ c = 45) :
    parseValue (f + 1) (c :: s) = parseNumber (c :: s) := by
  have hne : ∀ x : UInt8, isDigit x = false → x ≠ 45 → c ≠ x := by
    intro x hx hx' hc; subst hc
    rcases h with h | h
    · rw [hx] at h; exact Bool.noConfusion h
    · exact hx' h
  have h1 := hne 110 (by decide) (by decide)
  have h2 := hne 116 (by decide) (by decide)
  have h3 := hne 102 (by decide) (by decide)
  have h4 := hne 34 (by decide) (by decide)
  have h5 := hne 91 (by decide) (by decide)
  have h6 := hne 123 (by decide) (by decide)
  rw [parseValue.eq_def]
  simp only
  split <;> first | rfl | (simp_all)

theorem isDigit_ne45 (c : UInt8) (h : isDigit c = true) : c ≠ 45 := by
  intro hc; subst hc; exact absurd h (by decide)

theorem parseNumber_pos (c : UInt8) (s : Bytes) (h : c ≠ 45) :
    parseNumber (c :: s) =
      match parseUnsigned (c :: s) with
      | some ((m, e), r) => some (.num (mkRat (m : Int) (10 ^ e)), r)
      | none => none := by
  rw [parseNumber.eq_def]
  split
  · rename_i heq; simp only [List.cons.injEq] at heq; exact absurd heq.1 h
  · rfl

theorem parse_int (z : Int) (f : Nat) (rest : Bytes) (hr : NumEnd rest) :
    parseValue (f + 1) (intText z ++ rest) = some (.num (mkRat z 1), rest) := by
  have hc := natDec_canonical z.natAbs
  unfold intText
  split
  · rename_i h
    rw [List.cons_append, parseValue_number f 45 _ (Or.inr rfl), parseNumber,
      parseUnsigned_int _ rest _ hc hr]
    simp only [Nat.pow_zero]
    rw [show -((z.natAbs : Nat) : Int) = z by omega]
  · rename_i h
    obtain ⟨c, s, hcs⟩ : ∃ c s, natDec z.natAbs = c :: s := by
      cases hn : natDec z.natAbs with
      | nil => exact absurd hn (natDec_ne_nil _)
      | cons c s => exact ⟨c, s, rfl⟩
    have hdc := natDec_digits z.natAbs c (by rw [hcs]; simp)
    have hu := parseUnsigned_int _ rest _ hc hr
    rw [hcs, List.cons_append] at hu
    rw [hcs, List.cons_append, parseValue_number f c _ (Or.inl hdc),
      parseNumber_pos _ _ (isDigit_ne45 c hdc), hu]
    simp only [Nat.pow_zero]
    rw [show ((z.natAbs : Nat) : Int) = z by omega]

/-- A six decimal text, possibly signed, denotes `± n / 10^6`. -/
theorem parse_six (neg : Bool) (t : Bytes) (n f : Nat) (rest : Bytes) (ht : SixDecimals t n)
    (hr : NumEnd rest) :
    parseValue (f + 1) ((if neg then [45] else []) ++ t ++ rest) =
      some (.num (mkRat (if neg then -(n : Int) else n) 1000000), rest) := by
  obtain ⟨ip, fr, rfl, hip, hfr⟩ := ht
  obtain ⟨c, s, hcs⟩ : ∃ c s, ip = c :: s := by
    cases hn : ip with
    | nil => exact absurd hn hip.1
    | cons c s => exact ⟨c, s, rfl⟩
  have hdc := hip.2.1 c (by rw [hcs]; simp)
  have key : ∃ m e, parseUnsigned (ip ++ fr ++ rest) = some ((m, e), rest) ∧
      m * 1000000 = n * 10 ^ e := by
    rcases hfr with ⟨h0, rfl⟩ | ⟨h0, ds, rfl, hd, hne, hlen, -, hval⟩
    · refine ⟨_, 0, by rw [List.append_nil]; exact parseUnsigned_int ip rest _ hip hr, ?_⟩
      simp; omega
    · refine ⟨_, _, parseUnsigned_frac ip ds rest _ hip hd hne hr, ?_⟩
      rw [decimalValue_append, hip.2.2.1]
      have hp : 10 ^ ds.length * 10 ^ (6 - ds.length) = 1000000 := by
        rw [← Nat.pow_add, show ds.length + (6 - ds.length) = 6 by omega]
      have hn : n = n / 1000000 * 1000000 + n % 1000000 := by omega
      conv => rhs; rw [hn, ← hval]
      conv => lhs; rw [Nat.add_mul]
      rw [Nat.add_mul]
      congr 1
      · rw [Nat.mul_assoc, Nat.mul_assoc, Nat.mul_comm (10 ^ ds.length)]
      · rw [← hp, Nat.mul_assoc, Nat.mul_comm (10 ^ ds.length)]
  obtain ⟨m, e, hu, hme⟩ := key
  have hpe : (10 ^ e : Nat) ≠ 0 := Nat.pos_iff_ne_zero.mp (Nat.pow_pos (by decide))
  cases neg with
  | true =>
    simp only [if_true, List.cons_append, List.nil_append]
    rw [parseValue_number f 45 _ (Or.inr rfl), parseNumber, hu]
    simp only
    congr 3
    rw [Rat.mkRat_eq_iff hpe (by decide)]
    have : ((m * 1000000 : Nat) : Int) = ((n * 10 ^ e : Nat) : Int) := by rw [hme]
    simp only [Int.natCast_mul] at this
    rw [Int.neg_mul, Int.neg_mul]
    congr 1
  | false =>
    simp only [List.nil_append, Bool.false_eq_true, if_false]
    have hform : ip ++ fr ++ rest = c :: (s ++ fr ++ rest) := by rw [hcs]; simp
    rw [hform] at hu ⊢
    rw [parseValue_number f c _ (Or.inl hdc), parseNumber_pos _ _ (isDigit_ne45 c hdc), hu]
    simp only
    congr 3
    rw [Rat.mkRat_eq_iff hpe (by decide)]
    have : ((m * 1000000 : Nat) : Int) = ((n * 10 ^ e : Nat) : Int) := by rw [hme]
    simp only [Int.natCast_mul] at this
    exact this

theorem canonicalInt_unique (t : Bytes) (z : Int) (h : CanonicalInt t z) : t = intText z := by
  unfold CanonicalInt at h
  unfold intText
  split
  · rename_i hz
    rw [if_pos hz] at h
    obtain ⟨u, rfl, hu⟩ := h
    rw [canonicalDecimal_unique u _ hu]
  · rename_i hz
    rw [if_neg hz] at h
    exact canonicalDecimal_unique t _ h

theorem canonicalDecimal_intText (t : Bytes) (n : Nat) (h : CanonicalDecimal t n) :
    t = intText n := by
  apply canonicalInt_unique
  unfold CanonicalInt
  rw [if_neg (by omega)]; simpa using h

/-- The bytes of a number text. -/
theorem intText_mem (z : Int) : ∀ c ∈ intText z, isDigit c = true ∨ c = 45 := by
  intro c hc
  unfold intText at hc
  split at hc
  · rcases List.mem_cons.mp hc with h | h
    · exact Or.inr h
    · exact Or.inl (natDec_digits _ c h)
  · exact Or.inl (natDec_digits _ c hc)

theorem intText_ne_nil (z : Int) : intText z ≠ [] := by
  unfold intText; split
  · simp
  · exact natDec_ne_nil _

theorem digit_plain (c : UInt8) (h : isDigit c = true ∨ c = 45) : plain c = true := by
  have tab : ∀ i : Fin 256, (isDigit (UInt8.ofNat i.val) = true ∨ UInt8.ofNat i.val = 45) →
      plain (UInt8.ofNat i.val) = true := by decide +kernel
  have := tab ⟨c.toNat, c.toNat_lt⟩
  simp only [UInt8.ofNat_toNat] at this
  exact this h

theorem parseString_plain (t rest : Bytes) (h : ∀ c ∈ t, plain c = true) :
    parseJsonString (34 :: t ++ 34 :: rest) = some (t, rest) := by
  have := parseBody_flatMap t rest
  rw [flatMap_strEnc_plain t h] at this
  exact this

theorem i8_text (space : Bytes) (v : Int8) : writeInt8 space v = space ++ intText v.toInt := by
  obtain ⟨t, h, hc⟩ := writeInt8_exact space v
  rw [h, canonicalInt_unique t _ hc]
theorem u8_text (space : Bytes) (v : UInt8) : writeUint8 space v = space ++ intText v.toNat := by
  obtain ⟨t, h, hc⟩ := writeUint8_exact space v
  rw [h, canonicalDecimal_intText t _ hc]
theorem i16_text (space : Bytes) (v : Int16) : writeInt16 space v = space ++ intText v.toInt := by
  obtain ⟨t, h, hc⟩ := writeInt16_exact space v
  rw [h, canonicalInt_unique t _ hc]
theorem u16_text (space : Bytes) (v : UInt16) : writeUint16 space v = space ++ intText v.toNat := by
  obtain ⟨t, h, hc⟩ := writeUint16_exact space v
  rw [h, canonicalDecimal_intText t _ hc]
theorem i32_text (space : Bytes) (v : Int32) (hv : v.toInt.natAbs < 1000000000) :
    writeInt32 space v = space ++ intText v.toInt := by
  obtain ⟨t, h, hc⟩ := writeInt32_exact_partial space v hv
  rw [h, canonicalInt_unique t _ hc]
theorem u32_text (space : Bytes) (v : UInt32) (hv : v.toNat < 1000000000) :
    writeUint32 space v = space ++ intText v.toNat := by
  obtain ⟨t, h, hc⟩ := writeUint32_exact_partial space v hv
  rw [h, canonicalDecimal_intText t _ hc]
theorem i64_text (space : Bytes) (v : Int64) : writeInt64 space v = space ++ intText v.toInt := by
  obtain ⟨t, h, hc⟩ := writeInt64_exact space v
  rw [h, canonicalInt_unique t _ hc]
theorem u64_text (space : Bytes) (v : UInt64) (hv : v.toNat < 10000000000000000000) :
    writeUint64 space v = space ++ intText v.toNat := by
  obtain ⟨t, h, hc⟩ := writeUint64_exact_partial space v hv
  rw [h, canonicalDecimal_intText t _ hc]

theorem lossyLval_lt (m k : Nat) (h : m ≤ 83886079 * 2 ^ k) : lossyLval m k < 2 ^ 64 := by
  have he := (lossyLval_error m k h).1
  have : lossyLval m k * 2 ^ k < 100000000000000 * 2 ^ k := by
    have : m * 1000000 ≤ 83886079 * 2 ^ k * 1000000 := Nat.mul_le_mul_right _ h
    have hw : 0 < 2 ^ k := Nat.pow_pos (by decide)
    omega
  have := Nat.lt_of_mul_lt_mul_right this
  omega

theorem float_text (space : Bytes) (neg : Bool) (m k : Nat) (h : m ≤ 83886079 * 2 ^ k) :
    ∃ t, writeFloatLossy space neg m k = space ++ ((if neg then [45] else []) ++ t) ∧
      SixDecimals t (lossyLval m k) := by
  obtain ⟨t, ht, hs⟩ := writeLossyTail_exact (if neg then space ++ [45] else space)
    (UInt64.ofNat (lossyLval m k))
  have hlt := lossyLval_lt m k h
  have hto : (UInt64.ofNat (lossyLval m k)).toNat = lossyLval m k := by
    rw [UInt64.toNat_ofNat']; omega
  rw [hto] at hs
  refine ⟨t, ?_, hs⟩
  unfold writeFloatLossy
  simp only [ht]
  cases neg <;> simp

/-! ### The claim about one encoded value -/

/-- `x` is a text for `j`: not empty, not starting with a closing bracket, and read
back with enough fuel whatever follows. -/
def Reads (x : Bytes) (j : Json) : Prop :=
  (∃ c r, x = c :: r ∧ c ≠ 93) ∧
  ∀ f rest, 2 * x.length ≤ f → NumEnd rest → parseValue f (x ++ rest) = some (j, rest)

theorem reads_int (z : Int) : Reads (intText z) (.num (mkRat z 1)) := by
  obtain ⟨c, s, hcs⟩ : ∃ c s, intText z = c :: s := by
    cases hn : intText z with
    | nil => exact absurd hn (intText_ne_nil _)
    | cons c s => exact ⟨c, s, rfl⟩
  constructor
  · refine ⟨c, s, hcs, ?_⟩
    intro h
    have := intText_mem z c (by rw [hcs]; simp)
    rw [h] at this; revert this; decide
  · intro f rest hf hr
    have hl : 1 ≤ (intText z).length := by rw [hcs]; simp
    obtain ⟨f', rfl⟩ : ∃ f', f = f' + 1 := ⟨f - 1, by omega⟩
    exact parse_int z f' rest hr

theorem reads_six (neg : Bool) (t : Bytes) (n : Nat) (ht : SixDecimals t n) :
    Reads ((if neg then [45] else []) ++ t)
      (.num (mkRat (if neg then -(n : Int) else n) 1000000)) := by
  have ht' := ht
  obtain ⟨ip, fr, rfl, hip, hfr⟩ := ht
  obtain ⟨c, s, hcs⟩ : ∃ c s, ip = c :: s := by
    cases hn : ip with
    | nil => exact absurd hn hip.1
    | cons c s => exact ⟨c, s, rfl⟩
  have hdc := hip.2.1 c (by rw [hcs]; simp)
  have hh : ∃ c r, (if neg then [45] else []) ++ (ip ++ fr) = c :: r ∧ c ≠ (93 : UInt8) := by
    cases neg with
    | true => exact ⟨45, ip ++ fr, rfl, by decide⟩
    | false =>
      refine ⟨c, s ++ fr, by simp [hcs], ?_⟩
      intro h; rw [h] at hdc; exact absurd hdc (by decide)
  refine ⟨hh, ?_⟩
  intro f rest hf hr
  obtain ⟨c', r', hx, -⟩ := hh
  rw [hx] at hf
  simp only [List.length_cons] at hf
  obtain ⟨f', rfl⟩ : ∃ f', f = f' + 1 := ⟨f - 1, by omega⟩
  exact parse_six neg _ n f' rest ht' hr

theorem reads_string (x v : Bytes) (h : ∀ rest, parseJsonString (x ++ rest) = some (v, rest)) :
    Reads x (.str v) := by
  cases x with
  | nil => exact absurd (h []) (by simp [parseJsonString])
  | cons c r =>
    have hc : c = 34 := by
      have := h []
      simp only [List.append_nil] at this
      rw [parseJsonString.eq_def] at this
      split at this
      · rename_i heq; simp only [List.cons.injEq] at heq; exact heq.1
      · simp at this
    subst hc
    refine ⟨⟨34, r, rfl, by decide⟩, ?_⟩
    intro f rest hf hr
    simp only [List.length_cons] at hf
    obtain ⟨f', rfl⟩ : ∃ f', f = f' + 1 := ⟨f - 1, by omega⟩
    have := h rest
    rw [List.cons_append] at this ⊢
    simp only [parseJsonString] at this
    simp [parseValue, this]

theorem reads_null : Reads [110, 117, 108, 108] .null := by
  refine ⟨⟨110, _, rfl, by decide⟩, ?_⟩
  intro f rest hf _
  simp only [List.length_cons] at hf
  obtain ⟨f', rfl⟩ : ∃ f', f = f' + 1 := ⟨f - 1, by omega⟩
  simp [parseValue]

theorem reads_true : Reads [116, 114, 117, 101] (.bool true) := by
  refine ⟨⟨116, _, rfl, by decide⟩, ?_⟩
  intro f rest hf _
  simp only [List.length_cons] at hf
  obtain ⟨f', rfl⟩ : ∃ f', f = f' + 1 := ⟨f - 1, by omega⟩
  simp [parseValue]

theorem reads_false : Reads [102, 97, 108, 115, 101] (.bool false) := by
  refine ⟨⟨102, _, rfl, by decide⟩, ?_⟩
  intro f rest hf _
  simp only [List.length_cons] at hf
  obtain ⟨f', rfl⟩ : ∃ f', f = f' + 1 := ⟨f - 1, by omega⟩
  simp [parseValue]

theorem shown_eq_byteText : shown = byteText := rfl

theorem bytes_reads (s : Bytes) (h1 : ¬ OnlyLast JsonSafe s) (h2 : ¬ HighAfterSafe JsonSafe s)
    (rest : Bytes) :
    parseJsonString (writeBytes [] s ++ rest) = some (s.flatMap byteText, rest) := by
  rw [writeBytes_parsed, kept_id jsonSafe_iff s h1 h2]; rfl

theorem writeBytes_appends (space s : Bytes) : writeBytes space s = space ++ writeBytes [] s := by
  rw [writeBytes_eq, writeBytes_eq]; simp

/-! ### Keys -/

/-- The text of a member name with its colon. -/
def KeyReads (x kb : Bytes) : Prop :=
  ∀ rest, parseJsonString (x ++ 58 :: rest) = some (kb, 58 :: rest)

theorem keyReads_int (z : Int) : KeyReads (34 :: intText z ++ [34]) (intText z) := by
  intro rest
  have := parseString_plain (intText z) (58 :: rest)
    (fun c hc => digit_plain c (intText_mem z c hc))
  simpa using this

theorem keyReads_str (s : Bytes) (h : ¬ LostLast s) : KeyReads (writeString [] s) s := by
  intro rest
  exact writeString_roundtrip_partial s _ h

/-- Text appended for a key by a key encoder. -/
theorem key_text (cfg : Bool) (pfx : Bytes) (k : Val) (kt : Ty) (kb : Bytes) (hk : keyText k kt = some kb)
    (hg : GoodVal k) (space : Bytes) :
    ∃ x, KeyReads x kb ∧
      ((∃ e, encoderOfMapKey cfg pfx kt = .number e ∧
          encode k e (space ++ [34]) ++ [34, 58] = space ++ x ++ [58]) ∨
       (∃ e, encoderOfMapKey cfg pfx kt = .string e ∧
          encode k e space ++ [58] = space ++ x ++ [58])) := by
  have num : ∀ z : Int, KeyReads (34 :: intText z ++ [34]) (intText z) := keyReads_int
  cases k <;> cases kt <;> simp only [keyText, reduceCtorEq, Option.some.injEq] at hk <;> subst hk
  case str.str s =>
    refine ⟨_, keyReads_str s (by simpa [GoodVal] using hg), Or.inr ⟨_, rfl, ?_⟩⟩
    simp only [encoderOf, encode]
    rw [writeString_appends]
  all_goals
    refine ⟨_, num _, Or.inl ⟨_, rfl, ?_⟩⟩
    simp only [encoderOf, encode, GoodVal] at hg ⊢
    first
    | rw [i8_text] | rw [u8_text] | rw [i16_text] | rw [u16_text]
    | rw [i32_text _ _ hg] | rw [u32_text _ _ hg] | rw [i64_text] | rw [u64_text _ _ hg]
    simp

end Verif.Jsonfmt
