import Verif.Jsonfmt.BytesLemmas
import Verif.Spec.BytesText

/-!
# Properties C14, C15, C16 and C24: escaping of strings and bytes
-/

namespace Verif.Jsonfmt
open Verif.Spec

theorem not_plain_iff (c : UInt8) : plain c = false ↔ NeedsEscape c := by
  have tab : ∀ i : Fin 256, plain (UInt8.ofNat i.val) = false ↔
      (UInt8.ofNat i.val < 32 ∨ UInt8.ofNat i.val = 34 ∨ UInt8.ofNat i.val = 92) := by
    decide +kernel
  have h := tab ⟨c.toNat, c.toNat_lt⟩
  simpa [NeedsEscape] using h

theorem dropWhile_single_iff (ok : UInt8 → Bool) (s : Bytes) (c : UInt8) :
    s.dropWhile ok = [c] ↔ ∃ p, s = p ++ [c] ∧ (∀ x ∈ p, ok x = true) ∧ ok c = false := by
  constructor
  · intro h
    refine ⟨s.takeWhile ok, ?_, ?_, ?_⟩
    · rw [← h, List.takeWhile_append_dropWhile]
    · intro x hx; exact List.all_eq_true.mp List.all_takeWhile x hx
    · have := List.head_dropWhile_not (l := s) ok (by rw [h]; simp)
      simpa [h] using this
  · rintro ⟨p, rfl, hp, hc⟩
    rw [List.dropWhile_append_of_pos hp]
    simp [hc]

/-- C14 (partial): decoding the JSON token gives the original bytes, unless the only
byte needing an escape is the last one.  Missing: that case, which is false
(`writeString_loses_last`). -/
theorem writeString_roundtrip_partial (s rest : Bytes)
    (h : ¬ ∃ p c, s = p ++ [c] ∧ (∀ x ∈ p, ¬ NeedsEscape x) ∧ NeedsEscape c) :
    parseJsonString (writeString [] s ++ rest) = some (s, rest) := by
  rw [writeString_eq]
  rw [if_neg]
  · simp only [List.nil_append, List.append_assoc, List.cons_append, parseJsonString]
    exact parseBody_flatMap s rest
  · rintro ⟨c, hc⟩
    apply h
    obtain ⟨p, hs, hp, hcc⟩ := (dropWhile_single_iff plain s c).mp hc
    refine ⟨p, c, hs, ?_, (not_plain_iff c).mp hcc⟩
    intro x hx hn
    have := (not_plain_iff x).mpr hn
    rw [hp x hx] at this
    exact Bool.noConfusion this

/-- `a"b` followed by a line feed and `c`: two bytes need an escape. -/
example : parseJsonString (writeString [] (asc "a\"b\nc") ++ asc ",1") =
    some (asc "a\"b\nc", asc ",1") := by
  apply writeString_roundtrip_partial
  rintro ⟨p, c, h, hp, hc⟩
  have hl : p = asc "a\"b\n" := by
    have := congrArg List.dropLast h
    simp at this; rw [← this]; decide
  subst hl
  exact hp 34 (by decide) (by right; left; rfl)

/-- C14, negation: when the last byte is the only one needing an escape, it is
silently dropped. -/
theorem writeString_loses_last (p : Bytes) (c : UInt8) (rest : Bytes)
    (hp : ∀ x ∈ p, ¬ NeedsEscape x) (hc : NeedsEscape c) :
    parseJsonString (writeString [] (p ++ [c]) ++ rest) = some (p, rest) := by
  have hpp : ∀ x ∈ p, plain x = true := by
    intro x hx
    cases h : plain x with
    | true => rfl
    | false => exact absurd ((not_plain_iff x).mp h) (hp x hx)
  have hcc : plain c = false := (not_plain_iff c).mpr hc
  rw [writeString_eq, if_pos ⟨c, (dropWhile_single_iff plain _ c).mpr ⟨p, rfl, hpp, hcc⟩⟩]
  have htw : (p ++ [c]).takeWhile plain = p := by
    rw [List.takeWhile_append_of_pos hpp]; simp [hcc]
  rw [htw]
  simp only [List.nil_append, List.append_assoc, List.cons_append, parseJsonString]
  have := parseBody_flatMap p rest
  rw [flatMap_strEnc_plain p hpp] at this
  exact this

/-- C14, negation: `"line\n"` loses its line feed. -/
theorem writeString_roundtrip_false :
    ¬ ∀ s rest : Bytes, parseJsonString (writeString [] s ++ rest) = some (s, rest) := by
  intro h
  have h1 := h (asc "line\n") []
  revert h1; decide +kernel

/-- The text is appended; what was in the buffer is kept. -/
theorem writeString_appends (space s : Bytes) :
    writeString space s = space ++ writeString [] s := by
  rw [writeString_eq, writeString_eq]; simp

example : writeString (asc "{\"k\":") (asc "a\tb") = asc "{\"k\":\"a\\tb\"" := by decide +kernel

/-- C15: whatever the string and whatever follows, a JSON parser reads one complete
string token and stops exactly at the end of the emitted text. -/
theorem writeString_contained (s rest : Bytes) :
    ∃ v, parseJsonString (writeString [] s ++ rest) = some (v, rest) := by
  by_cases h : ∃ p c, s = p ++ [c] ∧ (∀ x ∈ p, ¬ NeedsEscape x) ∧ NeedsEscape c
  · obtain ⟨p, c, rfl, hp, hc⟩ := h
    exact ⟨p, writeString_loses_last p c rest hp hc⟩
  · exact ⟨s, writeString_roundtrip_partial s rest h⟩

/-- Text made to look like the end of the string and another member. -/
example : parseJsonString (writeString [] (asc "\",\"admin\":true,\"") ++ asc "}") =
    some (asc "\",\"admin\":true,\"", asc "}") := by decide +kernel

/-! ### `[]byte` in JSON -/

/-- The text shown for one byte in JSON, after JSON decoding. -/
def shown (b : UInt8) : Bytes :=
  if b < 128 ∧ (32 ≤ b ∨ b = 10 ∨ b = 13 ∨ b = 9) then [b]
  else [92, 120, hexDigit (b >>> 4), hexDigit (b &&& 0xF)]

theorem hexDigit_plain (b : UInt8) : plain (hexDigit (b >>> 4)) = true ∧
    plain (hexDigit (b &&& 0xF)) = true := by
  have tab : ∀ i : Fin 256, plain (hexDigit (UInt8.ofNat i.val >>> 4)) = true ∧
    plain (hexDigit (UInt8.ofNat i.val &&& 0xF)) = true := by decide +kernel
  simpa using tab ⟨b.toNat, b.toNat_lt⟩

theorem parseBody_hexEscape2 (b : UInt8) (r : Bytes) :
    parseStringBody (hexEscape2 b ++ r) =
      (parseStringBody r).map fun p =>
        ([92, 120, hexDigit (b >>> 4), hexDigit (b &&& 0xF)] ++ p.1, p.2) := by
  simp only [hexEscape2, List.cons_append, List.nil_append]
  rw [parseBody_simple 92 92 _ (by decide), parseBody_plain 120 _ (by decide),
    parseBody_plain _ _ (hexDigit_plain b).1, parseBody_plain _ _ (hexDigit_plain b).2]
  cases parseStringBody r <;> rfl

theorem parseBody_encBytes (b : UInt8) (r : Bytes) :
    parseStringBody (encG safeSet hexEscape2 bytesEscape b ++ r) =
      (parseStringBody r).map fun p => (shown b ++ p.1, p.2) := by
  have tab : ∀ i : Fin 256,
      (encG safeSet hexEscape2 bytesEscape (UInt8.ofNat i.val) = hexEscape2 (UInt8.ofNat i.val) ∧
        shown (UInt8.ofNat i.val) = [92, 120, hexDigit (UInt8.ofNat i.val >>> 4),
          hexDigit (UInt8.ofNat i.val &&& 0xF)]) ∨
      (encG safeSet hexEscape2 bytesEscape (UInt8.ofNat i.val) = strEnc (UInt8.ofNat i.val) ∧
        shown (UInt8.ofNat i.val) = [UInt8.ofNat i.val]) := by decide +kernel
  have t := tab ⟨b.toNat, b.toNat_lt⟩
  simp only [UInt8.ofNat_toNat] at t
  rcases t with ⟨t1, t2⟩ | ⟨t1, t2⟩
  · rw [t1, t2, parseBody_hexEscape2]
  · rw [t1, t2, parseBody_strEnc]; rfl

theorem parseBody_bytes (v r : Bytes) :
    parseStringBody (v.flatMap (encG safeSet hexEscape2 bytesEscape) ++ 34 :: r) =
      some (v.flatMap shown, r) := by
  induction v with
  | nil => exact parseBody_close r
  | cons b v ih =>
    rw [List.flatMap_cons, List.append_assoc, parseBody_encBytes, ih]; rfl

/-- What a JSON parser sees for a byte slice. -/
theorem writeBytes_parsed (s rest : Bytes) :
    parseJsonString (writeBytes [] s ++ rest) = some ((kept safeSet s).flatMap shown, rest) := by
  rw [writeBytes_eq]
  simp only [List.nil_append, List.append_assoc, List.cons_append, parseJsonString]
  exact parseBody_bytes _ rest

/-- C15 for `[]byte`: the emitted text is always exactly one complete JSON string. -/
theorem writeBytes_contained (s rest : Bytes) :
    ∃ v, parseJsonString (writeBytes [] s ++ rest) = some (v, rest) :=
  ⟨_, writeBytes_parsed s rest⟩

example : parseJsonString (writeBytes [] [0xff, 34, 44, 0, 92] ++ asc "]") =
    some (asc "\\xff\",\\x00\\", asc "]") := by decide +kernel

theorem unhex_shown (b : UInt8) (r : Bytes) (h : b ≠ 92) : unhex (shown b ++ r) = b :: unhex r := by
  have tab : ∀ i : Fin 256, hexVal (hexDigit (UInt8.ofNat i.val >>> 4)) = some (i.val / 16) ∧
    hexVal (hexDigit (UInt8.ofNat i.val &&& 0xF)) = some (i.val % 16) := by decide +kernel
  have t := tab ⟨b.toNat, b.toNat_lt⟩
  simp only [UInt8.ofNat_toNat] at t
  unfold shown
  split
  · simp only [List.cons_append, List.nil_append]
    rw [unhex.eq_def]
    split
    · rename_i heq; simp only [List.cons.injEq] at heq; exact absurd heq.1 h
    · rename_i heq; simp only [List.cons.injEq] at heq; obtain ⟨rfl, rfl⟩ := heq; rfl
    · rename_i heq; simp at heq
  · simp only [List.cons_append, List.nil_append, unhex, t.1, t.2]
    congr 1
    rw [Nat.div_add_mod]; simp

theorem unhex_flatMap (v : Bytes) (h : ∀ b ∈ v, b ≠ 92) : unhex (v.flatMap shown) = v := by
  induction v with
  | nil => rfl
  | cons b v ih =>
    rw [List.flatMap_cons, unhex_shown b _ (h b (by simp)), ih (fun x hx => h x (by simp [hx]))]

section Kept
variable {safe : UInt8 → Bool} {Safe : UInt8 → Prop} (hS : ∀ c, okG safe c = true ↔ Safe c)
include hS

theorem not_ok (c : UInt8) : okG safe c = false ↔ ¬ Safe c := by
  rw [← hS c]; simp

theorem nextHi_split (s : Bytes) (h : nextHi safe s = true) :
    ∃ m c t, s = m ++ c :: t ∧ (∀ x ∈ m, Safe x) ∧ 128 ≤ c := by
  induction s with
  | nil => simp [nextHi] at h
  | cons b s ih =>
    by_cases hb : okG safe b = true
    · have hb' := hb
      simp only [okG, Bool.and_eq_true, decide_eq_true_eq, lt_iff_not_ge] at hb'
      have : nextHi safe s = true := by
        simpa [nextHi, hb'.1, hb'.2] using h
      obtain ⟨m, c, t, rfl, hm, hc⟩ := ih this
      refine ⟨b :: m, c, t, rfl, ?_, hc⟩
      intro x hx
      rcases List.mem_cons.mp hx with rfl | hx
      · exact (hS _).mp hb
      · exact hm x hx
    · by_cases h1 : 0x80 ≤ b
      · exact ⟨[], b, s, rfl, by simp, h1⟩
      · have h2 : ¬ safe b = true := by
          intro h2; apply hb; simp [okG, lt_iff_not_ge, h1, h2]
        simp [nextHi, h1, h2] at h

theorem nextHi_of_split (m : Bytes) (c : UInt8) (t : Bytes) (hm : ∀ x ∈ m, Safe x)
    (hc : 128 ≤ c) : nextHi safe (m ++ c :: t) = true := by
  induction m with
  | nil => simp [nextHi, hc]
  | cons b m ih =>
    have hb := (hS b).mpr (hm b (by simp))
    simp only [okG, Bool.and_eq_true, decide_eq_true_eq, lt_iff_not_ge] at hb
    have := ih (fun x hx => hm x (by simp [hx]))
    simpa [nextHi, hb.1, hb.2] using this

omit hS in
theorem survive_length_le (s : Bytes) : (survive safe s).length ≤ s.length := by
  induction s with
  | nil => simp [survive]
  | cons b s ih =>
    simp only [survive]; split <;> simp <;> omega

theorem survive_id (s : Bytes)
    (h : ¬ ∃ b x h t, s = b ++ x :: h :: t ∧ Safe x ∧ 128 ≤ h) : survive safe s = s := by
  induction s with
  | nil => rfl
  | cons b s ih =>
    have ih' := ih (by
      rintro ⟨b', x, h', t, rfl, hx, hh⟩
      exact h ⟨b :: b', x, h', t, rfl, hx, hh⟩)
    simp only [survive]
    rw [if_neg, ih']
    rintro ⟨h1, h2, h3⟩
    obtain ⟨m, c, t, rfl, hm, hc⟩ := nextHi_split hS s h3
    have hb : Safe b := (hS b).mp (by simp [okG, h1, h2])
    rcases List.eq_nil_or_concat m with rfl | ⟨m', y, rfl⟩
    · exact h ⟨[], b, c, t, rfl, hb, hc⟩
    · refine h ⟨b :: m', y, c, t, by simp, hm y (by simp), hc⟩

theorem survive_lt (b : Bytes) (x h : UInt8) (t : Bytes) (hx : Safe x) (hh : 128 ≤ h) :
    (survive safe (b ++ x :: h :: t)).length < (b ++ x :: h :: t).length := by
  induction b with
  | nil =>
    have hn : nextHi safe (h :: t) = true := nextHi_of_split hS [] h t (by simp) hh
    have hk := (hS x).mpr hx
    simp only [okG, Bool.and_eq_true, decide_eq_true_eq] at hk
    have hl := survive_length_le (safe := safe) (h :: t)
    simp only [List.nil_append, survive.eq_2 safe x, hk.1, hk.2, hn, and_self, if_true,
      List.length_cons] at hl ⊢
    omega
  | cons c b ih =>
    simp only [List.cons_append, survive]
    split <;> simp at ih ⊢ <;> omega

theorem kept_id (s : Bytes) (h1 : ¬ OnlyLast Safe s) (h2 : ¬ HighAfterSafe Safe s) :
    kept safe s = s := by
  have hs := List.takeWhile_append_dropWhile (p := okG safe) (l := s)
  rw [kept, if_neg]
  · rw [survive_id hS, hs]
    rintro ⟨b, x, h, t, hd, hx, hh⟩
    have hne : s.dropWhile (okG safe) ≠ [] := by rw [hd]; simp
    have hu := List.head_dropWhile_not (l := s) (okG safe) hne
    cases b with
    | nil =>
      simp only [hd, List.nil_append, List.head_cons] at hu
      rw [(hS x).mpr hx] at hu; exact Bool.noConfusion hu
    | cons u b =>
      simp only [hd, List.cons_append, List.head_cons] at hu
      refine h2 ⟨s.takeWhile (okG safe), u, b, x, h, t, ?_, (not_ok hS u).mp hu, hx, hh⟩
      rw [← List.cons_append, ← hd, hs]
  · rintro ⟨c, hc⟩
    obtain ⟨p, hp, hp', hcc⟩ := (dropWhile_single_iff _ s c).mp hc
    exact h1 ⟨p, c, hp, fun x hx => (hS x).mp (hp' x hx), (not_ok hS c).mp hcc⟩

omit hS in
theorem kept_length_le (s : Bytes) : (kept safe s).length ≤ s.length := by
  have hs := takeWhile_length_le (okG safe) s
  have := survive_length_le (safe := safe) (s.dropWhile (okG safe))
  rw [kept]
  split
  · omega
  · simp; omega

theorem kept_lt (s : Bytes) (h : OnlyLast Safe s ∨ HighAfterSafe Safe s) :
    (kept safe s).length < s.length := by
  have hs := takeWhile_length_le (okG safe) s
  rw [kept]
  split
  · rename_i hc
    obtain ⟨c, hc⟩ := hc
    rw [hc] at hs; simp at hs; omega
  · rename_i hc
    rcases h with ⟨p, c, rfl, hp, hcc⟩ | ⟨a, u, b, x, h, t, rfl, hu, hx, hh⟩
    · exact absurd ⟨c, (dropWhile_single_iff _ _ c).mpr
        ⟨p, rfl, fun x hx => (hS x).mpr (hp x hx), (not_ok hS c).mpr hcc⟩⟩ hc
    · have : ∃ b', (a ++ u :: (b ++ x :: h :: t)).dropWhile (okG safe) = b' ++ x :: h :: t := by
        clear hs hc
        induction a with
        | nil =>
          refine ⟨u :: b, ?_⟩
          rw [List.nil_append, List.dropWhile_cons_of_neg (by rw [(not_ok hS u).mpr hu]; simp)]
          rfl
        | cons y a ih =>
          by_cases hy : okG safe y = true
          · rw [List.cons_append, List.dropWhile_cons_of_pos hy]; exact ih
          · refine ⟨y :: a ++ u :: b, ?_⟩
            rw [List.cons_append, List.dropWhile_cons_of_neg hy]; simp
      obtain ⟨b', hb'⟩ := this
      have hlt := survive_lt hS b' x h t hx hh
      rw [hb'] at hs ⊢
      rw [List.length_append]
      omega

omit hS in
theorem kept_sub (s : Bytes) : ∀ b ∈ kept safe s, b ∈ s := by
  have hsub : ∀ (l : Bytes), ∀ b ∈ survive safe l, b ∈ l := by
    intro l
    induction l with
    | nil => simp [survive]
    | cons c l ih =>
      intro b hb
      simp only [survive] at hb
      split at hb
      · exact List.mem_cons_of_mem _ (ih b hb)
      · rcases List.mem_cons.mp hb with rfl | hb
        · simp
        · exact List.mem_cons_of_mem _ (ih b hb)
  intro b hb
  rw [kept] at hb
  split at hb
  · exact (List.takeWhile_prefix _).subset hb
  · rcases List.mem_append.mp hb with hb | hb
    · exact (List.takeWhile_prefix _).subset hb
    · exact (List.dropWhile_suffix _).subset (hsub _ b hb)

end Kept

theorem jsonSafe_iff (c : UInt8) : okG safeSet c = true ↔ JsonSafe c := by
  have tab : ∀ i : Fin 256, okG safeSet (UInt8.ofNat i.val) = true ↔
      (32 ≤ UInt8.ofNat i.val ∧ UInt8.ofNat i.val < 128 ∧ UInt8.ofNat i.val ≠ 34 ∧
        UInt8.ofNat i.val ≠ 92) := by decide +kernel
  have h := tab ⟨c.toNat, c.toNat_lt⟩
  simpa [JsonSafe] using h

theorem msgSafe_iff (c : UInt8) : okG Msgfmt.safeSet c = true ↔ MsgSafe c := by
  have tab : ∀ i : Fin 256, okG Msgfmt.safeSet (UInt8.ofNat i.val) = true ↔
      (32 ≤ UInt8.ofNat i.val ∧ UInt8.ofNat i.val < 128 ∧ UInt8.ofNat i.val ≠ 92 ∧
        UInt8.ofNat i.val ≠ 124) := by decide +kernel
  have h := tab ⟨c.toNat, c.toNat_lt⟩
  simpa [MsgSafe] using h

/-- C16 (partial): reading the text back gives the bytes when there is no backslash
among them and neither of the two byte-dropping patterns occurs.  Missing: those
inputs; the claim is false there (`writeBytes_drops`, `writeBytes_ambiguous`). -/
theorem writeBytes_roundtrip_partial (s rest : Bytes) (hb : ∀ b ∈ s, b ≠ 92)
    (h1 : ¬ OnlyLast JsonSafe s) (h2 : ¬ HighAfterSafe JsonSafe s) :
    ∃ t, parseJsonString (writeBytes [] s ++ rest) = some (t, rest) ∧ unhex t = s := by
  refine ⟨_, writeBytes_parsed s rest, ?_⟩
  rw [kept_id jsonSafe_iff s h1 h2, unhex_flatMap s hb]

/-- Two raw bytes, a quote, and ASCII around them. -/
example : ∃ t, parseJsonString (writeBytes [] [97, 0x80, 0xff, 34, 98] ++ asc ",") =
    some (t, asc ",") ∧ unhex t = [97, 0x80, 0xff, 34, 98] := by
  refine ⟨asc "a\\x80\\xff\"b", by decide +kernel, by decide +kernel⟩

/-- C16, negation: in both byte-dropping patterns the text does not decode to the
input (it shows strictly fewer bytes). -/
theorem writeBytes_drops (s rest : Bytes) (hb : ∀ b ∈ s, b ≠ 92)
    (h : OnlyLast JsonSafe s ∨ HighAfterSafe JsonSafe s) :
    ∃ t, parseJsonString (writeBytes [] s ++ rest) = some (t, rest) ∧
      (unhex t).length < s.length := by
  refine ⟨_, writeBytes_parsed s rest, ?_⟩
  rw [unhex_flatMap]
  · exact kept_lt jsonSafe_iff s h
  · intro b hx; exact hb b (kept_sub s b hx)

/-- Line feed, `a`, 0x80: the `a` disappears. -/
example : HighAfterSafe JsonSafe [10, 97, 0x80, 98] ∧
    writeBytes [] [10, 97, 0x80, 98] = asc "\"\\n\\\\x80b\"" := by
  refine ⟨⟨[], 10, [], 97, 0x80, [98], rfl, ?_, ?_, by decide⟩, by decide +kernel⟩ <;>
    (unfold JsonSafe; decide)

/-- C16, negation: two different inputs, both outside the byte-dropping patterns,
give the same text, so no decoder can exist. -/
theorem writeBytes_ambiguous :
    writeBytes [] [0x80, 97] = writeBytes [] (asc "\\x80a") ∧ [0x80, 97] ≠ asc "\\x80a" := by
  constructor <;> decide +kernel

/-! ### `[]byte` in messages -/

theorem unescape_enc (b : UInt8) (r : Bytes) :
    unescape (encG Msgfmt.safeSet Msgfmt.hexEscape Msgfmt.bytesEscape b ++ r) =
      (unescape r).map (b :: ·) := by
  have tab : ∀ i : Fin 256, hexVal (hexDigit (UInt8.ofNat i.val >>> 4)) = some (i.val / 16) ∧
    hexVal (hexDigit (UInt8.ofNat i.val &&& 0xF)) = some (i.val % 16) := by decide +kernel
  have t := tab ⟨b.toNat, b.toNat_lt⟩
  simp only [UInt8.ofNat_toNat] at t
  have hex : unescape (Msgfmt.hexEscape b ++ r) = (unescape r).map (b :: ·) := by
    simp only [Msgfmt.hexEscape, List.cons_append, List.nil_append, unescape, t.1, t.2]
    rw [Nat.div_add_mod]; simp
  unfold encG
  split
  · exact hex
  · split
    · rename_i hs
      have : b ≠ 92 := by intro hb; subst hb; exact absurd hs (by decide)
      simp only [List.cons_append, List.nil_append]
      rw [unescape.eq_def]
      split
      · rename_i heq; simp at heq
      · rename_i heq; simp only [List.cons.injEq] at heq; exact absurd heq.1 this
      · rename_i heq; simp only [List.cons.injEq] at heq; exact absurd heq.1 this
      · rename_i heq; simp only [List.cons.injEq] at heq; obtain ⟨rfl, rfl⟩ := heq
        rw [if_neg this]
    · unfold Msgfmt.bytesEscape
      split
      · rename_i hb; rcases hb with rfl | rfl <;> simp [unescape]
      · split
        · rename_i h; subst h; simp [unescape]
        · split
          · rename_i h; subst h; simp [unescape]
          · split
            · rename_i h; subst h; simp [unescape]
            · exact hex

theorem unescape_flatMap (v : Bytes) :
    unescape (v.flatMap (encG Msgfmt.safeSet Msgfmt.hexEscape Msgfmt.bytesEscape)) = some v := by
  induction v with
  | nil => simp [unescape]
  | cons b v ih => rw [List.flatMap_cons, unescape_enc, ih]; rfl

/-- C24 (partial): the printed text reads back to exactly the bytes unless one of the
two byte-dropping patterns occurs.  Missing: those inputs, where it is false
(`msgWriteBytes_drops`). -/
theorem msgWriteBytes_roundtrip_partial (s : Bytes)
    (h1 : ¬ OnlyLast MsgSafe s) (h2 : ¬ HighAfterSafe MsgSafe s) :
    unescape (Msgfmt.writeBytes [] s) = some s := by
  rw [msgWriteBytes_eq, kept_id msgSafe_iff s h1 h2, List.nil_append, unescape_flatMap]

example : Msgfmt.writeBytes [] [97, 0x80, 92, 120, 124, 98] = asc "a\\x80\\\\x\\x7cb" ∧
    unescape (asc "a\\x80\\\\x\\x7cb") = some [97, 0x80, 92, 120, 124, 98] := by
  constructor <;> decide +kernel

/-- C24 (partial), as injectivity: outside the byte-dropping patterns different byte
slices print differently. -/
theorem msgWriteBytes_injective_partial (s s' : Bytes)
    (h1 : ¬ OnlyLast MsgSafe s) (h2 : ¬ HighAfterSafe MsgSafe s)
    (h1' : ¬ OnlyLast MsgSafe s') (h2' : ¬ HighAfterSafe MsgSafe s')
    (h : Msgfmt.writeBytes [] s = Msgfmt.writeBytes [] s') : s = s' := by
  have a := msgWriteBytes_roundtrip_partial s h1 h2
  rw [h, msgWriteBytes_roundtrip_partial s' h1' h2'] at a
  exact (Option.some.inj a).symm

/-- C24, negation: in both patterns bytes are missing from the text. -/
theorem msgWriteBytes_drops (s : Bytes) (h : OnlyLast MsgSafe s ∨ HighAfterSafe MsgSafe s) :
    ∃ v, unescape (Msgfmt.writeBytes [] s) = some v ∧ v.length < s.length := by
  refine ⟨kept Msgfmt.safeSet s, ?_, kept_lt msgSafe_iff s h⟩
  rw [msgWriteBytes_eq, List.nil_append, unescape_flatMap]

/-- C24, negation: two different slices print the same. -/
theorem msgWriteBytes_ambiguous :
    Msgfmt.writeBytes [] (asc "ok|") = Msgfmt.writeBytes [] (asc "ok") := by decide +kernel

end Verif.Jsonfmt
