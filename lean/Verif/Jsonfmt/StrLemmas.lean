import Verif.Jsonfmt.StrModel
import Verif.Spec.JsonString

/-! Helper lemmas for the string and bytes escapers. -/

namespace Verif.Jsonfmt
open Verif.Spec

theorem fastLoop_fst (ok : UInt8 → Bool) (s : Bytes) :
    ∀ (space : Bytes) (i next : Nat),
      (fastLoop ok space i next s).1 = space ++ s.takeWhile ok := by
  induction s with
  | nil => intros; simp [fastLoop]
  | cons c cs ih =>
    intro space i next
    simp only [fastLoop, List.takeWhile_cons]
    split
    · rw [ih]; simp
    · simp

theorem fastLoop_snd (ok : UInt8 → Bool) (s : Bytes) :
    ∀ (space : Bytes) (i next : Nat),
      (fastLoop ok space i next s).2 =
        if s.dropWhile ok = [] then (if s = [] then i else next + s.length - 1)
        else next + (s.takeWhile ok).length := by
  induction s with
  | nil => intros; simp [fastLoop]
  | cons c cs ih =>
    intro space i next
    simp only [fastLoop, List.takeWhile_cons, List.dropWhile_cons]
    by_cases h : ok c
    · simp only [h, if_true]
      rw [ih]
      by_cases hd : cs.dropWhile ok = []
      · simp only [hd, if_true]
        by_cases hc : cs = []
        · simp [hc]
        · simp [hc]; try omega
      · simp only [hd, if_false, List.length_cons]; omega
    · simp [h]

theorem takeWhile_length_le (ok : UInt8 → Bool) (s : Bytes) :
    (s.takeWhile ok).length + (s.dropWhile ok).length = s.length := by
  rw [← List.length_append, List.takeWhile_append_dropWhile]

/-- The position of the break and the "all copied or broke at the last byte" test. -/
theorem fast_cases (ok : UInt8 → Bool) (space s : Bytes) :
    (((fastLoop ok space 0 0 s).2 : Int) = (s.length : Int) - 1 ↔
      (s ≠ [] ∧ s.dropWhile ok = []) ∨ ∃ c, s.dropWhile ok = [c]) ∧
    (¬ ((fastLoop ok space 0 0 s).2 : Int) = (s.length : Int) - 1 →
      s.drop (fastLoop ok space 0 0 s).2 = s.dropWhile ok) := by
  have hl := takeWhile_length_le ok s
  rw [fastLoop_snd]
  by_cases hd : s.dropWhile ok = []
  · simp only [hd, if_true]
    by_cases hs : s = []
    · subst hs; simp
    · have : 0 < s.length := by cases s <;> simp_all
      simp only [hs, if_false]
      constructor
      · constructor
        · intro _; left; exact ⟨hs, trivial⟩
        · intro _; omega
      · intro h; omega
  · simp only [hd, if_false]
    constructor
    · constructor
      · intro h
        right
        have : (s.dropWhile ok).length = 1 := by omega
        match hx : s.dropWhile ok, this with
        | [c], _ => exact ⟨c, rfl⟩
      · rintro (h | ⟨c, hc⟩)
        · exact absurd h.2 id
        · rw [hc] at hl; simp at hl; omega
    · intro _
      rw [Nat.zero_add]
      have := List.drop_left (l₁ := s.takeWhile ok) (l₂ := s.dropWhile ok)
      rw [List.takeWhile_append_dropWhile] at this
      exact this

/-! ### JSON strings -/

/-- Bytes copied as they are. -/
def plain (c : UInt8) : Bool := decide (c > 31) && decide (c ≠ 34) && decide (c ≠ 92)

/-- What one byte becomes. -/
def strEnc (b : UInt8) : Bytes := if plain b then [b] else strEscape b

theorem plain_iff (b : UInt8) : plain b = true ↔ (0x80 ≤ b ∨ safeSet b = true) := by
  have : ∀ i : Fin 256, plain (UInt8.ofNat i.val) = true ↔
      (0x80 ≤ UInt8.ofNat i.val ∨ safeSet (UInt8.ofNat i.val) = true) := by decide +kernel
  have h := this ⟨b.toNat, b.toNat_lt⟩
  simpa using h

theorem flatMap_strEnc_plain (p : Bytes) (h : ∀ c ∈ p, plain c = true) :
    p.flatMap strEnc = p := by
  induction p with
  | nil => rfl
  | cons c p ih =>
    simp only [List.flatMap_cons, strEnc, h c (by simp), if_true]
    rw [ih (fun x hx => h x (by simp [hx]))]; rfl

theorem strSlow_final (s : Bytes) : ∀ (rest : Bytes) (i : Nat) (space : Bytes) (start : Nat),
    start ≤ i → s.drop i = rest → i + rest.length = s.length →
    (∀ c ∈ (s.drop start).take (i - start), plain c = true) →
    (if (strSlowLoop s rest i space start).2 < s.length
      then (strSlowLoop s rest i space start).1 ++ s.drop (strSlowLoop s rest i space start).2
      else (strSlowLoop s rest i space start).1) =
      space ++ (s.drop start).flatMap strEnc := by
  intro rest
  induction rest with
  | nil =>
    intro i space start hle hd hlen hp
    show (if start < s.length then space ++ s.drop start else space) = _
    simp only [List.length_nil, Nat.add_zero] at hlen
    have : (s.drop start).take (i - start) = s.drop start := by
      apply List.take_of_length_le; simp; omega
    rw [this] at hp
    rw [flatMap_strEnc_plain _ hp]
    by_cases hlt : start < s.length
    · rw [if_pos hlt]
    · rw [if_neg hlt, List.drop_of_length_le (by omega)]; simp
  | cons b rest ih =>
    intro i space start hle hd hlen hp
    simp only [List.length_cons] at hlen
    have hd' : s.drop (i + 1) = rest := by
      rw [← List.drop_drop, hd]; rfl
    have hsplit : s.drop start = (s.drop start).take (i - start) ++ b :: rest := by
      conv => lhs; rw [← List.take_append_drop (i - start) (s.drop start)]
      rw [List.drop_drop, show start + (i - start) = i by omega, hd]
    have htake : (s.drop start).take (i + 1 - start) = (s.drop start).take (i - start) ++ [b] := by
      rw [show i + 1 - start = (i - start) + 1 by omega, List.take_add_one]
      congr 1
      rw [List.getElem?_drop, show start + (i - start) = i by omega]
      have : (s.drop i)[0]? = some b := by rw [hd]; rfl
      rw [List.getElem?_drop] at this
      simp at this; simp [this]
    by_cases hb : plain b = true
    · have hcase := (plain_iff b).mp hb
      have : strSlowLoop s (b :: rest) i space start = strSlowLoop s rest (i + 1) space start := by
        simp only [strSlowLoop]
        rcases hcase with h | h
        · simp [h]
        · by_cases h' : 0x80 ≤ b <;> simp [h, h']
      rw [this]
      apply ih (i + 1) space start (by omega) hd' (by omega)
      rw [htake]
      intro c hc
      simp only [List.mem_append, List.mem_singleton] at hc
      rcases hc with hc | rfl
      · exact hp c hc
      · exact hb
    · have hn : ¬ (0x80 ≤ b ∨ safeSet b = true) := fun h => hb ((plain_iff b).mpr h)
      have h1 : ¬ 0x80 ≤ b := fun h => hn (Or.inl h)
      have h2 : ¬ safeSet b = true := fun h => hn (Or.inr h)
      have : strSlowLoop s (b :: rest) i space start =
          strSlowLoop s rest (i + 1) (space ++ (s.drop start).take (i - start) ++ strEscape b) (i + 1) := by
        simp only [strSlowLoop, h1, if_false]
        rw [if_neg h2]
        congr 2
        by_cases hlt : start < i
        · rw [if_pos hlt]
        · rw [if_neg hlt, show i - start = 0 by omega]; simp
      rw [this, ih (i + 1) _ (i + 1) (Nat.le_refl _) hd' (by omega) (by simp)]
      conv => rhs; rw [hsplit]
      rw [List.flatMap_append, flatMap_strEnc_plain _ hp, hd']
      simp [List.flatMap_cons, strEnc, hb]

theorem writeStringSlowPath_eq (space s : Bytes) :
    writeStringSlowPath space s = space ++ s.flatMap strEnc ++ [34] := by
  unfold writeStringSlowPath
  simp only
  rw [strSlow_final s s 0 space 0 (Nat.le_refl _) rfl (by simp) (by simp)]
  simp

open Classical in
/-- The body `WriteString` emits: everything escaped, or, when the only unsafe byte
is the last one, everything but that byte. -/
theorem writeString_eq (space s : Bytes) :
    writeString space s = space ++ [34] ++
      (if ∃ c, s.dropWhile plain = [c] then s.takeWhile plain else s.flatMap strEnc) ++ [34] := by
  have hc := fast_cases plain (space ++ [34]) s
  have hp : ∀ c ∈ s.takeWhile plain, plain c = true := by
    intro c hc
    exact List.all_eq_true.mp List.all_takeWhile c hc
  have hsplit := List.takeWhile_append_dropWhile (p := plain) (l := s)
  unfold writeString
  simp only
  rw [show (fun c : UInt8 => decide (c > 31) && decide (c ≠ 34) && decide (c ≠ 92)) = plain from rfl]
  by_cases h : ((fastLoop plain (space ++ [34]) 0 0 s).2 : Int) = (s.length : Int) - 1
  · rw [if_pos h, fastLoop_fst]
    rcases hc.1.mp h with ⟨hne, hd⟩ | ⟨c, hd⟩
    · rw [hd] at hsplit
      simp only [List.append_nil] at hsplit
      have : ¬ ∃ c, s.dropWhile plain = [c] := by rw [hd]; simp
      rw [if_neg this]
      rw [hsplit] at hp ⊢
      rw [flatMap_strEnc_plain s hp]
    · rw [if_pos ⟨c, hd⟩]
  · rw [if_neg h, hc.2 h, fastLoop_fst, writeStringSlowPath_eq]
    have : ¬ ∃ c, s.dropWhile plain = [c] := fun hx => h (hc.1.mpr (Or.inr hx))
    rw [if_neg this]
    conv => rhs; rw [← hsplit]
    rw [List.flatMap_append, flatMap_strEnc_plain _ hp]
    simp

theorem parseBody_plain (c : UInt8) (r : Bytes) (h : plain c = true) :
    parseStringBody (c :: r) =
      (parseStringBody r).map fun p => (c :: p.1, p.2) := by
  have h34 : c ≠ 34 := by
    intro hc; subst hc; exact absurd h (by decide)
  have h92 : c ≠ 92 := by
    intro hc; subst hc; exact absurd h (by decide)
  have hlt : ¬ c < 32 := by
    simp only [plain, Bool.and_eq_true, decide_eq_true_eq] at h
    have h1 := h.1.1
    simp only [gt_iff_lt, UInt8.lt_iff_toNat_lt] at h1 ⊢
    have : (31 : UInt8).toNat = 31 := rfl
    have : (32 : UInt8).toNat = 32 := rfl
    omega
  rw [parseStringBody.eq_def]
  split
  · simp_all
  · simp_all
  · simp_all
  · simp_all
  · rename_i heq
    simp only [List.cons.injEq] at heq
    obtain ⟨rfl, rfl⟩ := heq
    rw [if_neg (by simp [hlt, h92])]
    cases parseStringBody r <;> rfl

theorem parseBody_u (b : UInt8) (r : Bytes) (h : plain b = false)
    (h1 : b ≠ 92) (h2 : b ≠ 34) :
    parseStringBody ([92, 117, 48, 48, hexDigit (b >>> 4), hexDigit (b &&& 0xF)] ++ r) =
      (parseStringBody r).map fun p => (b :: p.1, p.2) := by
  have tab : ∀ i : Fin 256, plain (UInt8.ofNat i.val) = false →
      UInt8.ofNat i.val ≠ 92 → UInt8.ofNat i.val ≠ 34 →
      hex4 48 48 (hexDigit (UInt8.ofNat i.val >>> 4)) (hexDigit (UInt8.ofNat i.val &&& 0xF))
        = some i.val ∧ isScalar i.val = true ∧ utf8Encode i.val = [UInt8.ofNat i.val] := by
    decide +kernel
  have t := tab ⟨b.toNat, b.toNat_lt⟩
  simp only [UInt8.ofNat_toNat] at t
  obtain ⟨t1, t2, t3⟩ := t h h1 h2
  simp only [List.cons_append, List.nil_append]
  rw [parseStringBody, t1]
  simp only [t2, t3, if_true]
  cases parseStringBody r <;> rfl

theorem parseBody_simple (e x : UInt8) (r : Bytes) (he : simpleEscape e = some x) :
    parseStringBody (92 :: e :: r) =
      (parseStringBody r).map fun p => (x :: p.1, p.2) := by
  have hne : e ≠ 117 := by
    intro h; subst h; simp [simpleEscape] at he
  rw [parseStringBody.eq_def]
  split
  · simp_all
  · simp_all
  · simp_all
  · rename_i heq
    simp only [List.cons.injEq, true_and] at heq
    obtain ⟨rfl, rfl⟩ := heq
    simp only [he]
    cases parseStringBody r <;> rfl
  · rename_i hx heq
    simp only [List.cons.injEq] at heq
    obtain ⟨rfl, rfl⟩ := heq
    exact absurd rfl (hx _ _ rfl)

theorem parseBody_strEnc (b : UInt8) (r : Bytes) :
    parseStringBody (strEnc b ++ r) =
      (parseStringBody r).map fun p => (b :: p.1, p.2) := by
  unfold strEnc
  split
  · rename_i h; exact parseBody_plain b r h
  · rename_i h
    simp only [Bool.not_eq_true] at h
    unfold strEscape
    split
    · rename_i hb
      rcases hb with rfl | rfl
      · exact parseBody_simple 92 92 r (by decide)
      · exact parseBody_simple 34 34 r (by decide)
    · rename_i hb
      split
      · rename_i h10; subst h10; exact parseBody_simple 110 10 r (by decide)
      · split
        · rename_i h13; subst h13; exact parseBody_simple 114 13 r (by decide)
        · split
          · rename_i h9; subst h9; exact parseBody_simple 116 9 r (by decide)
          · exact parseBody_u b r h (fun h' => hb (Or.inl h')) (fun h' => hb (Or.inr h'))

theorem parseBody_close (r : Bytes) : parseStringBody (34 :: r) = some ([], r) := by
  simp [parseStringBody]

theorem parseBody_flatMap (s r : Bytes) :
    parseStringBody (s.flatMap strEnc ++ 34 :: r) = some (s, r) := by
  induction s with
  | nil => exact parseBody_close r
  | cons b s ih =>
    rw [List.flatMap_cons, List.append_assoc, parseBody_strEnc, ih]; rfl

end Verif.Jsonfmt
