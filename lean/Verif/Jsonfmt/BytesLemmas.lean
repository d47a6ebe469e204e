import Verif.Jsonfmt.StrLemmas

/-! Helper lemmas for the two `[]byte` escapers. -/

namespace Verif.Jsonfmt
open Verif.Spec

/-- Common shape of the two `[]byte` slow loops (helper for proofs only). -/
def slowG (safe : UInt8 → Bool) (hi lo : UInt8 → Bytes) (s : Bytes) :
    Bytes → Nat → Bytes → Nat → Bytes × Nat
  | [], _, space, start => (space, start)
  | b :: rest, i, space, start =>
    if 0x80 ≤ b then slowG safe hi lo s rest (i + 1) (space ++ hi b) (i + 1)
    else if safe b then slowG safe hi lo s rest (i + 1) space start
    else
      slowG safe hi lo s rest (i + 1)
        ((if start < i then space ++ (s.drop start).take (i - start) else space) ++ lo b) (i + 1)

theorem bytesSlowLoop_eq (s r : Bytes) : ∀ i space start,
    bytesSlowLoop s r i space start = slowG safeSet hexEscape2 bytesEscape s r i space start := by
  induction r with
  | nil => intros; rfl
  | cons b r ih => intro i space start; simp only [bytesSlowLoop, slowG, ih]

theorem msgSlowLoop_eq (s r : Bytes) : ∀ i space start,
    Msgfmt.bytesSlowLoop s r i space start =
      slowG Msgfmt.safeSet Msgfmt.hexEscape Msgfmt.bytesEscape s r i space start := by
  induction r with
  | nil => intros; rfl
  | cons b r ih => intro i space start; simp only [Msgfmt.bytesSlowLoop, slowG, ih]

/-- Output of the slow loop with pending bytes `p`. -/
def outG (safe : UInt8 → Bool) (hi lo : UInt8 → Bytes) : Bytes → Bytes → Bytes
  | p, [] => p
  | p, b :: r =>
    if 0x80 ≤ b then hi b ++ outG safe hi lo [] r
    else if safe b then outG safe hi lo (p ++ [b]) r
    else p ++ lo b ++ outG safe hi lo [] r

theorem slowG_final (safe : UInt8 → Bool) (hi lo : UInt8 → Bytes) (s : Bytes) :
    ∀ (rest : Bytes) (i : Nat) (space : Bytes) (start : Nat),
    start ≤ i → s.drop i = rest → i + rest.length = s.length →
    (if (slowG safe hi lo s rest i space start).2 < s.length
      then (slowG safe hi lo s rest i space start).1 ++ s.drop (slowG safe hi lo s rest i space start).2
      else (slowG safe hi lo s rest i space start).1) =
      space ++ outG safe hi lo ((s.drop start).take (i - start)) rest := by
  intro rest
  induction rest with
  | nil =>
    intro i space start hle hd hlen
    show (if start < s.length then space ++ s.drop start else space) = _
    simp only [List.length_nil, Nat.add_zero] at hlen
    have : (s.drop start).take (i - start) = s.drop start := by
      apply List.take_of_length_le; simp; omega
    rw [this]
    simp only [outG]
    by_cases hlt : start < s.length
    · rw [if_pos hlt]
    · rw [if_neg hlt, List.drop_of_length_le (by omega)]; simp
  | cons b rest ih =>
    intro i space start hle hd hlen
    simp only [List.length_cons] at hlen
    have hd' : s.drop (i + 1) = rest := by
      rw [← List.drop_drop, hd]; rfl
    have htake : (s.drop start).take (i + 1 - start) = (s.drop start).take (i - start) ++ [b] := by
      rw [show i + 1 - start = (i - start) + 1 by omega, List.take_add_one]
      congr 1
      rw [List.getElem?_drop, show start + (i - start) = i by omega]
      have : (s.drop i)[0]? = some b := by rw [hd]; rfl
      rw [List.getElem?_drop] at this
      simp at this; simp [this]
    have hz : (s.drop (i+1)).take (i + 1 - (i + 1)) = [] := by simp
    by_cases h1 : 0x80 ≤ b
    · have e : slowG safe hi lo s (b :: rest) i space start =
          slowG safe hi lo s rest (i + 1) (space ++ hi b) (i + 1) := by simp only [slowG, h1, if_true]
      rw [e, ih (i + 1) _ (i + 1) (Nat.le_refl _) hd' (by omega), hz]
      simp [outG, h1]
    · by_cases h2 : safe b = true
      · have e : slowG safe hi lo s (b :: rest) i space start =
            slowG safe hi lo s rest (i + 1) space start := by simp only [slowG, h1, h2, if_true, if_false]
        rw [e, ih (i + 1) space start (by omega) hd' (by omega), htake]
        simp [outG, h1, h2]
      · have e : slowG safe hi lo s (b :: rest) i space start =
            slowG safe hi lo s rest (i + 1) (space ++ (s.drop start).take (i - start) ++ lo b) (i + 1) := by
          simp only [slowG, h1, if_false]
          rw [if_neg h2]
          congr 2
          by_cases hlt : start < i
          · rw [if_pos hlt]
          · rw [if_neg hlt, show i - start = 0 by omega]; simp
        rw [e, ih (i + 1) _ (i + 1) (Nat.le_refl _) hd' (by omega), hz]
        simp [outG, h1, h2]

/-- What one byte becomes. -/
def encG (safe : UInt8 → Bool) (hi lo : UInt8 → Bytes) (b : UInt8) : Bytes :=
  if 0x80 ≤ b then hi b else if safe b then [b] else lo b

/-- The first byte of `s` that is not a safe ASCII byte is from 0x80 on. -/
def nextHi (safe : UInt8 → Bool) (s : Bytes) : Bool :=
  match s.find? (fun b => decide (0x80 ≤ b) || !safe b) with
  | some c => decide (0x80 ≤ c)
  | none => false

/-- The bytes that the slow path keeps: a safe ASCII byte is lost when the next
byte needing an escape is from 0x80 on. -/
def survive (safe : UInt8 → Bool) : Bytes → Bytes
  | [] => []
  | b :: r => if b < 0x80 ∧ safe b ∧ nextHi safe r then survive safe r else b :: survive safe r

theorem lt_iff_not_ge (b : UInt8) : b < 0x80 ↔ ¬ 0x80 ≤ b := by
  simp only [UInt8.lt_iff_toNat_lt, UInt8.le_iff_toNat_le]; omega

theorem outG_eq (safe : UInt8 → Bool) (hi lo : UInt8 → Bytes) (r : Bytes) : ∀ p,
    outG safe hi lo p r =
      (if nextHi safe r then [] else p) ++ (survive safe r).flatMap (encG safe hi lo) := by
  induction r with
  | nil => intro p; simp [outG, nextHi, survive]
  | cons b r ih =>
    intro p
    by_cases h1 : 0x80 ≤ b
    · have hn : nextHi safe (b :: r) = true := by simp [nextHi, h1]
      have hs : survive safe (b :: r) = b :: survive safe r := by
        simp [survive, lt_iff_not_ge, h1]
      simp [outG, h1, ih, hn, hs, encG]
    · by_cases h2 : safe b = true
      · have hn : nextHi safe (b :: r) = nextHi safe r := by simp [nextHi, h1, h2]
        have hs : survive safe (b :: r) =
            if nextHi safe r then survive safe r else b :: survive safe r := by
          simp [survive, lt_iff_not_ge, h1, h2]
        rw [hn, hs]
        simp only [outG, h1, h2, if_true, if_false, ih]
        split <;> simp [encG, h1, h2]
      · have hn : nextHi safe (b :: r) = false := by simp [nextHi, h1, h2]
        have hs : survive safe (b :: r) = b :: survive safe r := by
          simp [survive, h2]
        simp [outG, h1, h2, ih, hn, hs, encG]

/-- Bytes the fast loop copies. -/
def okG (safe : UInt8 → Bool) (c : UInt8) : Bool := decide (c < 0x80) && safe c

open Classical in
/-- The bytes that reach the output. -/
noncomputable def kept (safe : UInt8 → Bool) (s : Bytes) : Bytes :=
  if ∃ c, s.dropWhile (okG safe) = [c] then s.takeWhile (okG safe)
  else s.takeWhile (okG safe) ++ survive safe (s.dropWhile (okG safe))

theorem flatMap_ok (safe : UInt8 → Bool) (hi lo : UInt8 → Bytes) (p : Bytes)
    (h : ∀ c ∈ p, okG safe c = true) : p.flatMap (encG safe hi lo) = p := by
  induction p with
  | nil => rfl
  | cons c p ih =>
    have hc := h c (by simp)
    simp only [okG, Bool.and_eq_true, decide_eq_true_eq, lt_iff_not_ge] at hc
    rw [List.flatMap_cons, ih (fun x hx => h x (by simp [hx]))]
    simp [encG, hc.1, hc.2]

theorem okG_takeWhile (safe : UInt8 → Bool) (s : Bytes) :
    ∀ c ∈ s.takeWhile (okG safe), okG safe c = true :=
  fun c hc => List.all_eq_true.mp List.all_takeWhile c hc

/-- Both `[]byte` writers: escape the kept bytes one by one. -/
theorem writeG_eq (safe : UInt8 → Bool) (hi lo : UInt8 → Bytes) (space s : Bytes) :
    (if ((fastLoop (okG safe) space 0 0 s).2 : Int) = (s.length : Int) - 1
      then (fastLoop (okG safe) space 0 0 s).1
      else
        (if (slowG safe hi lo (s.drop (fastLoop (okG safe) space 0 0 s).2)
              (s.drop (fastLoop (okG safe) space 0 0 s).2) 0 (fastLoop (okG safe) space 0 0 s).1 0).2 <
            (s.drop (fastLoop (okG safe) space 0 0 s).2).length
          then (slowG safe hi lo (s.drop (fastLoop (okG safe) space 0 0 s).2)
              (s.drop (fastLoop (okG safe) space 0 0 s).2) 0 (fastLoop (okG safe) space 0 0 s).1 0).1 ++
            (s.drop (fastLoop (okG safe) space 0 0 s).2).drop
              (slowG safe hi lo (s.drop (fastLoop (okG safe) space 0 0 s).2)
              (s.drop (fastLoop (okG safe) space 0 0 s).2) 0 (fastLoop (okG safe) space 0 0 s).1 0).2
          else (slowG safe hi lo (s.drop (fastLoop (okG safe) space 0 0 s).2)
              (s.drop (fastLoop (okG safe) space 0 0 s).2) 0 (fastLoop (okG safe) space 0 0 s).1 0).1)) =
      space ++ (kept safe s).flatMap (encG safe hi lo) := by
  have hc := fast_cases (okG safe) space s
  have hp := okG_takeWhile safe s
  have hsplit := List.takeWhile_append_dropWhile (p := okG safe) (l := s)
  by_cases h : ((fastLoop (okG safe) space 0 0 s).2 : Int) = (s.length : Int) - 1
  · rw [if_pos h, fastLoop_fst]
    rcases hc.1.mp h with ⟨hne, hd⟩ | ⟨c, hd⟩
    · have : ¬ ∃ c, s.dropWhile (okG safe) = [c] := by rw [hd]; simp
      rw [kept, if_neg this, hd]
      simp only [survive, List.append_nil]
      rw [flatMap_ok _ _ _ _ hp]
    · rw [kept, if_pos ⟨c, hd⟩, flatMap_ok _ _ _ _ hp]
  · rw [if_neg h, hc.2 h, fastLoop_fst]
    rw [slowG_final safe hi lo _ (s.dropWhile (okG safe)) 0 _ 0 (Nat.le_refl _) rfl (by simp), outG_eq]
    have : ¬ ∃ c, s.dropWhile (okG safe) = [c] := fun hx => h (hc.1.mpr (Or.inr hx))
    rw [kept, if_neg this, List.flatMap_append, flatMap_ok _ _ _ _ hp]
    simp

theorem writeBytes_eq (space s : Bytes) :
    writeBytes space s =
      space ++ [34] ++ (kept safeSet s).flatMap (encG safeSet hexEscape2 bytesEscape) ++ [34] := by
  rw [← writeG_eq]
  unfold writeBytes
  simp only [writeBytesSlowPath, bytesSlowLoop_eq]
  rw [show (fun c : UInt8 => decide (c < 0x80) && safeSet c) = okG safeSet from rfl]
  split
  · rfl
  · rfl

theorem msgWriteBytes_eq (space s : Bytes) :
    Msgfmt.writeBytes space s =
      space ++ (kept Msgfmt.safeSet s).flatMap
        (encG Msgfmt.safeSet Msgfmt.hexEscape Msgfmt.bytesEscape) := by
  rw [← writeG_eq]
  unfold Msgfmt.writeBytes
  simp only [Msgfmt.writeBytesSlowPath, msgSlowLoop_eq]
  rw [show (fun c : UInt8 => decide (c < 0x80) && Msgfmt.safeSet c) = okG Msgfmt.safeSet from rfl]
end Verif.Jsonfmt
