import Verif.Parse.Sim
import Verif.Parse.Utf8Lemmas

/-!
# The readers in terms of the remaining input
-/

namespace Verif.Parse
open Verif.Spec

/-! ### Byte by byte scans -/

/-- What a scan does with one byte. -/
inductive Step (σ : Type) where
  | stop
  | next (st : σ)
  | fail (e : Err)

/-- A scan made of single steps. -/
def genScan {σ : Type} (step : σ → UInt8 → Step σ) : Nat → σ → Bytes → Scan σ
  | _, st, [] => .more st
  | i, st, b :: buf =>
    match step st b with
    | .stop => .stop i st
    | .next st' => genScan step (i + 1) st' buf
    | .fail e => .fail e

theorem genScan_shift {σ : Type} (step : σ → UInt8 → Step σ) : ∀ (buf : Bytes) (k i : Nat) (st : σ),
    genScan step (k + i) st buf = (genScan step i st buf).shift k := by
  intro buf
  induction buf with
  | nil => intro k i st; rfl
  | cons b buf ih =>
    intro k i st
    simp only [genScan]
    cases step st b with
    | stop => rfl
    | fail e => rfl
    | next st' => exact ih k (i + 1) st'

theorem genScan_app {σ : Type} (step : σ → UInt8 → Step σ) : ∀ (x y : Bytes) (i : Nat) (st : σ),
    genScan step i st (x ++ y) =
      match genScan step i st x with
      | .stop i st' => .stop i st'
      | .more st' => genScan step (i + x.length) st' y
      | .fail e => .fail e := by
  intro x
  induction x with
  | nil => intro y i st; simp [genScan]
  | cons b x ih =>
    intro y i st
    simp only [List.cons_append, genScan, List.length_cons]
    cases step st b with
    | stop => rfl
    | fail e => rfl
    | next st' =>
      simp only
      rw [ih y (i + 1) st', show i + (x.length + 1) = i + 1 + x.length by omega]

theorem genScan_bound {σ : Type} (step : σ → UInt8 → Step σ) : ∀ (x : Bytes) (i : Nat) (st : σ) (k : Nat) (st' : σ),
    genScan step i st x = .stop k st' → k < i + x.length := by
  intro x
  induction x with
  | nil => intro i st k st' h; simp [genScan] at h
  | cons b x ih =>
    intro i st k st' h
    simp only [genScan] at h
    cases hs : step st b with
    | stop => rw [hs] at h; simp only [Scan.stop.injEq] at h; simp; omega
    | fail e => rw [hs] at h; simp at h
    | next st'' =>
      rw [hs] at h
      have := ih _ _ _ _ h
      simp only [List.length_cons]; omega

theorem genScan_hom {σ : Type} (step : σ → UInt8 → Step σ) :
    ScanHom (fun st buf => genScan step 0 st buf) := by
  refine ⟨fun st => rfl, ?_, ?_⟩
  · intro st x y
    rw [genScan_app]
    cases genScan step 0 st x with
    | stop i st' => rfl
    | fail e => rfl
    | more st' => rw [show 0 + x.length = x.length + 0 by omega]; exact genScan_shift step y x.length 0 st'
  · intro st x i st' h
    have := genScan_bound step x 0 st i st' h
    omega

/-- A step function that keeps going as long as bytes are in a class. -/
def keepStep {σ : Type} (keep : UInt8 → Bool) (f : σ → UInt8 → σ) (st : σ) (b : UInt8) : Step σ :=
  if keep b then .next (f st b) else .stop

theorem genScan_keep {σ : Type} (keep : UInt8 → Bool) (f : σ → UInt8 → σ) : ∀ (buf : Bytes) (i : Nat) (st : σ),
    genScan (keepStep keep f) i st buf =
      if buf.dropWhile keep = [] then .more (buf.foldl f st)
      else .stop (i + (buf.takeWhile keep).length) ((buf.takeWhile keep).foldl f st) := by
  intro buf
  induction buf with
  | nil => intro i st; simp [genScan]
  | cons b buf ih =>
    intro i st
    simp only [genScan, keepStep]
    cases h : keep b with
    | false => simp [h]
    | true =>
      simp only [if_true, List.dropWhile_cons_of_pos h, List.takeWhile_cons_of_pos h, List.foldl_cons]
      rw [ih (i + 1) (f st b)]
      by_cases hd : buf.dropWhile keep = []
      · rw [if_pos hd, if_pos hd]
      · rw [if_neg hd, if_neg hd]
        simp only [List.length_cons]
        congr 1; omega

theorem takeWhile_of_dropWhile_nil (keep : UInt8 → Bool) (l : Bytes) (h : l.dropWhile keep = []) :
    l.takeWhile keep = l := by
  have := List.takeWhile_append_dropWhile (p := keep) (l := l)
  rw [h, List.append_nil] at this; exact this

theorem scanInput_keep {σ : Type} (keep : UInt8 → Bool) (f : σ → UInt8 → σ) (a : Input) (st : σ)
    (h : a.err = none) :
    scanInput (fun st buf => genScan (keepStep keep f) 0 st buf) a st =
      ((a.rest.takeWhile keep).foldl f st, a.advance (a.rest.takeWhile keep).length) := by
  simp only [scanInput, h, Option.isSome_none, Bool.false_eq_true, if_false, genScan_keep]
  by_cases hd : a.rest.dropWhile keep = []
  · rw [if_pos hd, takeWhile_of_dropWhile_nil keep _ hd]
  · rw [if_neg hd]; simp

theorem scanAny1_gen (b1 : UInt8) : ∀ (buf : Bytes) (i : Nat) (st : Bytes),
    scanAny1 b1 i st buf = genScan (keepStep (fun b => b != b1) (fun st b => st ++ [b])) i st buf := by
  intro buf
  induction buf with
  | nil => intro i st; rfl
  | cons b buf ih =>
    intro i st
    simp only [scanAny1, genScan, keepStep]
    by_cases h : b = b1
    · simp [h]
    · simp [h, ih]

theorem scanAny2_gen (b1 b2 : UInt8) : ∀ (buf : Bytes) (i : Nat) (st : Bytes),
    scanAny2 b1 b2 i st buf =
      genScan (keepStep (fun b => b != b1 && b != b2) (fun st b => st ++ [b])) i st buf := by
  intro buf
  induction buf with
  | nil => intro i st; rfl
  | cons b buf ih =>
    intro i st
    simp only [scanAny2, genScan, keepStep]
    by_cases h1 : b = b1
    · simp [h1]
    · by_cases h2 : b = b2
      · simp [h2]
      · simp [h1, h2, ih]

/-- The six ASCII white space bytes. -/
def isSpaceByte (b : UInt8) : Bool := (9 ≤ b && b ≤ 13) || b == 32

theorem isSpaceByte_iff (b : UInt8) :
    isSpaceByte b = true ↔ (b = 9 ∨ b = 10 ∨ b = 11 ∨ b = 12 ∨ b = 13 ∨ b = 32) := by
  have tab : ∀ i : Fin 256, isSpaceByte (UInt8.ofNat i.val) = true ↔
      (UInt8.ofNat i.val = 9 ∨ UInt8.ofNat i.val = 10 ∨ UInt8.ofNat i.val = 11 ∨ UInt8.ofNat i.val = 12
        ∨ UInt8.ofNat i.val = 13 ∨ UInt8.ofNat i.val = 32) := by decide +kernel
  have t := tab ⟨b.toNat, b.toNat_lt⟩
  simp only [UInt8.ofNat_toNat] at t
  exact t

theorem scanSpace_gen : ∀ (buf : Bytes) (i : Nat) (st : Nat),
    scanSpace i st buf = genScan (keepStep isSpaceByte (fun st _ => st + 1)) i st buf := by
  intro buf
  induction buf with
  | nil => intro i st; rfl
  | cons b buf ih =>
    intro i st
    simp only [scanSpace, genScan, keepStep]
    by_cases h : isSpaceByte b = true
    · rw [if_pos ((isSpaceByte_iff b).mp h), if_pos h]; exact ih _ _
    · rw [if_neg (fun hx => h ((isSpaceByte_iff b).mpr hx)), if_neg h]

theorem foldl_snoc (l st : Bytes) : l.foldl (fun st b => st ++ [b]) st = st ++ l := by
  induction l generalizing st with
  | nil => simp
  | cons b l ih => simp [ih]

theorem foldl_count (l : Bytes) (st : Nat) : l.foldl (fun st _ => st + 1) st = st + l.length := by
  induction l generalizing st with
  | nil => simp
  | cons b l ih => simp [ih]; omega

/-- The input after taking the longest run of `keep` bytes, unless an error is recorded. -/
def Input.skipWhile (a : Input) (keep : UInt8 → Bool) : Bytes × Input :=
  if a.err = none then (a.rest.takeWhile keep, a.advance (a.rest.takeWhile keep).length) else ([], a)

theorem scanInput_skip {σ : Type} (keep : UInt8 → Bool) (f : σ → UInt8 → σ) (a : Input) (st : σ) :
    scanInput (fun st buf => genScan (keepStep keep f) 0 st buf) a st =
      ((a.skipWhile keep).1.foldl f st, (a.skipWhile keep).2) := by
  by_cases h : a.err = none
  · rw [scanInput_keep keep f a st h]; simp [Input.skipWhile, h]
  · have : a.err.isSome := by cases hx : a.err <;> simp_all
    simp [scanInput, this, Input.skipWhile, h]

theorem keep_nofail {σ : Type} (keep : UInt8 → Bool) (f : σ → UInt8 → σ) (i : Nat) (st : σ) (buf : Bytes) (e : Err) :
    genScan (keepStep keep f) i st buf ≠ .fail e := by
  rw [genScan_keep]; split <;> simp

theorem anyExcept1_sim {strict : Prop} {s : Source} {a : Input} (h : Sim strict s a) (space : Bytes) (b1 : UInt8) :
    ∃ s', anyExcept1 s space b1 = .ok (space ++ (a.skipWhile (fun b => b != b1)).1, s') ∧
      Sim strict s' (a.skipWhile (fun b => b != b1)).2 := by
  have e : (fun (st : Bytes) buf => scanAny1 b1 0 st buf) =
      (fun st buf => genScan (keepStep (fun b => b != b1) (fun st b => st ++ [b])) 0 st buf) := by
    funext st buf; exact scanAny1_gen b1 buf 0 st
  obtain ⟨s', h1, h2⟩ := chunkLoop_sim (genScan_hom (keepStep (fun b => b != b1) (fun (st : Bytes) b => st ++ [b])))
    [] (s.chunks + 2) space h (fun _ e => keep_nofail _ _ _ _ _ e) (Nat.le_refl _)
  rw [scanInput_skip, foldl_snoc] at h1 h2
  exact ⟨s', by unfold anyExcept1; rw [e]; exact h1, h2⟩

theorem anyExcept2_sim {strict : Prop} {s : Source} {a : Input} (h : Sim strict s a) (space : Bytes) (b1 b2 : UInt8) :
    ∃ s', anyExcept2 s space b1 b2 = .ok (space ++ (a.skipWhile (fun b => b != b1 && b != b2)).1, s') ∧
      Sim strict s' (a.skipWhile (fun b => b != b1 && b != b2)).2 := by
  have e : (fun (st : Bytes) buf => scanAny2 b1 b2 0 st buf) =
      (fun st buf => genScan (keepStep (fun b => b != b1 && b != b2) (fun st b => st ++ [b])) 0 st buf) := by
    funext st buf; exact scanAny2_gen b1 b2 buf 0 st
  obtain ⟨s', h1, h2⟩ := chunkLoop_sim (genScan_hom (keepStep (fun b => b != b1 && b != b2) (fun (st : Bytes) b => st ++ [b])))
    [] (s.chunks + 2) space h (fun _ e => keep_nofail _ _ _ _ _ e) (Nat.le_refl _)
  rw [scanInput_skip, foldl_snoc] at h1 h2
  exact ⟨s', by unfold anyExcept2; rw [e]; exact h1, h2⟩

theorem skipSpace_sim {strict : Prop} {s : Source} {a : Input} (h : Sim strict s a) :
    ∃ s', skipSpace s = .ok ((a.skipWhile isSpaceByte).1.length, s') ∧
      Sim strict s' (a.skipWhile isSpaceByte).2 := by
  have e : (fun (st : Nat) buf => scanSpace 0 st buf) =
      (fun st buf => genScan (keepStep isSpaceByte (fun st _ => st + 1)) 0 st buf) := by
    funext st buf; exact scanSpace_gen buf 0 st
  obtain ⟨s', h1, h2⟩ := chunkLoop_sim (genScan_hom (keepStep isSpaceByte (fun (st : Nat) _ => st + 1)))
    0 (s.chunks + 2) 0 h (fun _ e => keep_nofail _ _ _ _ _ e) (Nat.le_refl _)
  rw [scanInput_skip, foldl_count, Nat.zero_add] at h1
  rw [scanInput_skip] at h2
  exact ⟨s', by unfold skipSpace; rw [e]; exact h1, h2⟩

/-! ### Uint64 -/

/-- The step of `Uint64`. -/
def u64Step (value : UInt64) (c : UInt8) : Step UInt64 :=
  match intDigits c with
  | none => .stop
  | some ind =>
    if value > uint64SafeToMultiple10 ∧ (value <<< 3) + (value <<< 1) + ind < value then
      .fail (.msg (asc "uint64: overflow"))
    else .next ((value <<< 3) + (value <<< 1) + ind)

theorem scanUint64_gen : ∀ (buf : Bytes) (i : Nat) (st : UInt64),
    scanUint64 i st buf = genScan u64Step i st buf := by
  intro buf
  induction buf with
  | nil => intro i st; rfl
  | cons b buf ih =>
    intro i st
    simp only [scanUint64, genScan, u64Step]
    cases intDigits b with
    | none => rfl
    | some ind =>
      simp only
      by_cases h1 : st > uint64SafeToMultiple10
      · rw [if_pos h1]
        by_cases h2 : (st <<< 3) + (st <<< 1) + ind < st
        · rw [if_pos h2, if_pos ⟨h1, h2⟩]
        · rw [if_neg h2, if_neg (fun hx => h2 hx.2)]; exact ih _ _
      · rw [if_neg h1, if_neg (fun hx => h1 hx.1)]; exact ih _ _

/-- ASCII decimal digits. -/
def isDigit (c : UInt8) : Bool := 48 ≤ c && c ≤ 57

/-- The number a digit run denotes, continuing from `acc`. -/
def natOfDigits (acc : Nat) (ds : Bytes) : Nat := ds.foldl (fun acc c => acc * 10 + (c.toNat - 48)) acc

theorem natOfDigits_ge (acc : Nat) (ds : Bytes) : acc ≤ natOfDigits acc ds := by
  induction ds generalizing acc with
  | nil => exact Nat.le_refl _
  | cons c ds ih =>
    have := ih (acc * 10 + (c.toNat - 48))
    simp only [natOfDigits, List.foldl_cons] at this ⊢
    omega

theorem intDigits_some (c : UInt8) (h : isDigit c = true) :
    ∃ ind, intDigits c = some ind ∧ ind.toNat = c.toNat - 48 ∧ ind.toNat < 10 := by
  have tab : ∀ i : Fin 256, isDigit (UInt8.ofNat i.val) = true →
      ∃ ind, intDigits (UInt8.ofNat i.val) = some ind ∧ ind.toNat = i.val - 48 ∧ ind.toNat < 10 := by
    have : ∀ i : Fin 256, isDigit (UInt8.ofNat i.val) = true →
      intDigits (UInt8.ofNat i.val) = some (UInt64.ofNat (i.val - 48)) ∧
      (UInt64.ofNat (i.val - 48)).toNat = i.val - 48 ∧ i.val - 48 < 10 := by decide +kernel
    intro i hi
    obtain ⟨h1, h2, h3⟩ := this i hi
    exact ⟨_, h1, h2, by omega⟩
  have t := tab ⟨c.toNat, c.toNat_lt⟩
  simp only [UInt8.ofNat_toNat] at t
  exact t h

theorem intDigits_none (c : UInt8) (h : isDigit c = false) : intDigits c = none := by
  unfold intDigits
  rw [if_neg]
  rintro ⟨h1, h2⟩
  simp [isDigit, h1, h2] at h

/-- `(v << 3) + (v << 1) + d` is `10 v + d` modulo 2^64. -/
theorem times10 (v ind : UInt64) :
    ((v <<< 3) + (v <<< 1) + ind).toNat = (10 * v.toNat + ind.toNat) % 2 ^ 64 := by
  have h3 : (v <<< 3).toNat = (v.toNat * 8) % 2 ^ 64 := by
    rw [UInt64.toNat_shiftLeft]
    show (v.toNat <<< 3) % 2 ^ 64 = _
    rw [Nat.shiftLeft_eq]
  have h1 : (v <<< 1).toNat = (v.toNat * 2) % 2 ^ 64 := by
    rw [UInt64.toNat_shiftLeft]
    show (v.toNat <<< 1) % 2 ^ 64 = _
    rw [Nat.shiftLeft_eq]
  rw [UInt64.toNat_add, UInt64.toNat_add, h3, h1]
  omega

theorem u64Step_stop (v : UInt64) (c : UInt8) (h : isDigit c = false) : u64Step v c = .stop := by
  simp [u64Step, intDigits_none c h]

/-- A digit that keeps the number in range is simply appended. -/
theorem u64Step_next (v : UInt64) (c : UInt8) (h : isDigit c = true)
    (hr : v.toNat * 10 + (c.toNat - 48) < 2 ^ 64) :
    ∃ v', u64Step v c = .next v' ∧ v'.toNat = v.toNat * 10 + (c.toNat - 48) := by
  obtain ⟨ind, h1, h2, h3⟩ := intDigits_some c h
  have ht := times10 v ind
  refine ⟨(v <<< 3) + (v <<< 1) + ind, ?_, by rw [ht, h2]; omega⟩
  simp only [u64Step, h1]
  rw [if_neg]
  rintro ⟨-, hlt⟩
  rw [UInt64.lt_iff_toNat_lt, ht, h2] at hlt
  omega

theorem genScan_digits : ∀ (ds tail : Bytes) (i : Nat) (v : UInt64), (∀ c ∈ ds, isDigit c = true) →
    natOfDigits v.toNat ds < 2 ^ 64 →
    genScan u64Step i v (ds ++ tail) = genScan u64Step (i + ds.length) (UInt64.ofNat (natOfDigits v.toNat ds)) tail := by
  intro ds
  induction ds with
  | nil => intro tail i v _ _; simp [natOfDigits]
  | cons c ds ih =>
    intro tail i v hd hr
    have hge := natOfDigits_ge (v.toNat * 10 + (c.toNat - 48)) ds
    have hr' : natOfDigits (v.toNat * 10 + (c.toNat - 48)) ds < 2 ^ 64 := hr
    obtain ⟨v', h1, h2⟩ := u64Step_next v c (hd c (by simp)) (by omega)
    rw [List.cons_append]
    simp only [genScan, h1, List.length_cons]
    rw [ih tail (i + 1) v' (fun x hx => hd x (by simp [hx])) (by rw [h2]; exact hr'), h2,
      show i + 1 + ds.length = i + (ds.length + 1) by omega]
    rfl

/-- What `Uint64` gives for an input that does not overflow. -/
def Input.uint64 (a : Input) : UInt64 × Input :=
  (UInt64.ofNat (natOfDigits 0 (a.skipWhile isDigit).1), (a.skipWhile isDigit).2)

/-- The digit run at the start of the input fits in 64 bits (or will not be read). -/
def Input.fits64 (a : Input) : Prop := natOfDigits 0 (a.skipWhile isDigit).1 < 2 ^ 64

theorem genScan_number (v : UInt64) (rest : Bytes)
    (h : natOfDigits v.toNat (rest.takeWhile isDigit) < 2 ^ 64) :
    genScan u64Step 0 v rest =
      if rest.dropWhile isDigit = [] then .more (UInt64.ofNat (natOfDigits v.toNat (rest.takeWhile isDigit)))
      else .stop (rest.takeWhile isDigit).length (UInt64.ofNat (natOfDigits v.toNat (rest.takeWhile isDigit))) := by
  have e := List.takeWhile_append_dropWhile (p := isDigit) (l := rest)
  conv => lhs; rw [← e]
  rw [genScan_digits _ _ _ _ (fun c hc => by
    have := List.all_takeWhile (p := isDigit) (l := rest)
    rw [List.all_eq_true] at this; exact this c hc) h]
  cases hd : rest.dropWhile isDigit with
  | nil => simp [genScan]
  | cons c t =>
    have hc : isDigit c = false := by
      have := List.head_dropWhile_not (l := rest) isDigit (by rw [hd]; simp)
      simpa [hd] using this
    simp [genScan, u64Step_stop _ _ hc]

theorem readUint64_sim {strict : Prop} {s : Source} {a : Input} (h : Sim strict s a) (hf : a.fits64) :
    ∃ s', readUint64 s = .ok (a.uint64.1, s') ∧ Sim strict s' a.uint64.2 := by
  have e : (fun (st : UInt64) buf => scanUint64 0 st buf) = (fun st buf => genScan u64Step 0 st buf) := by
    funext st buf; exact scanUint64_gen buf 0 st
  have key : a.err = none → genScan u64Step 0 0 a.rest =
      if a.rest.dropWhile isDigit = [] then .more (UInt64.ofNat (natOfDigits 0 (a.rest.takeWhile isDigit)))
      else .stop (a.rest.takeWhile isDigit).length (UInt64.ofNat (natOfDigits 0 (a.rest.takeWhile isDigit))) := by
    intro hn
    have := genScan_number 0 a.rest (by simpa [Input.fits64, Input.skipWhile, hn] using hf)
    simpa using this
  obtain ⟨s', h1, h2⟩ := chunkLoop_sim (genScan_hom u64Step) 0 (s.chunks + 2) 0 h
    (fun hn e => by rw [key hn]; split <;> simp) (Nat.le_refl _)
  have hs : scanInput (fun st buf => genScan u64Step 0 st buf) a 0 = a.uint64 := by
    by_cases hn : a.err = none
    · simp only [scanInput, hn, Option.isSome_none, Bool.false_eq_true, if_false, key hn, Input.uint64,
        Input.skipWhile, if_true]
      by_cases hd : a.rest.dropWhile isDigit = []
      · rw [if_pos hd, takeWhile_of_dropWhile_nil isDigit _ hd]
      · rw [if_neg hd]
    · have : a.err.isSome := by cases hx : a.err <;> simp_all
      simp [scanInput, this, Input.uint64, Input.skipWhile, hn, natOfDigits]
  rw [hs] at h1 h2
  exact ⟨s', by unfold readUint64; rw [e]; exact h1, h2⟩

/-! ### Reporting errors, signed readers -/

/-- Record an error unless there is one already. -/
def Input.report (a : Input) (e : Err) : Input := { a with err := a.err.or (some e) }

theorem report_sim {strict : Prop} {s : Source} {a : Input} (h : Sim strict s a) (e : Err) :
    Sim strict (s.report e) (a.report e) := by
  have hs : s.report e = { s with err := s.err.or (some e) } := by
    obtain ⟨err, _, _, _⟩ := s; cases err <;> rfl
  rw [hs]
  refine ⟨h.rest, h.noErr, h.packed, h.cur, h.nilr, ?_, ?_, ?_, ?_, h.strictNe⟩
  · intro hr
    show s.err.or _ = a.err.or _
    rw [h.errEq hr]
  · intro hn; simp only [Input.report] at hn; cases ha : a.err <;> simp_all
  · intro _; simp only [Input.report]; cases a.err <;> simp
  · intro hst
    show s.err.or _ = a.err.or _
    rw [h.strictErr hst]

theorem sim_head {strict : Prop} {s : Source} {a : Input} (h : Sim strict s a) (hne : a.rest ≠ []) :
    ∃ c t t', s.current = c :: t ∧ a.rest = c :: t' := by
  cases hc : s.current with
  | nil => exact absurd (h.cur hc) hne
  | cons c t =>
    refine ⟨c, t, t ++ (s.nextList ++ s.pending).flatten, rfl, ?_⟩
    rw [← h.rest, hc]; rfl

/-- The input after an optional minus sign. -/
def Input.afterSign (a : Input) : Input := if a.rest.head? = some 45 then a.advance 1 else a

/-- What `Int64` gives. -/
def Input.int64 (a : Input) : Int64 × Input :=
  let r := a.afterSign.uint64
  if a.rest.head? = some 45 then
    if r.1 > 9223372036854775808 then (0, r.2.report (.msg (asc "int64: overflow")))
    else (-r.1.toInt64, r.2)
  else
    if r.1 > 9223372036854775807 then (0, r.2.report (.msg (asc "int64: overflow")))
    else (r.1.toInt64, r.2)

/-- What `Int32` gives. -/
def Input.int32 (a : Input) : Int32 × Input :=
  let r := a.afterSign.uint64
  if a.rest.head? = some 45 then
    if r.1 > 2147483648 then (0, r.2.report (.msg (asc "int32: overflow")))
    else (-r.1.toUInt32.toInt32, r.2)
  else
    if r.1 > 2147483647 then (0, r.2.report (.msg (asc "int32: overflow")))
    else (r.1.toUInt32.toInt32, r.2)

theorem readInt64_sim {strict : Prop} {s : Source} {a : Input} (h : Sim strict s a) (hne : a.rest ≠ [])
    (hf : a.afterSign.fits64) :
    ∃ s', readInt64 s = .ok (a.int64.1, s') ∧ Sim strict s' a.int64.2 := by
  obtain ⟨c, t, t', hc, ha⟩ := sim_head h hne
  unfold readInt64 Input.int64
  unfold Input.afterSign at hf ⊢
  simp only [hc, ha, List.head?_cons, Option.some.injEq] at hf ⊢
  by_cases h45 : c = 45
  · simp only [h45, if_true] at hf ⊢
    obtain ⟨s1, e1, h1⟩ := consumeN_sim h 1 (by rw [ha]; simp)
    obtain ⟨s2, e2, h2⟩ := readUint64_sim h1 hf
    simp only [e1, e2]
    split
    · exact ⟨_, rfl, report_sim h2 _⟩
    · exact ⟨_, rfl, h2⟩
  · simp only [h45, if_false] at hf ⊢
    obtain ⟨s2, e2, h2⟩ := readUint64_sim h hf
    simp only [e2]
    split
    · exact ⟨_, rfl, report_sim h2 _⟩
    · exact ⟨_, rfl, h2⟩

theorem readInt32_sim {strict : Prop} {s : Source} {a : Input} (h : Sim strict s a) (hne : a.rest ≠ [])
    (hf : a.afterSign.fits64) :
    ∃ s', readInt32 s = .ok (a.int32.1, s') ∧ Sim strict s' a.int32.2 := by
  obtain ⟨c, t, t', hc, ha⟩ := sim_head h hne
  unfold readInt32 Input.int32
  unfold Input.afterSign at hf ⊢
  simp only [hc, ha, List.head?_cons, Option.some.injEq] at hf ⊢
  by_cases h45 : c = 45
  · simp only [h45, if_true] at hf ⊢
    obtain ⟨s1, e1, h1⟩ := consumeN_sim h 1 (by rw [ha]; simp)
    obtain ⟨s2, e2, h2⟩ := readUint64_sim h1 hf
    simp only [e1, e2]
    split
    · exact ⟨_, rfl, report_sim h2 _⟩
    · exact ⟨_, rfl, h2⟩
  · simp only [h45, if_false] at hf ⊢
    obtain ⟨s2, e2, h2⟩ := readUint64_sim h hf
    simp only [e2]
    split
    · exact ⟨_, rfl, report_sim h2 _⟩
    · exact ⟨_, rfl, h2⟩

/-- What `Consume1` does. -/
def Input.consume1 (a : Input) (b1 : UInt8) : Input :=
  match a.rest with
  | [] => a
  | b :: _ =>
    (if b1 ≠ b then a.report (.msg (asc "expect " ++ [b1] ++ asc " but found " ++ [b])) else a).advance 1

theorem consume1_sim {strict : Prop} {s : Source} {a : Input} (h : Sim strict s a) (hne : a.rest ≠ [])
    (b1 : UInt8) : ∃ s', s.consume1 b1 = .ok s' ∧ Sim strict s' (a.consume1 b1) := by
  obtain ⟨c, t, t', hc, ha⟩ := sim_head h hne
  have hx : a.consume1 b1 =
      (if b1 ≠ c then a.report (.msg (asc "expect " ++ [b1] ++ asc " but found " ++ [c])) else a).advance 1 := by
    unfold Input.consume1; rw [ha]
  have hy : s.consume1 b1 =
      (if b1 ≠ c then s.report (.msg (asc "expect " ++ [b1] ++ asc " but found " ++ [c])) else s).consumeN 1 := by
    unfold Source.consume1; rw [hc]
  rw [hx, hy]
  split
  · exact consumeN_sim (report_sim h _) 1 (by simp [Input.report, ha])
  · exact consumeN_sim h 1 (by rw [ha]; simp)

/-! ### Runes -/

/-- The rune at the start of the input and its length. -/
def Input.rune (a : Input) : Nat × Nat := if a.rest = [] then (runeError, 1) else decodeRune a.rest

/-- The input is empty or holds as many bytes as its first byte announces. -/
def Input.wholeRune (a : Input) : Prop :=
  match a.rest with
  | [] => True
  | b :: _ => runeNeed b ≤ a.rest.length

theorem peekRune_sim {strict : Prop} {s : Source} {a : Input} (h : Sim strict s a)
    (hw : strict → a.wholeRune) :
    s.peekRune.1 = a.rune ∧ Sim strict s.peekRune.2 a := by
  by_cases hne : a.rest = []
  · have hcur : s.current = [] := by
      have := h.rest; rw [hne] at this; exact (List.append_eq_nil_iff.mp this).1
    unfold Source.peekRune Input.rune
    simp only [hcur, hne, if_true]
    exact ⟨trivial, h⟩
  · obtain ⟨c, t, t', hc, ha⟩ := sim_head h hne
    have fn := first_need c
    unfold Source.peekRune Input.rune
    rw [if_neg hne]
    simp only [hc]
    by_cases hx : first c ≥ 0xF0
    · rw [if_pos hx]
      refine ⟨?_, h⟩
      have hn := fn.1 hx
      have e1 := decode_take c t 1 (by omega)
      have e2 := decode_take c t' 1 (by omega)
      simp only
      rw [ha, ← e1, ← e2]; rfl
    · rw [if_neg hx]
      have hn := fn.2 hx
      have hp := peekN_sim h (first c &&& 7).toNat (fun hs => by
        have := hw hs
        unfold Input.wholeRune at this
        rw [ha] at this ⊢
        rw [hn]; exact this)
      refine ⟨?_, hp.2⟩
      simp only
      rw [hp.1]
      simp only
      rw [ha, decode_take c t' _ (by omega)]

/-- The longest run of runes in a class: the runes and their total length in bytes. -/
def runeSpan (table : RangeTable) : Nat → Bytes → List Nat × Nat
  | 0, _ => ([], 0)
  | fuel + 1, rest =>
    if rest = [] then ([], 0)
    else if table (decodeRune rest).1 then
      let r := runeSpan table fuel (rest.drop (decodeRune rest).2)
      ((decodeRune rest).1 :: r.1, (decodeRune rest).2 + r.2)
    else ([], 0)

/-- The input after the longest run of runes in a class. -/
def Input.skipRunes (a : Input) (table : RangeTable) : Input :=
  a.advance (runeSpan table (a.rest.length + 1) a.rest).2

theorem runeSpan_le (table : RangeTable) : ∀ (fuel : Nat) (rest : Bytes), (runeSpan table fuel rest).2 ≤ rest.length := by
  intro fuel
  induction fuel with
  | zero => intro rest; simp [runeSpan]
  | succ fuel ih =>
    intro rest
    simp only [runeSpan]
    split
    · simp
    · rename_i hne
      split
      · have h1 := decode_size rest hne
        have h2 := ih (rest.drop (decodeRune rest).2)
        rw [List.length_drop] at h2
        simp only; omega
      · simp

theorem runeSpan_fuel (table : RangeTable) : ∀ (fuel : Nat) (rest : Bytes), rest.length + 1 ≤ fuel →
    runeSpan table fuel rest = runeSpan table (rest.length + 1) rest := by
  have key : ∀ (n : Nat) (rest : Bytes), rest.length ≤ n → ∀ f g, rest.length + 1 ≤ f → rest.length + 1 ≤ g →
      runeSpan table f rest = runeSpan table g rest := by
    intro n
    induction n with
    | zero =>
      intro rest h f g hf hg
      have : rest = [] := List.eq_nil_of_length_eq_zero (by omega)
      obtain ⟨f', rfl⟩ : ∃ f', f = f' + 1 := ⟨f - 1, by omega⟩
      obtain ⟨g', rfl⟩ : ∃ f', g = f' + 1 := ⟨g - 1, by omega⟩
      simp [runeSpan, this]
    | succ n ih =>
      intro rest h f g hf hg
      obtain ⟨f', rfl⟩ : ∃ f', f = f' + 1 := ⟨f - 1, by omega⟩
      obtain ⟨g', rfl⟩ : ∃ f', g = f' + 1 := ⟨g - 1, by omega⟩
      simp only [runeSpan]
      split
      · rfl
      · rename_i hne
        have h1 := decode_size rest hne
        have h2 : (rest.drop (decodeRune rest).2).length + 1 ≤ rest.length := by
          rw [List.length_drop]; omega
        rw [ih (rest.drop (decodeRune rest).2) (by omega) f' g' (by omega) (by omega)]
  intro fuel rest hf
  exact key _ rest (Nat.le_refl _) _ _ hf (Nat.le_refl _)

theorem decode_need (b : UInt8) (t : Bytes) (h : decodeRune (b :: t) ≠ (runeError, 1)) :
    runeNeed b ≤ (b :: t).length := by
  have hlt := b.toNat_lt
  unfold runeNeed
  by_cases hb : b.toNat < 0xC2 ∨ 0xF5 ≤ b.toNat
  · rcases hb with hb | hb
    · rw [if_pos hb]; simp
    · rw [if_neg (by omega), if_neg (by omega), if_neg (by omega), if_neg (by omega)]; simp
  rw [if_neg (by omega)]
  by_cases h2 : b.toNat < 0xE0
  · rw [if_pos h2]
    rw [decode_2 b t (by omega)] at h
    rcases t with _ | ⟨b1, t⟩
    · simp at h
    · simp
  rw [if_neg h2]
  by_cases h3 : b.toNat < 0xF0
  · rw [if_pos h3]
    rw [decode_3 b t (by omega)] at h
    rcases t with _ | ⟨b1, _ | ⟨b2, t⟩⟩
    · simp at h
    · simp at h
    · simp
  · rw [if_neg h3, if_pos (by omega)]
    rw [decode_4 b t (by omega)] at h
    rcases t with _ | ⟨b1, _ | ⟨b2, _ | ⟨b3, t⟩⟩⟩
    · simp at h
    · simp at h
    · simp at h
    · simp

theorem unicodeRangeLoop_sim {strict : Prop} (table : RangeTable) (ht : table runeError = false) :
    ∀ (fuel : Nat) {s : Source} {a : Input} (space : List Nat), Sim strict s a →
    a.rest.length + 1 ≤ fuel → (strict → (a.skipRunes table).wholeRune) →
    ∃ s', unicodeRangeLoop table fuel s space =
        .ok (space ++ (runeSpan table (a.rest.length + 1) a.rest).1, s') ∧ Sim strict s' (a.skipRunes table) := by
  intro fuel
  induction fuel with
  | zero => intro s a space _ hf; omega
  | succ fuel ih =>
    intro s a space h hf hw
    have stop : table a.rune.1 = false →
        runeSpan table (a.rest.length + 1) a.rest = ([], 0) ∧ a.skipRunes table = a := by
      intro hx
      have e : runeSpan table (a.rest.length + 1) a.rest = ([], 0) := by
        simp only [runeSpan]
        unfold Input.rune at hx
        by_cases hne : a.rest = []
        · rw [if_pos hne]
        · rw [if_neg hne] at hx ⊢; rw [hx]; rfl
      refine ⟨e, ?_⟩
      unfold Input.skipRunes
      rw [e]; exact advance_zero a h.endErr
    have hww : strict → a.wholeRune := by
      intro hs
      have h1 := hw hs
      by_cases hne : a.rest = []
      · unfold Input.wholeRune; rw [hne]; trivial
      · cases hx : table a.rune.1 with
        | false => rw [(stop hx).2] at h1; exact h1
        | true =>
          unfold Input.rune at hx
          rw [if_neg hne] at hx
          obtain ⟨c, t, t', hc, ha⟩ := sim_head h hne
          unfold Input.wholeRune
          rw [ha] at hx ⊢
          apply decode_need
          intro he
          rw [he] at hx
          simp only at hx
          rw [ht] at hx; simp at hx
    obtain ⟨hr, hs2⟩ := peekRune_sim h hww
    simp only [unicodeRangeLoop]
    rw [hr]
    cases hx : table a.rune.1 with
    | false =>
      obtain ⟨e1, e2⟩ := stop hx
      rw [e1, e2]
      exact ⟨_, by simp, hs2⟩
    | true =>
      have hne : a.rest ≠ [] := by
        intro hne
        unfold Input.rune at hx
        rw [if_pos hne] at hx
        simp only at hx
        rw [ht] at hx; simp at hx
      have hru : a.rune = decodeRune a.rest := by unfold Input.rune; rw [if_neg hne]
      have hsz := decode_size a.rest hne
      rw [hru] at hx ⊢
      obtain ⟨s1, e1, h1⟩ := consumeN_sim hs2 (decodeRune a.rest).2 hsz.2
      simp only [e1, if_true]
      have hlen : (a.advance (decodeRune a.rest).2).rest = a.rest.drop (decodeRune a.rest).2 := rfl
      have hspan : runeSpan table (a.rest.length + 1) a.rest =
          ((decodeRune a.rest).1 :: (runeSpan table ((a.advance (decodeRune a.rest).2).rest.length + 1)
              (a.advance (decodeRune a.rest).2).rest).1,
            (decodeRune a.rest).2 + (runeSpan table ((a.advance (decodeRune a.rest).2).rest.length + 1)
              (a.advance (decodeRune a.rest).2).rest).2) := by
        conv => lhs; rw [runeSpan.eq_def]
        simp only [if_neg hne, hx, if_true]
        rw [hlen, runeSpan_fuel table a.rest.length _ (by rw [List.length_drop]; omega)]
      have hskip : (a.advance (decodeRune a.rest).2).skipRunes table = a.skipRunes table := by
        unfold Input.skipRunes
        rw [hspan, advance_add]
      have := ih (space ++ [(decodeRune a.rest).1]) h1 (by rw [hlen, List.length_drop]; omega)
        (by rw [hskip]; exact hw)
      obtain ⟨s', e2, h2⟩ := this
      refine ⟨s', ?_, by rw [← hskip]; exact h2⟩
      rw [e2, hspan]
      simp

theorem bytesLeft_sim {strict : Prop} {s : Source} {a : Input} (h : Sim strict s a) :
    s.bytesLeft = a.rest.length := by
  rw [← h.rest]
  simp only [Source.bytesLeft, Source.pending, List.flatten_append, List.length_append]
  omega

theorem unicodeRange_sim {strict : Prop} {s : Source} {a : Input} (table : RangeTable)
    (ht : table runeError = false) (space : List Nat) (h : Sim strict s a)
    (hw : strict → (a.skipRunes table).wholeRune) :
    ∃ s', unicodeRange s space table =
        .ok (space ++ (runeSpan table (a.rest.length + 1) a.rest).1, s') ∧ Sim strict s' (a.skipRunes table) :=
  unicodeRangeLoop_sim table ht _ space h (by rw [bytesLeft_sim h]; omega) hw

/-- `skip.UnicodeRange` consumes the same and counts the bytes. -/
theorem skipRangeLoop_eq (table : RangeTable) : ∀ (fuel : Nat) (s : Source) (count : Nat) (space : List Nat),
    (skipRangeLoop table fuel s count).map (·.2) = (unicodeRangeLoop table fuel s space).map (·.2) := by
  intro fuel
  induction fuel with
  | zero => intro s count space; rfl
  | succ fuel ih =>
    intro s count space
    simp only [skipRangeLoop, unicodeRangeLoop]
    cases table s.peekRune.1.1 with
    | false => rfl
    | true =>
      simp only [if_true]
      cases s.peekRune.2.consumeN s.peekRune.1.2 with
      | error f => rfl
      | ok s' => exact ih s' _ _

/-- The count is the number of bytes consumed. -/
theorem skipRangeLoop_sim {strict : Prop} (table : RangeTable) (ht : table runeError = false) :
    ∀ (fuel : Nat) {s : Source} {a : Input} (count : Nat), Sim strict s a →
    a.rest.length + 1 ≤ fuel → (strict → (a.skipRunes table).wholeRune) →
    ∃ s', skipRangeLoop table fuel s count =
        .ok (count + (runeSpan table (a.rest.length + 1) a.rest).2, s') ∧ Sim strict s' (a.skipRunes table) := by
  intro fuel
  induction fuel with
  | zero => intro s a space _ hf; omega
  | succ fuel ih =>
    intro s a count h hf hw
    have stop : table a.rune.1 = false →
        runeSpan table (a.rest.length + 1) a.rest = ([], 0) ∧ a.skipRunes table = a := by
      intro hx
      have e : runeSpan table (a.rest.length + 1) a.rest = ([], 0) := by
        simp only [runeSpan]
        unfold Input.rune at hx
        by_cases hne : a.rest = []
        · rw [if_pos hne]
        · rw [if_neg hne] at hx ⊢; rw [hx]; rfl
      refine ⟨e, ?_⟩
      unfold Input.skipRunes
      rw [e]; exact advance_zero a h.endErr
    have hww : strict → a.wholeRune := by
      intro hs
      have h1 := hw hs
      by_cases hne : a.rest = []
      · unfold Input.wholeRune; rw [hne]; trivial
      · cases hx : table a.rune.1 with
        | false => rw [(stop hx).2] at h1; exact h1
        | true =>
          unfold Input.rune at hx
          rw [if_neg hne] at hx
          obtain ⟨c, t, t', hc, ha⟩ := sim_head h hne
          unfold Input.wholeRune
          rw [ha] at hx ⊢
          apply decode_need
          intro he
          rw [he] at hx
          simp only at hx
          rw [ht] at hx; simp at hx
    obtain ⟨hr, hs2⟩ := peekRune_sim h hww
    simp only [skipRangeLoop]
    rw [hr]
    cases hx : table a.rune.1 with
    | false =>
      obtain ⟨e1, e2⟩ := stop hx
      rw [e1, e2]
      exact ⟨_, by simp, hs2⟩
    | true =>
      have hne : a.rest ≠ [] := by
        intro hne
        unfold Input.rune at hx
        rw [if_pos hne] at hx
        simp only at hx
        rw [ht] at hx; simp at hx
      have hru : a.rune = decodeRune a.rest := by unfold Input.rune; rw [if_neg hne]
      have hsz := decode_size a.rest hne
      rw [hru] at hx ⊢
      obtain ⟨s1, e1, h1⟩ := consumeN_sim hs2 (decodeRune a.rest).2 hsz.2
      simp only [e1, if_true]
      have hlen : (a.advance (decodeRune a.rest).2).rest = a.rest.drop (decodeRune a.rest).2 := rfl
      have hspan : runeSpan table (a.rest.length + 1) a.rest =
          ((decodeRune a.rest).1 :: (runeSpan table ((a.advance (decodeRune a.rest).2).rest.length + 1)
              (a.advance (decodeRune a.rest).2).rest).1,
            (decodeRune a.rest).2 + (runeSpan table ((a.advance (decodeRune a.rest).2).rest.length + 1)
              (a.advance (decodeRune a.rest).2).rest).2) := by
        conv => lhs; rw [runeSpan.eq_def]
        simp only [if_neg hne, hx, if_true]
        rw [hlen, runeSpan_fuel table a.rest.length _ (by rw [List.length_drop]; omega)]
      have hskip : (a.advance (decodeRune a.rest).2).skipRunes table = a.skipRunes table := by
        unfold Input.skipRunes
        rw [hspan, advance_add]
      have := ih (count + (decodeRune a.rest).2) h1 (by rw [hlen, List.length_drop]; omega)
        (by rw [hskip]; exact hw)
      obtain ⟨s', e2, h2⟩ := this
      refine ⟨s', ?_, by rw [← hskip]; exact h2⟩
      rw [e2, hspan]
      simp only [Except.ok.injEq, Prod.mk.injEq, and_true]; omega

theorem skipUnicodeRange_sim {strict : Prop} {s : Source} {a : Input} (table : RangeTable)
    (ht : table runeError = false) (h : Sim strict s a) (hw : strict → (a.skipRunes table).wholeRune) :
    ∃ s', skipUnicodeRange s table =
        .ok ((runeSpan table (a.rest.length + 1) a.rest).2, s') ∧ Sim strict s' (a.skipRunes table) := by
  have := skipRangeLoop_sim table ht (s.bytesLeft + 1) 0 h (by rw [bytesLeft_sim h]; omega) hw
  rw [Nat.zero_add] at this
  exact this

/-- The same for `skip.UnicodeSpace`, started without a recorded error. -/
theorem skipUniSpaceLoop_sim {strict : Prop} (table : RangeTable) (ht : table runeError = false) :
    ∀ (fuel : Nat) {s : Source} {a : Input} (count : Nat), Sim strict s a →
    (a.rest ≠ [] → a.err = none) →
    a.rest.length + 1 ≤ fuel → (strict → (a.skipRunes table).wholeRune) →
    ∃ s', skipUniSpaceLoop table fuel s count =
        .ok (count + (runeSpan table (a.rest.length + 1) a.rest).2, s') ∧ Sim strict s' (a.skipRunes table) := by
  intro fuel
  induction fuel with
  | zero => intro s a space _ _ hf; omega
  | succ fuel ih =>
    intro s a count h hz hf hw
    have stop : table a.rune.1 = false →
        runeSpan table (a.rest.length + 1) a.rest = ([], 0) ∧ a.skipRunes table = a := by
      intro hx
      have e : runeSpan table (a.rest.length + 1) a.rest = ([], 0) := by
        simp only [runeSpan]
        unfold Input.rune at hx
        by_cases hne : a.rest = []
        · rw [if_pos hne]
        · rw [if_neg hne] at hx ⊢; rw [hx]; rfl
      refine ⟨e, ?_⟩
      unfold Input.skipRunes
      rw [e]; exact advance_zero a h.endErr
    have hww : strict → a.wholeRune := by
      intro hs
      have h1 := hw hs
      by_cases hne : a.rest = []
      · unfold Input.wholeRune; rw [hne]; trivial
      · cases hx : table a.rune.1 with
        | false => rw [(stop hx).2] at h1; exact h1
        | true =>
          unfold Input.rune at hx
          rw [if_neg hne] at hx
          obtain ⟨c, t, t', hc, ha⟩ := sim_head h hne
          unfold Input.wholeRune
          rw [ha] at hx ⊢
          apply decode_need
          intro he
          rw [he] at hx
          simp only at hx
          rw [ht] at hx; simp at hx
    obtain ⟨hr, hs2⟩ := peekRune_sim h hww
    simp only [skipUniSpaceLoop]
    by_cases hse : s.err.isSome
    · have hne : a.rest = [] := by
        by_cases hx : a.rest = []
        · exact hx
        · rw [h.errEq hx, hz hx] at hse; simp at hse
      obtain ⟨e1, e2⟩ := stop (by unfold Input.rune; rw [if_pos hne]; exact ht)
      rw [if_pos hse, e1, e2]
      exact ⟨s, rfl, h⟩
    rw [if_neg hse, hr]
    cases hx : table a.rune.1 with
    | false =>
      obtain ⟨e1, e2⟩ := stop hx
      rw [e1, e2]
      exact ⟨_, by simp, hs2⟩
    | true =>
      have hne : a.rest ≠ [] := by
        intro hne
        unfold Input.rune at hx
        rw [if_pos hne] at hx
        simp only at hx
        rw [ht] at hx; simp at hx
      have hru : a.rune = decodeRune a.rest := by unfold Input.rune; rw [if_neg hne]
      have hsz := decode_size a.rest hne
      rw [hru] at hx ⊢
      obtain ⟨s1, e1, h1⟩ := consumeN_sim hs2 (decodeRune a.rest).2 hsz.2
      simp only [e1, if_true]
      have hlen : (a.advance (decodeRune a.rest).2).rest = a.rest.drop (decodeRune a.rest).2 := rfl
      have hspan : runeSpan table (a.rest.length + 1) a.rest =
          ((decodeRune a.rest).1 :: (runeSpan table ((a.advance (decodeRune a.rest).2).rest.length + 1)
              (a.advance (decodeRune a.rest).2).rest).1,
            (decodeRune a.rest).2 + (runeSpan table ((a.advance (decodeRune a.rest).2).rest.length + 1)
              (a.advance (decodeRune a.rest).2).rest).2) := by
        conv => lhs; rw [runeSpan.eq_def]
        simp only [if_neg hne, hx, if_true]
        rw [hlen, runeSpan_fuel table a.rest.length _ (by rw [List.length_drop]; omega)]
      have hskip : (a.advance (decodeRune a.rest).2).skipRunes table = a.skipRunes table := by
        unfold Input.skipRunes
        rw [hspan, advance_add]
      have := ih (count + (decodeRune a.rest).2) h1 (fun hx => by
          show (if a.rest.drop (decodeRune a.rest).2 = [] then _ else a.err) = none
          rw [hlen] at hx; rw [if_neg hx]; exact hz hne)
        (by rw [hlen, List.length_drop]; omega)
        (by rw [hskip]; exact hw)
      obtain ⟨s', e2, h2⟩ := this
      refine ⟨s', ?_, by rw [← hskip]; exact h2⟩
      rw [e2, hspan]
      simp only [Except.ok.injEq, Prod.mk.injEq, and_true]; omega

theorem skipUnicodeSpace_sim {strict : Prop} {s : Source} {a : Input} (table : RangeTable)
    (ht : table runeError = false) (h : Sim strict s a) (hz : a.err = none)
    (hw : strict → (a.skipRunes table).wholeRune) :
    ∃ s', skipUnicodeSpace s table =
        .ok ((runeSpan table (a.rest.length + 1) a.rest).2, s') ∧ Sim strict s' (a.skipRunes table) := by
  have := skipUniSpaceLoop_sim table ht (s.bytesLeft + 1) 0 h (fun _ => hz)
    (by rw [bytesLeft_sim h]; omega) hw
  rw [Nat.zero_add] at this
  exact this

end Verif.Parse
