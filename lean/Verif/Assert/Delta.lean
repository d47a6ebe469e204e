import Verif.Assert.Float

/-!
# C92, C93, C94 and C95: numbers close to each other

Model of `InDelta`, `InDeltaSlice`, `InDeltaMapValues`, `InEpsilon`, `InEpsilonSlice` and `WithinDuration` in
test/testify/assert/assertions.go.
-/

namespace Verif.Assert

/-! ### Model -/

/-- `toFloat`, assertions.go 844-878.  Type 1 of kind int64 is `time.Duration`; a float32 is kept as its value. -/
def toFloat : Option V → Option Fl
  | some (.int k 0 n) => if k = .uint ∨ k = .uintptr then none else some (rnd n)
  | some (.int .int64 1 n) => some (rnd n)
  | some (.float _ 0 f) => some f
  | _ => none

/-- `InDelta`, assertions.go 883-906. -/
def inDelta (msgOk : Bool) (expected actual : Option V) (delta : Fl) : Outcome :=
  match toFloat expected, toFloat actual with
  | some af, some bf =>
    if af = .nan then fail msgOk
    else if bf = .nan then fail msgOk
    else
      let dt := af.sub bf
      if dt.lt delta.neg || delta.lt dt then fail msgOk else .ret true false
  | _, _ => fail msgOk

/-- The loop of `InDeltaSlice`, assertions.go 919-926: over the elements of the actual slice; `Index` panics after the end. -/
def deltaLoop (check : Option V → Option V → Outcome) : List V → List V → Outcome
  | [], _ => .ret true false
  | _ :: _, [] => .panic
  | a :: as, e :: es =>
    match check a.arg e.arg with
    | .ret true _ => deltaLoop check as es
    | o => o

/-- `InDeltaSlice`, assertions.go 909-927. -/
def inDeltaSlice (msgOk : Bool) (expected actual : Option V) (delta : Fl) : Outcome :=
  match expected, actual with
  | some (.slice _ ae es), some (.slice _ aa as) =>
    deltaLoop (fun x y => inDelta msgOk x y delta) (if aa = 0 then [] else as.list) (if ae = 0 then [] else es.list)
  | _, _ => fail msgOk

/-- The loop of `InDeltaMapValues`, assertions.go 944-967. -/
def deltaMapLoop (msgOk : Bool) (delta : Fl) (es fs : Es) : List Key → Outcome
  | [] => .ret true false
  | k :: ks =>
    match es.find k, fs.find k with
    | none, _ => fail msgOk
    | _, none => fail msgOk
    | some ev, some av =>
      match inDelta msgOk ev.arg av.arg delta with
      | .ret true _ => deltaMapLoop msgOk delta es fs ks
      | o => o

/-- `InDeltaMapValues`, assertions.go 930-968.  `assignable`: whether keys of the one map type can be used for the other; `MapIndex`
panics otherwise. -/
def inDeltaMap (assignable : Nat → Nat → Bool) (msgOk : Bool) (expected actual : Option V) (delta : Fl) : Outcome :=
  match expected, actual with
  | some (.map i a es), some (.map j b fs) =>
    let es := if a = 0 then .nil else es
    let fs := if b = 0 then .nil else fs
    if es.length ≠ fs.length then fail msgOk
    else if es.length ≠ 0 && !assignable i j then .panic
    else deltaMapLoop msgOk delta es fs es.keys
  | _, _ => fail msgOk

/-- `calcRelativeError`, assertions.go 970-984; `none` is an error. -/
def calcRelativeError (expected actual : Option V) : Option Fl :=
  match toFloat expected with
  | none => none
  | some af =>
    if af.eq (.fin 0) then none
    else
      match toFloat actual with
      | none => none
      | some bf => some ((af.sub bf).abs.div af.abs)

/-- `InEpsilon`, assertions.go 987-998. -/
def inEpsilon (msgOk : Bool) (expected actual : Option V) (epsilon : Fl) : Outcome :=
  match calcRelativeError expected actual with
  | none => fail msgOk
  | some e => if epsilon.lt e then fail msgOk else .ret true false

/-- `InEpsilonSlice`, assertions.go 1001-1019: the message is not handed on (1012). -/
def inEpsilonSlice (msgOk : Bool) (expected actual : Option V) (epsilon : Fl) : Outcome :=
  match expected, actual with
  | some (.slice _ ae es), some (.slice _ aa as) =>
    deltaLoop (fun x y => inEpsilon true x y epsilon) (if aa = 0 then [] else as.list) (if ae = 0 then [] else es.list)
  | _, _ => fail msgOk

/-- `time.Time.Sub` (assertions.go 836) of two times in nanoseconds: the difference, or the duration nearest to it. -/
def timeSub (a b : Int) : Int :=
  if a - b < -2 ^ 63 then -2 ^ 63 else if 2 ^ 63 - 1 < a - b then 2 ^ 63 - 1 else a - b

/-- Negation of a `time.Duration` (assertions.go 837). -/
def durNeg (d : Int) : Int := if d = -2 ^ 63 then d else -d

/-- `WithinDuration`, assertions.go 834-842.  Simplified: no monotonic clock readings. -/
def withinDuration (msgOk : Bool) (expected actual : Int) (delta : Int) : Outcome :=
  let dt := timeSub expected actual
  if dt < durNeg delta || dt > delta then fail msgOk else .ret true false

/-! ### C92: `InDelta` -/

/-- The numbers among the values, with their exact value: integers but `uint` and `uintptr`, durations and floating point numbers,
as far as a `float64` can hold them. -/
inductive Number : V → ℚ → Prop
  | int (k : IntKind) (n : Int) : k ≠ .uint → k ≠ .uintptr → IsFloat n → Number (.int k 0 n) n
  | duration (n : Int) : IsFloat n → Number (.int .int64 1 n) n
  | float (d : Bool) (q : ℚ) : IsFloat q → Number (.float d 0 (.fin q)) q

theorem toFloat_number (v : V) (q : ℚ) (h : Number v q) : toFloat (some v) = some (.fin q) := by
  cases h with
  | int k n h1 h2 hf =>
    have : ¬(k = .uint ∨ k = .uintptr) := fun h => h.elim h1 h2
    simp only [toFloat, if_neg this, Option.some.injEq]
    exact hf
  | duration n hf => exact congrArg some hf
  | float d q hf => rfl

/-- Rounding does not leave a range with representable ends. -/
theorem rnd_within (d D : ℚ) (hD : IsFloat D) (hD0 : 0 ≤ D) :
    ((rnd d).lt (Fl.neg (.fin D)) || Fl.lt (.fin D) (rnd d)) = false ↔ magn d ≤ D := by
  have hlt : D < 2 ^ 1024 := by
    have := ((isFloat_iff D).mp hD).2
    rwa [abs_of_nonneg hD0] at this
  have hm := magn_nonneg d
  unfold rnd
  by_cases h : magn d < 2 ^ 1024
  · rw [if_pos h]
    simp only [Fl.neg, Fl.lt, Bool.or_eq_false_iff, decide_eq_false_iff_not, not_lt]
    by_cases hd : d < 0
    · rw [if_pos hd]
      constructor
      · rintro ⟨h1, _⟩; linarith
      · intro h1; constructor <;> linarith
    · rw [if_neg hd]
      constructor
      · rintro ⟨_, h1⟩; exact h1
      · intro h1; constructor <;> linarith
  · rw [if_neg h]
    simp only [Fl.neg, Fl.lt]
    constructor
    · intro h'; cases hd : decide (d < 0) <;> rw [hd] at h' <;> cases h'
    · intro h'; exact absurd (lt_of_le_of_lt h' hlt) h

theorem inDelta_eq (m : Bool) (x y : Option V) (a b delta : Fl) (hx : toFloat x = some a) (hy : toFloat y = some b) (ha : a ≠ .nan) (hb : b ≠ .nan) :
    inDelta m x y delta = bif (a.sub b).lt delta.neg || delta.lt (a.sub b) then fail m else .ret true false := by
  unfold inDelta
  rw [hx, hy]
  simp only
  rw [if_neg ha, if_neg hb]
  cases (a.sub b).lt delta.neg || delta.lt (a.sub b) <;> rfl

theorem inDelta_magn (x y : V) (a b D : ℚ) (hx : Number x a) (hy : Number y b) (hD : IsFloat D) (hD0 : 0 ≤ D) :
    inDelta true (some x) (some y) (.fin D) = if magn (a - b) ≤ D then .ret true false else .ret false true := by
  rw [inDelta_eq true _ _ _ _ _ (toFloat_number x a hx) (toFloat_number y b hy) (by simp) (by simp)]
  have hs : Fl.sub (.fin a) (.fin b) = rnd (a - b) := rfl
  rw [hs]
  have h := rnd_within (a - b) D hD hD0
  by_cases hm : magn (a - b) ≤ D
  · rw [h.mpr hm, if_pos hm]; rfl
  · rw [if_neg hm]
    have : ((rnd (a - b)).lt (Fl.neg (.fin D)) || Fl.lt (.fin D) (rnd (a - b))) = true := by
      cases hh : ((rnd (a - b)).lt (Fl.neg (.fin D)) || Fl.lt (.fin D) (rnd (a - b))) with
      | true => rfl
      | false => exact absurd (h.mp hh) hm
    rw [this]; rfl

/-- C92 (partly): numbers at most `delta` apart are accepted; those accepted are at most `delta` apart, up to one rounding of the
difference; and if a `float64` can hold the difference, exactly those.  Missing: numbers a `float64` cannot hold
(`inDelta_large`), `uint` and named types (`inDelta_uint`) and a delta that is NaN (`inDelta_nan_delta`). -/
theorem inDelta_partial (x y : V) (a b D : ℚ) (hx : Number x a) (hy : Number y b) (hD : IsFloat D) (hD0 : 0 ≤ D) :
    (|a - b| ≤ D → inDelta true (some x) (some y) (.fin D) = .ret true false) ∧
    (D + |a - b| / 2 ^ 53 + 2 ^ (-1075 : ℤ) < |a - b| → inDelta true (some x) (some y) (.fin D) = .ret false true) ∧
    (IsFloat (a - b) → D < |a - b| → inDelta true (some x) (some y) (.fin D) = .ret false true) := by
  rw [inDelta_magn x y a b D hx hy hD hD0]
  have hDD : magn D = D := by
    have := ((isFloat_iff D).mp hD).1
    rwa [abs_of_nonneg hD0] at this
  refine ⟨fun h => ?_, fun h => ?_, fun hf h => ?_⟩
  · rw [if_pos]
    have := magn_mono (abs_nonneg (a - b)) h
    rwa [magn_abs, hDD] at this
  · rw [if_neg]
    intro hm
    have := magn_dist (a - b)
    linarith
  · rw [if_neg]
    rw [((isFloat_iff _).mp hf).1]
    exact not_le.mpr h

/-- C92: for integers up to 2⁵² the answer is exact. -/
theorem inDelta_int (k l : IntKind) (n m : Int) (D : ℚ) (hk : k ≠ .uint ∧ k ≠ .uintptr) (hl : l ≠ .uint ∧ l ≠ .uintptr)
    (hn : |n| ≤ 2 ^ 52) (hm : |m| ≤ 2 ^ 52) (hD : IsFloat D) (hD0 : 0 ≤ D) :
    inDelta true (some (.int k 0 n)) (some (.int l 0 m)) (.fin D) = if ((|n - m| : ℤ) : ℚ) ≤ D then .ret true false else .ret false true := by
  have f : ∀ i : ℤ, |i| ≤ 2 ^ 52 → IsFloat i := fun i hi => isFloat_int i (hi.trans (by norm_num))
  have hd : IsFloat ((n - m : ℤ) : ℚ) := isFloat_int _ ((abs_sub _ _).trans (by linarith))
  have hp := inDelta_partial _ _ n m D (.int k n hk.1 hk.2 (f n hn)) (.int l m hl.1 hl.2 (f m hm)) hD hD0
  have hc : ((|n - m| : ℤ) : ℚ) = |(n : ℚ) - m| := by push_cast; rfl
  rw [hc]
  by_cases h : |(n : ℚ) - m| ≤ D
  · rw [if_pos h]; exact hp.1 h
  · rw [if_neg h]
    refine hp.2.2 ?_ (not_le.mp h)
    have := hd
    push_cast at this
    exact this

/-- A case of the theorem: 3 and 5 are within 2 of each other, and not within 1. -/
example : inDelta true (some (.int .int8 0 3)) (some (.int .uint64 0 5)) (.fin 2) = .ret true false ∧
    inDelta true (some (.int .int8 0 3)) (some (.int .uint64 0 5)) (.fin 1) = .ret false true := by
  constructor
  · rw [inDelta_int .int8 .uint64 3 5 2 (by decide) (by decide) (by norm_num) (by norm_num)
      (by simpa using isFloat_int 2 (by norm_num)) (by norm_num)]
    norm_num
  · rw [inDelta_int .int8 .uint64 3 5 1 (by decide) (by decide) (by norm_num) (by norm_num)
      (by simpa using isFloat_int 1 (by norm_num)) (by norm_num)]
    norm_num

theorem fl_sub_neg (a b : Fl) : b.sub a = (a.sub b).neg := by
  cases a with
  | nan => cases b <;> rfl
  | inf s =>
    cases b with
    | nan => rfl
    | inf t => cases s <;> cases t <;> rfl
    | fin q => rfl
  | fin p =>
    cases b with
    | nan => rfl
    | inf t => cases t <;> rfl
    | fin q =>
      show rnd (q - p) = (rnd (p - q)).neg
      rw [← rnd_neg, neg_sub]

theorem fl_lt_neg (a b : Fl) : a.neg.lt b.neg = b.lt a := by
  cases a <;> cases b <;> simp only [Fl.neg, Fl.lt] <;> first | (rename_i s t; cases s <;> cases t <;> rfl) | simp

theorem fl_neg_neg (a : Fl) : a.neg.neg = a := by cases a <;> simp [Fl.neg]

/-- C92: the order of the two numbers does not matter, for any arguments whatsoever. -/
theorem inDelta_symm (m : Bool) (x y : Option V) (delta : Fl) : inDelta m x y delta = inDelta m y x delta := by
  unfold inDelta
  cases hx : toFloat x with
  | none => cases hy : toFloat y <;> rfl
  | some a =>
    cases hy : toFloat y with
    | none => rfl
    | some b =>
      simp only
      by_cases ha : a = .nan
      · rw [if_pos ha]
        by_cases hb : b = .nan
        · rw [if_pos hb]
        · rw [if_neg hb, if_pos ha]
      · rw [if_neg ha]
        by_cases hb : b = .nan
        · rw [if_pos hb, if_pos hb]
        · rw [if_neg hb, if_neg hb, if_neg ha, fl_sub_neg a b]
          have e1 : (a.sub b).neg.lt delta.neg = delta.lt (a.sub b) := fl_lt_neg _ _
          have e2 : delta.lt (a.sub b).neg = (a.sub b).lt delta.neg := by
            rw [← fl_lt_neg delta.neg (a.sub b), fl_neg_neg]
          rw [e1, e2, Bool.or_comm]

/-- C92: NaN is close to nothing. -/
theorem inDelta_nan (d : Bool) (y : Option V) (delta : Fl) : inDelta true (some (.float d 0 .nan)) y delta = .ret false true ∧
    inDelta true y (some (.float d 0 .nan)) delta = .ret false true := by
  have h : inDelta true (some (.float d 0 .nan)) y delta = .ret false true := by
    unfold inDelta
    rw [show toFloat (some (.float d 0 .nan)) = some .nan from rfl]
    cases toFloat y <;> rfl
  exact ⟨h, by rw [inDelta_symm]; exact h⟩

/-- C92: infinity is close to itself and to no number. -/
theorem inDelta_inf (d s : Bool) (y : V) (b D : ℚ) (hy : Number y b) :
    inDelta true (some (.float d 0 (.inf s))) (some y) (.fin D) = .ret false true ∧
    inDelta true (some (.float d 0 (.inf s))) (some (.float d 0 (.inf s))) (.fin D) = .ret true false := by
  have h : toFloat (some (.float d 0 (.inf s))) = some (.inf s) := rfl
  rw [inDelta_eq true _ _ _ _ _ h (toFloat_number y b hy) (by simp) (by simp), inDelta_eq true _ _ _ _ _ h h (by simp) (by simp)]
  cases s <;> exact ⟨rfl, rfl⟩

/-- C92 is false for a delta that is NaN: any two numbers are within it. -/
theorem inDelta_nan_delta (x y : V) (a b : ℚ) (hx : Number x a) (hy : Number y b) : inDelta true (some x) (some y) .nan = .ret true false := by
  rw [inDelta_eq true _ _ _ _ _ (toFloat_number x a hx) (toFloat_number y b hy) (by simp) (by simp)]
  have hs : Fl.sub (.fin a) (.fin b) = rnd (a - b) := rfl
  rw [hs]
  cases rnd (a - b) <;> rfl

theorem rnd_odd : rnd ((2 ^ 53 + 1 : ℤ) : ℚ) = .fin (2 ^ 53) := by
  have hl : Int.log 2 |((2 ^ 53 + 1 : ℤ) : ℚ)| = 53 := by
    have hp : (0 : ℚ) < |((2 ^ 53 + 1 : ℤ) : ℚ)| := by norm_num
    have h1 : Int.log 2 |((2 ^ 53 + 1 : ℤ) : ℚ)| < 54 := by
      rw [← Int.lt_zpow_iff_log_lt (by norm_num) hp]; norm_num
    have h2 : 53 ≤ Int.log 2 |((2 ^ 53 + 1 : ℤ) : ℚ)| := by
      rw [← Int.zpow_le_iff_le_log (by norm_num) hp]; norm_num
    omega
  have hu : ulpExp ((2 ^ 53 + 1 : ℤ) : ℚ) = 1 := by unfold ulpExp; rw [hl]; decide
  have hm : magn ((2 ^ 53 + 1 : ℤ) : ℚ) = 2 ^ 53 := by
    unfold magn
    rw [hu]
    have hf : ⌊|((2 ^ 53 + 1 : ℤ) : ℚ)| / 2 ^ (1 : ℤ)⌋ = 2 ^ 52 := by
      rw [Int.floor_eq_iff]; norm_num
    have : roundEven (|((2 ^ 53 + 1 : ℤ) : ℚ)| / 2 ^ (1 : ℤ)) = 2 ^ 52 := by
      simp only [roundEven, hf]
      norm_num
    rw [this]; norm_num
  unfold rnd
  rw [hm, if_pos (pow_lt_pow_right₀ (by norm_num) (by norm_num)), if_neg (by norm_num)]

/-- C92 is false of large integers: 2⁵³ + 1 and 2⁵³ are within 0 of each other. -/
theorem inDelta_large : inDelta true (some (.int .int64 0 (2 ^ 53 + 1))) (some (.int .int64 0 (2 ^ 53))) (.fin 0) = .ret true false := by
  have h2 : rnd ((2 ^ 53 : ℤ) : ℚ) = .fin (2 ^ 53) := by
    have := isFloat_int (2 ^ 53) (by norm_num)
    unfold IsFloat at this
    rw [this]
    norm_num
  have h0 : rnd 0 = .fin 0 := by simp [rnd, magn_zero]
  have e1 : toFloat (some (.int .int64 0 (2 ^ 53 + 1))) = some (.fin (2 ^ 53)) := by
    show some (rnd ((2 ^ 53 + 1 : ℤ) : ℚ)) = _
    rw [rnd_odd]
  have e2 : toFloat (some (.int .int64 0 (2 ^ 53))) = some (.fin (2 ^ 53)) := by
    show some (rnd ((2 ^ 53 : ℤ) : ℚ)) = _
    rw [h2]
  rw [inDelta_eq true _ _ _ _ _ e1 e2 (by simp) (by simp)]
  have hs : Fl.sub (.fin (2 ^ 53)) (.fin (2 ^ 53)) = .fin 0 := by
    show rnd (2 ^ 53 - 2 ^ 53) = _
    rw [sub_self, h0]
  rw [hs]
  decide +kernel

/-- C92 is false of `uint`, `uintptr` and named number types: they are not numerical. -/
theorem inDelta_uint (i : Nat) (n : Int) (f : Fl) (y : Option V) (delta : Fl) :
    inDelta true (some (.int .uint i n)) y delta = .ret false true ∧ inDelta true (some (.int .uintptr i n)) y delta = .ret false true ∧
    inDelta true (some (.float true (i + 1) f)) y delta = .ret false true := by
  have h1 : toFloat (some (.int .uint i n)) = none := by rcases i with _ | _ | i <;> rfl
  have h2 : toFloat (some (.int .uintptr i n)) = none := by rcases i with _ | _ | i <;> rfl
  have h3 : toFloat (some (.float true (i + 1) f)) = none := rfl
  unfold inDelta
  rw [h1, h2, h3]
  exact ⟨rfl, rfl, rfl⟩

/-! ### C93: slices and maps of numbers -/

theorem reported_delta (x y : Option V) (delta : Fl) : Reported (inDelta true x y delta) := by
  unfold inDelta
  split
  · split
    · exact reported_fail
    · split
      · exact reported_fail
      · simp only
        split
        · exact reported_fail
        · exact reported_pass
  · exact reported_fail

theorem deltaLoop_iff (check : Option V → Option V → Outcome) (hr : ∀ x y, Reported (check x y)) : ∀ (as es : List V), as.length ≤ es.length →
    deltaLoop check as es =
      open Classical in if ∀ p ∈ as.zip es, check p.1.arg p.2.arg = .ret true false then .ret true false else .ret false true := by
  intro as
  induction as with
  | nil => intro es _; simp [deltaLoop]
  | cons a as ih =>
    intro es hl
    cases es with
    | nil => simp at hl
    | cons e es =>
      rw [deltaLoop]
      rcases hr a.arg e.arg with h | h
      · rw [h]
        simp only [List.zip_cons_cons, List.forall_mem_cons, h, true_and]
        exact ih es (by simpa using hl)
      · rw [h]
        simp only [List.zip_cons_cons, List.forall_mem_cons, h]
        simp

/-- C93 (partly): slices of the same length are accepted by `InDeltaSlice` exactly if each pair of elements is by `InDelta`.
Missing: slices of different lengths, see `inDeltaSlice_longer` and `inDeltaSlice_shorter`. -/
theorem inDeltaSlice_partial (i j p q : Nat) (es as : Vs) (delta : Fl) (hp : p ≠ 0) (hq : q ≠ 0) (hl : es.list.length = as.list.length) :
    ((∀ e a, (e, a) ∈ es.list.zip as.list → inDelta true e.arg a.arg delta = .ret true false) →
      inDeltaSlice true (some (.slice i p es)) (some (.slice j q as)) delta = .ret true false) ∧
    ((∃ e a, (e, a) ∈ es.list.zip as.list ∧ inDelta true e.arg a.arg delta = .ret false true) →
      inDeltaSlice true (some (.slice i p es)) (some (.slice j q as)) delta = .ret false true) := by
  have hz : ∀ e a, (e, a) ∈ es.list.zip as.list ↔ (a, e) ∈ as.list.zip es.list := by
    intro e a
    rw [← List.zip_swap, List.mem_map]
    constructor
    · rintro ⟨⟨a', e'⟩, h, he⟩
      injection he with h1 h2
      simp only at h1 h2
      subst h1; subst h2
      exact h
    · intro h; exact ⟨(a, e), h, rfl⟩
  unfold inDeltaSlice
  simp only [if_neg hp, if_neg hq]
  rw [deltaLoop_iff _ (fun x y => reported_delta x y delta) as.list es.list hl.ge]
  constructor
  · intro h
    rw [if_pos]
    rintro ⟨a, e⟩ hm
    rw [inDelta_symm]
    exact h e a ((hz e a).mpr hm)
  · rintro ⟨e, a, hm, hf⟩
    rw [if_neg]
    intro h
    have := h (a, e) ((hz e a).mp hm)
    rw [inDelta_symm, hf] at this
    cases this

theorem isFloat_zero : IsFloat 0 := by simp [IsFloat, rnd, magn_zero]

theorem isFloat_one : IsFloat 1 := by simpa using isFloat_int 1 (by norm_num)

theorem one_delta : inDelta true (some (.int .int 0 1)) (some (.int .int 0 1)) (.fin 0) = .ret true false := by
  rw [inDelta_int .int .int 1 1 0 (by decide) (by decide) (by norm_num) (by norm_num) isFloat_zero le_rfl]
  norm_num

/-- C93 is false of an expected slice that is longer: the rest of it is not looked at. -/
theorem inDeltaSlice_longer : inDeltaSlice true (some (.slice 1 8 (.cons (.int .int 0 1) (.cons (.int .int 0 2) .nil)))) (some (.slice 1 9 (.cons (.int .int 0 1) .nil))) (.fin 0) = .ret true false := by
  simp [inDeltaSlice, Vs.list, deltaLoop, V.arg, one_delta]

/-- C93 is false of an expected slice that is shorter: the assertion panics. -/
theorem inDeltaSlice_shorter : inDeltaSlice true (some (.slice 1 8 (.cons (.int .int 0 1) .nil))) (some (.slice 1 9 (.cons (.int .int 0 1) (.cons (.int .int 0 2) .nil)))) (.fin 0) = .panic := by
  simp [inDeltaSlice, Vs.list, deltaLoop, V.arg, one_delta]

theorem deltaMapLoop_iff (delta : Fl) (es fs : Es) : ∀ ks : List Key,
    ((∀ k ∈ ks, ∃ v w, es.find k = some v ∧ fs.find k = some w ∧ inDelta true v.arg w.arg delta = .ret true false) →
      deltaMapLoop true delta es fs ks = .ret true false) ∧
    ((¬∀ k ∈ ks, ∃ v w, es.find k = some v ∧ fs.find k = some w ∧ inDelta true v.arg w.arg delta = .ret true false) →
      deltaMapLoop true delta es fs ks = .ret false true) := by
  intro ks
  induction ks with
  | nil => exact ⟨fun _ => rfl, fun h => absurd (by simp) h⟩
  | cons k ks ih =>
    constructor
    · intro h
      obtain ⟨v, w, h1, h2, h3⟩ := h k (List.mem_cons_self ..)
      rw [deltaMapLoop, h1, h2]
      simp only [h3]
      exact ih.1 fun l hl => h l (List.mem_cons_of_mem _ hl)
    · intro h
      rw [deltaMapLoop]
      split
      · rfl
      · rfl
      · rename_i v w h1 h2
        rcases reported_delta v.arg w.arg delta with hd | hd
        · rw [hd]
          refine ih.2 fun hn => h ?_
          intro l hl
          rcases List.mem_cons.mp hl with rfl | hl
          · exact ⟨v, w, h1, h2, hd⟩
          · exact hn l hl
        · rw [hd]

/-- C93: two maps whose keys are of the same type are accepted by `InDeltaMapValues` exactly if they have the same keys and the
elements of each key are accepted by `InDelta`. -/
theorem inDeltaMap_iff (assignable : Nat → Nat → Bool) (H : Heap) (i j a b : Nat) (es fs : Es) (delta : Fl) (ha : a ≠ 0) (hb : b ≠ 0)
    (hij : assignable i j = true) (he : V.WF H (.map i a es)) (hf : V.WF H (.map j b fs)) (te : es.Tame) (tf : fs.Tame) :
    ((∀ k, k ∈ es.keys ↔ k ∈ fs.keys) ∧ (∀ k v w, es.find k = some v → fs.find k = some w → inDelta true v.arg w.arg delta = .ret true false) →
      inDeltaMap assignable true (some (.map i a es)) (some (.map j b fs)) delta = .ret true false) ∧
    (¬((∀ k, k ∈ es.keys ↔ k ∈ fs.keys) ∧ (∀ k v w, es.find k = some v → fs.find k = some w → inDelta true v.arg w.arg delta = .ret true false)) →
      inDeltaMap assignable true (some (.map i a es)) (some (.map j b fs)) delta = .ret false true) := by
  have nde : es.keys.Nodup := he.2.2
  have ndf : fs.keys.Nodup := hf.2.2
  have some_of : ∀ (gs : Es), gs.Tame → ∀ k ∈ gs.keys, ∃ v, gs.find k = some v := by
    intro gs tg k hk
    have := (Es.find_isSome gs k (Es.key_tame gs tg k hk)).mpr hk
    exact Option.isSome_iff_exists.mp this
  have of_some : ∀ (gs : Es) k v, gs.find k = some v → k ∈ gs.keys := by
    intro gs k v h
    have hk : k ≠ .float .nan := by
      rintro rfl
      rw [Es.find_nan] at h
      cases h
    exact (Es.find_isSome gs k hk).mp (by rw [h]; rfl)
  unfold inDeltaMap
  simp only [if_neg ha, if_neg hb, hij, Bool.not_true, Bool.and_false, Bool.false_eq_true, if_false]
  obtain ⟨l1, l2⟩ := deltaMapLoop_iff delta es fs es.keys
  constructor
  · rintro ⟨hk, hv⟩
    have hlen : es.length = fs.length := by
      rw [es_length, es_length]
      exact ((List.perm_ext_iff_of_nodup nde ndf).mpr hk).length_eq
    rw [if_neg (fun h => h hlen)]
    refine l1 fun k hk' => ?_
    obtain ⟨v, hv'⟩ := some_of es te k hk'
    obtain ⟨w, hw'⟩ := some_of fs tf k ((hk k).mp hk')
    exact ⟨v, w, hv', hw', hv k v w hv' hw'⟩
  · intro h
    by_cases hlen : es.length = fs.length
    · rw [if_neg (fun h => h hlen)]
      refine l2 fun hall => h ⟨?_, ?_⟩
      · have hsub : es.keys ⊆ fs.keys := fun k hk => by
          obtain ⟨v, w, _, hw, _⟩ := hall k hk
          exact of_some fs k w hw
        have hp : es.keys.Perm fs.keys := (List.subperm_of_subset nde hsub).perm_of_length_le (by
          rw [← es_length, ← es_length]; omega)
        exact fun k => hp.mem_iff
      · intro k v w hv hw
        obtain ⟨v', w', h1, h2, h3⟩ := hall k (of_some es k v hv)
        rw [hv] at h1; rw [hw] at h2
        injection h1 with h1; injection h2 with h2
        subst h1; subst h2
        exact h3
    · rw [if_pos hlen]; rfl

/-- Maps meeting the hypotheses. -/
example : ∃ H : Heap, V.WF H (.map 1 8 (.cons (.str (asc "a")) (.int .int 0 1) .nil)) ∧ V.WF H (.map 1 9 (.cons (.str (asc "a")) (.int .int 0 2) .nil)) ∧
    (Es.cons (.str (asc "a")) (.int .int 0 1) .nil).Tame := by
  refine ⟨⟨fun _ _ => .nilIface 0, fun _ _ _ => .nil, fun _ a => if a = 8 then .cons (.str (asc "a")) (.int .int 0 1) .nil else .cons (.str (asc "a")) (.int .int 0 2) .nil⟩, ?_, ?_, ?_⟩
  · exact ⟨fun _ => rfl, ⟨trivial, trivial⟩, by simp [Es.keys]⟩
  · exact ⟨fun _ => rfl, ⟨trivial, trivial⟩, by simp [Es.keys]⟩
  · exact ⟨by simp, trivial, trivial⟩

/-- C93 is false of maps with keys of different types: the assertion panics. -/
theorem inDeltaMap_keys : inDeltaMap (fun i j => i = j) true (some (.map 1 8 (.cons (.str (asc "a")) (.int .int 0 1) .nil)))
    (some (.map 2 9 (.cons (.int 1) (.int .int 0 1) .nil))) (.fin 0) = .panic := rfl

/-! ### C94: `InEpsilon` -/

/-- C94 (partly): if a `float64` can hold the difference, numbers with a relative error of at most `epsilon` are accepted, and those
accepted have one up to the rounding of the quotient.  Missing: differences that are rounded, NaN (`inEpsilon_nan`), and zero
(`inEpsilon_zero`). -/
theorem inEpsilon_partial (x y : V) (a b ε : ℚ) (hx : Number x a) (hy : Number y b) (ha : a ≠ 0) (hd : IsFloat (a - b)) (hε : IsFloat ε) (hε0 : 0 ≤ ε) :
    (|a - b| / |a| ≤ ε → inEpsilon true (some x) (some y) (.fin ε) = .ret true false) ∧
    (ε + |a - b| / |a| / 2 ^ 53 + 2 ^ (-1075 : ℤ) < |a - b| / |a| → inEpsilon true (some x) (some y) (.fin ε) = .ret false true) := by
  have hq : 0 ≤ |a - b| / |a| := div_nonneg (abs_nonneg _) (abs_nonneg _)
  have hεm : magn ε = ε := by
    have := ((isFloat_iff ε).mp hε).1
    rwa [abs_of_nonneg hε0] at this
  have hεl : ε < 2 ^ 1024 := by
    have := ((isFloat_iff ε).mp hε).2
    rwa [abs_of_nonneg hε0] at this
  have e : calcRelativeError (some x) (some y) = some (rnd (|a - b| / |a|)) := by
    unfold calcRelativeError
    rw [toFloat_number x a hx, toFloat_number y b hy]
    have h0 : Fl.eq (.fin a) (.fin 0) = false := by simp [Fl.eq, ha]
    simp only [h0, Bool.false_eq_true, if_false, Fl.sub, Option.some.injEq]
    unfold IsFloat at hd
    rw [hd]
    simp [Fl.abs, Fl.div, ha]
  have hlt : Fl.lt (.fin ε) (rnd (|a - b| / |a|)) = decide (ε < magn (|a - b| / |a|)) := by
    unfold rnd
    rw [if_neg (not_lt.mpr hq)]
    by_cases h : magn (|a - b| / |a|) < 2 ^ 1024
    · rw [if_pos h]; rfl
    · rw [if_neg h]
      have : ε < magn (|a - b| / |a|) := lt_of_lt_of_le hεl (not_lt.mp h)
      simp [Fl.lt, this, not_lt.mpr hq]
  unfold inEpsilon
  rw [e]
  simp only [hlt, decide_eq_true_eq]
  constructor
  · intro h
    rw [if_neg]
    have := magn_mono hq h
    rw [hεm] at this
    exact not_lt.mpr this
  · intro h
    rw [if_pos]
    · rfl
    · have := magn_dist (|a - b| / |a|)
      rw [abs_of_nonneg hq] at this
      linarith

theorem isFloat_zpow (e : ℤ) (h1 : -1074 ≤ e) (h2 : e < 1024) : IsFloat (2 ^ e) := by
  rw [isFloat_iff, abs_of_pos (two_pow_pos e)]
  constructor
  · have hl : Int.log 2 |(2 : ℚ) ^ e| = e := by
      rw [abs_of_pos (two_pow_pos e)]
      have := Int.log_zpow (R := ℚ) (b := 2) (by norm_num) e
      simpa using this
    have hu : ulpExp (2 ^ e) ≤ e := by unfold ulpExp; rw [hl]; omega
    have := magn_mul (2 ^ e) (2 ^ (e - ulpExp (2 ^ e)).toNat) (by
      rw [abs_of_pos (two_pow_pos e)]
      push_cast
      rw [← zpow_natCast, ← zpow_add₀ (by norm_num)]
      congr 1
      omega)
    rwa [abs_of_pos (two_pow_pos e)] at this
  · rw [← zpow_natCast]
    exact zpow_lt_zpow_right₀ (by norm_num) (by simpa using h2)

theorem isFloat_eighth : IsFloat (1 / 8) := by
  have := isFloat_zpow (-3) (by norm_num) (by norm_num)
  norm_num at this ⊢
  exact this

theorem number_int (n : Int) (h : |n| ≤ 2 ^ 53) : Number (.int .int 0 n) n := .int .int n (by decide) (by decide) (isFloat_int n h)

theorem epsilon_8_7 : inEpsilon true (some (.int .int 0 8)) (some (.int .int 0 7)) (.fin (1 / 8)) = .ret true false ∧
    inEpsilon true (some (.int .int 0 7)) (some (.int .int 0 8)) (.fin (1 / 8)) = .ret false true := by
  have h1 := inEpsilon_partial _ _ _ _ _ (number_int 8 (by norm_num)) (number_int 7 (by norm_num)) (by norm_num)
    (by have := isFloat_int 1 (by norm_num); norm_num at this ⊢; exact this) isFloat_eighth (by norm_num)
  have h2 := inEpsilon_partial _ _ _ _ _ (number_int 7 (by norm_num)) (number_int 8 (by norm_num)) (by norm_num)
    (by have := isFloat_int (-1) (by norm_num); norm_num at this ⊢; exact this) isFloat_eighth (by norm_num)
  constructor
  · exact h1.1 (by norm_num)
  · refine h2.2 ?_
    have : (2 : ℚ) ^ (-1075 : ℤ) ≤ 2 ^ (-7 : ℤ) := zpow_le_zpow_right₀ (by norm_num) (by norm_num)
    have h7 : (2 : ℚ) ^ (-7 : ℤ) = 1 / 128 := by norm_num
    rw [h7] at this
    generalize (2 : ℚ) ^ (-1075 : ℤ) = t at this
    norm_num
    linarith

theorem reported_epsilon (x y : Option V) (epsilon : Fl) : Reported (inEpsilon true x y epsilon) := by
  unfold inEpsilon
  split
  · exact reported_fail
  · split
    · exact reported_fail
    · exact reported_pass

/-- The elements of a slice: none if it is nil. -/
def sliceElements (addr : Nat) (vs : Vs) : List V := if addr = 0 then [] else vs.list

/-- C94 (partly): if the expected slice is not shorter, `InEpsilonSlice` accepts exactly if `InEpsilon` accepts every pair with the found element taken for the
expected one; nil slices have no elements.  Missing: that the error is relative to the expected element, which is false (`inEpsilonSlice_swapped`). -/
theorem inEpsilonSlice_partial (i j p q : Nat) (es as : Vs) (epsilon : Fl) (hl : (sliceElements q as).length ≤ (sliceElements p es).length) :
    ((∀ a e, (a, e) ∈ (sliceElements q as).zip (sliceElements p es) → inEpsilon true a.arg e.arg epsilon = .ret true false) →
      inEpsilonSlice true (some (.slice i p es)) (some (.slice j q as)) epsilon = .ret true false) ∧
    ((∃ a e, (a, e) ∈ (sliceElements q as).zip (sliceElements p es) ∧ inEpsilon true a.arg e.arg epsilon = .ret false true) →
      inEpsilonSlice true (some (.slice i p es)) (some (.slice j q as)) epsilon = .ret false true) := by
  have hd : inEpsilonSlice true (some (.slice i p es)) (some (.slice j q as)) epsilon =
      deltaLoop (fun x y => inEpsilon true x y epsilon) (sliceElements q as) (sliceElements p es) := rfl
  rw [hd, deltaLoop_iff _ (fun x y => reported_epsilon x y epsilon) _ _ hl]
  constructor
  · intro h
    rw [if_pos]
    rintro ⟨a, e⟩ hm
    exact h a e hm
  · rintro ⟨a, e, hm, hf⟩
    rw [if_neg]
    intro h
    have := h (a, e) hm
    rw [hf] at this
    cases this

/-- C94: a nil slice where elements are expected is accepted, and elements where a nil slice is expected make the assertion panic. -/
theorem inEpsilonSlice_nil (i j p q : Nat) (es as : Vs) (v : V) (vs : Vs) (epsilon : Fl) (hq : q ≠ 0) (ha : as = .cons v vs) :
    inEpsilonSlice true (some (.slice i p es)) (some (.slice j 0 as)) epsilon = .ret true false ∧
    inEpsilonSlice true (some (.slice i 0 es)) (some (.slice j q as)) epsilon = .panic := by
  subst ha
  constructor
  · simp [inEpsilonSlice, deltaLoop]
  · simp [inEpsilonSlice, hq, Vs.list, deltaLoop]

/-- C94: the slices are compared the other way round, with the error relative to the actual element: 8 expected and 7 found are
accepted by `InEpsilon` and rejected by `InEpsilonSlice`. -/
theorem inEpsilonSlice_swapped : inEpsilon true (some (.int .int 0 8)) (some (.int .int 0 7)) (.fin (1 / 8)) = .ret true false ∧
    inEpsilonSlice true (some (.slice 1 8 (.cons (.int .int 0 8) .nil))) (some (.slice 1 9 (.cons (.int .int 0 7) .nil))) (.fin (1 / 8)) = .ret false true := by
  refine ⟨epsilon_8_7.1, ?_⟩
  have h := epsilon_8_7.2
  rw [one_div] at h ⊢
  simp [inEpsilonSlice, Vs.list, deltaLoop, V.arg, h]

/-- C94 is false of NaN: it is within any epsilon of everything. -/
theorem inEpsilon_nan (d : Bool) (y : V) (b : ℚ) (hy : Number y b) (ε : Fl) :
    inEpsilon true (some (.float d 0 .nan)) (some y) ε = .ret true false ∧
    (b ≠ 0 → inEpsilon true (some y) (some (.float d 0 .nan)) ε = .ret true false) := by
  unfold inEpsilon calcRelativeError
  rw [toFloat_number y b hy]
  constructor
  · simp only [toFloat, Fl.eq, Fl.sub, Fl.abs, Fl.div]
    cases ε <;> rfl
  · intro hb
    have h0 : Fl.eq (.fin b) (.fin 0) = false := by simp [Fl.eq, hb]
    simp only [toFloat, h0, Fl.sub, Fl.abs, Fl.div]
    cases ε <;> rfl

/-- C94 is false of zero: it is not accepted even if it is found. -/
theorem inEpsilon_zero (x : V) (y : Option V) (hx : Number x 0) (ε : Fl) : inEpsilon true (some x) y ε = .ret false true := by
  unfold inEpsilon calcRelativeError
  rw [toFloat_number x 0 hx]
  rfl

/-- C94: an infinity found where a number is expected is rejected; but C94 is false if an infinity is expected: every number is accepted, and so is the
other infinity. -/
theorem inEpsilon_inf (d s t : Bool) (y : V) (b ε : ℚ) (hy : Number y b) :
    (b ≠ 0 → inEpsilon true (some y) (some (.float d 0 (.inf s))) (.fin ε) = .ret false true) ∧
    inEpsilon true (some (.float d 0 (.inf s))) (some y) (.fin ε) = .ret true false ∧
    inEpsilon true (some (.float d 0 (.inf s))) (some (.float d 0 (.inf t))) (.fin ε) = .ret true false := by
  have h (u : Bool) : toFloat (some (.float d 0 (.inf u))) = some (.inf u) := rfl
  unfold inEpsilon calcRelativeError
  rw [toFloat_number y b hy, h s, h t]
  refine ⟨fun hb => ?_, ?_, ?_⟩
  · have h0 : Fl.eq (.fin b) (.fin 0) = false := by simp [Fl.eq, hb]
    simp only [h0, Bool.false_eq_true, if_false, Fl.sub, Fl.abs, Fl.div, Fl.lt]
    rfl
  · simp [Fl.eq, Fl.sub, Fl.abs, Fl.div, Fl.lt]
  · cases s <;> cases t <;> simp [Fl.eq, Fl.sub, Fl.abs, Fl.div, Fl.lt]

/-! ### C95: `WithinDuration` -/

/-- C95 (partly): times at most `delta` apart are accepted, and no others.  Missing: the largest and the smallest duration, see
`within_max` and `within_min`. -/
theorem within_partial (e a delta : Int) (h1 : -2 ^ 63 < delta) (h2 : delta < 2 ^ 63 - 1) :
    withinDuration true e a delta = if |e - a| ≤ delta then .ret true false else .ret false true := by
  have hn : durNeg delta = -delta := by unfold durNeg; rw [if_neg (by omega)]
  have ht : (timeSub e a < -delta ∨ timeSub e a > delta) ↔ ¬|e - a| ≤ delta := by
    rw [abs_le]
    unfold timeSub
    split
    · omega
    · split <;> omega
  unfold withinDuration
  simp only [hn, Bool.or_eq_true, decide_eq_true_eq, ht, ite_not]
  rfl

example : withinDuration true 10 12 2 = .ret true false ∧ withinDuration true 10 13 2 = .ret false true := by decide

/-- C95 is false of the largest duration: times any time apart are within it. -/
theorem within_max (e a : Int) (h : a ≤ e) : withinDuration true e a (2 ^ 63 - 1) = .ret true false := by
  have hn : durNeg (2 ^ 63 - 1) = -(2 ^ 63 - 1) := by decide
  unfold withinDuration
  simp only [hn, Bool.or_eq_true, decide_eq_true_eq]
  rw [if_neg]
  unfold timeSub
  split
  · omega
  · split <;> omega

/-- C95 is false of the smallest duration, which is negative: times more than 292 years apart are within it. -/
theorem within_min (e a : Int) (h : e - a ≤ -2 ^ 63) : withinDuration true e a (-2 ^ 63) = .ret true false := by
  have hn : durNeg (-2 ^ 63) = -2 ^ 63 := by decide
  unfold withinDuration
  simp only [hn, Bool.or_eq_true, decide_eq_true_eq]
  rw [if_neg]
  unfold timeSub
  split
  · omega
  · split <;> omega

end Verif.Assert
