import Verif.Countlog.Formats
import Verif.Jsonfmt.IntLemmas

/-!
# C135: the time shown for a timer

Model of the timers of countlog/timer.go and of `timerFormatter`, countlog/output/hrf/timer.go, with the text of a `time.Duration`.
-/

namespace Verif.Countlog.Timers

open Verif.Spec Verif.Jsonfmt

/-! ### Model -/

/-- The three timers, countlog/timer.go 8, 15 and 22. -/
inductive Timer
  | trace | debug | info
  deriving DecidableEq

/-- The level a timer looks at, countlog/timer.go 9, 16 and 23. -/
def Timer.level : Timer → Int
  | .trace => levelTrace
  | .debug => levelDebug
  | .info => levelInfo

/-- `TraceTimer`, `DebugTimer` and `InfoTimer`, countlog/timer.go 8-27; `now` is `time.Now().UnixNano()`. -/
def Timer.start (k : Timer) (cfg : Levels) (now : Int64) : Int64 := if k.level < cfg.minLevel then 0 else now

/-- The loop of `fmtFrac` in package time, for `Duration.String`, countlog/output/hrf/timer.go 15: digits from the last on, zeros at the end
are left out. -/
def fracLoop : Nat → Nat → Bool → Bytes → Bytes × Nat × Bool
  | 0, v, p, acc => (acc, v, p)
  | n + 1, v, p, acc =>
    let p := p || v % 10 != 0
    fracLoop n (v / 10) p (if p then dig v :: acc else acc)

/-- `fmtFrac` in package time (countlog/output/hrf/timer.go 15): the fraction with its point, and what is left. -/
def fmtFrac (v prec : Nat) : Bytes × Nat :=
  let r := fracLoop prec v false []
  (if r.2.2 then 46 :: r.1 else r.1, r.2.1)

/-- `fmtInt` in package time (countlog/output/hrf/timer.go 15). -/
def fmtInt (v : Nat) (acc : Bytes) : Bytes :=
  if v < 10 then dig v :: acc else fmtInt (v / 10) (dig v :: acc)
termination_by v

/-- A number with a fraction and a unit, as `Duration.String` puts it together (countlog/output/hrf/timer.go 15). -/
def number (v prec : Nat) (unit : Bytes) : Bytes × Nat := ((fmtFrac v prec).1 ++ unit, (fmtFrac v prec).2)

/-- `Duration.String` in package time (countlog/output/hrf/timer.go 15).  Simplified: the absolute value is a natural number. -/
def durationText (d : Int64) : Bytes :=
  let u := d.toInt.natAbs
  let body :=
    if u < 1000000000 then
      if u = 0 then asc "0s"
      else if u < 1000 then let r := number u 0 (asc "ns"); fmtInt r.2 r.1
      else if u < 1000000 then let r := number u 3 [0xC2, 0xB5, 115]; fmtInt r.2 r.1
      else let r := number u 6 (asc "ms"); fmtInt r.2 r.1
    else
      let r := number u 9 (asc "s")
      let s := fmtInt (r.2 % 60) r.1
      let m := r.2 / 60
      if m > 0 then
        let s := fmtInt (m % 60) (109 :: s)
        let h := m / 60
        if h > 0 then fmtInt h (104 :: s) else s
      else s
  if d.toInt < 0 then 45 :: body else body

/-- What `timerFormatter` makes of a property, countlog/output/hrf/timer.go 12-15: the text of the time from it to the event, `none` if it is
no int64. -/
def latencyOf (nanos : Int64) (prop : Option Int64) : Option Bytes := prop.map fun p => durationText (nanos - p)

/-! ### Specification -/

/-- A number with at most `p` digits behind the point and no zero at the end; `n` counts units of the last possible digit. -/
def Number (p n : Nat) (t : Bytes) : Prop :=
  ∃ ip i f, t = ip ++ (if f = [] then [] else 46 :: f) ∧ CanonicalDecimal ip i ∧ (∀ c ∈ f, isDigit c = true) ∧ f.length ≤ p ∧
    f.getLast? ≠ some 48 ∧ n = i * 10 ^ p + decimalValue f * 10 ^ (p - f.length)

/-- A text shows so many nanoseconds. -/
inductive ShowsNat : Bytes → Nat → Prop
  | ns (n : Nat) (t : Bytes) (h : Number 0 n t) : ShowsNat (t ++ asc "ns") n
  | us (n : Nat) (t : Bytes) (h : Number 3 n t) : ShowsNat (t ++ [0xC2, 0xB5, 115]) n
  | ms (n : Nat) (t : Bytes) (h : Number 6 n t) : ShowsNat (t ++ asc "ms") n
  | s (n : Nat) (t : Bytes) (h : Number 9 n t) : ShowsNat (t ++ asc "s") n
  | m (n k : Nat) (t a : Bytes) (h : Number 9 n t) (ha : CanonicalDecimal a k) (hn : n < 60 * 10 ^ 9) :
    ShowsNat (a ++ 109 :: (t ++ asc "s")) (k * (60 * 10 ^ 9) + n)
  | h (n k j : Nat) (t a b : Bytes) (h : Number 9 n t) (ha : CanonicalDecimal a k) (hb : CanonicalDecimal b j) (hn : n < 60 * 10 ^ 9)
    (hk : k < 60) : ShowsNat (b ++ 104 :: (a ++ 109 :: (t ++ asc "s"))) (j * (3600 * 10 ^ 9) + k * (60 * 10 ^ 9) + n)

/-- A text shows a duration in nanoseconds, with a minus sign exactly for those below zero. -/
def Shows (t : Bytes) (d : Int) : Prop :=
  if d < 0 then ∃ b, t = 45 :: b ∧ ShowsNat b d.natAbs else ShowsNat t d.natAbs

/-! ### Proofs: the text of a duration -/

theorem fmtInt_eq (v : Nat) (acc : Bytes) : fmtInt v acc = natDec v ++ acc := by
  induction v using Nat.strongRecOn generalizing acc with
  | _ v ih =>
    rw [fmtInt, natDec]
    by_cases h : v < 10
    · rw [if_pos h, if_pos h]; rfl
    · rw [if_neg h, if_neg h, ih (v / 10) (by omega), List.append_assoc]; rfl

theorem loop_true (n v : Nat) (acc : Bytes) :
    ∃ ds, fracLoop n v true acc = (ds ++ acc, v / 10 ^ n, true) ∧ (∀ c ∈ ds, isDigit c = true) ∧ ds.length = n ∧ decimalValue ds = v % 10 ^ n := by
  induction n generalizing v acc with
  | zero => exact ⟨[], by simp [fracLoop], by simp, rfl, by simp [decimalValue, Nat.mod_one]⟩
  | succ n ih =>
    obtain ⟨ds, h1, h2, h3, h4⟩ := ih (v / 10) (dig v :: acc)
    refine ⟨ds ++ [dig v], ?_, ?_, by simp [h3], ?_⟩
    · rw [fracLoop]
      simp only [Bool.true_or, if_true]
      rw [h1, Nat.div_div_eq_div_mul, Nat.pow_succ']
      simp
    · intro c hc
      rcases List.mem_append.mp hc with hc | hc
      · exact h2 c hc
      · rw [List.mem_singleton.mp hc]; exact dig_isDigit v
    · rw [decimalValue_append, h4, Nat.pow_succ', Nat.mod_mul]
      simp [decimalValue, dig_toNat]
      omega

theorem loop_false (n v : Nat) :
    ∃ ds, fracLoop n v false [] = (ds, v / 10 ^ n, decide (ds ≠ [])) ∧ (∀ c ∈ ds, isDigit c = true) ∧ ds.length ≤ n ∧ ds.getLast? ≠ some 48 ∧
      v % 10 ^ n = decimalValue ds * 10 ^ (n - ds.length) := by
  induction n generalizing v with
  | zero => exact ⟨[], by simp [fracLoop], by simp, by simp, by simp, by simp [decimalValue, Nat.mod_one]⟩
  | succ n ih =>
    by_cases h : v % 10 = 0
    · obtain ⟨ds, h1, h2, h3, h4, h5⟩ := ih (v / 10)
      refine ⟨ds, ?_, h2, by omega, h4, ?_⟩
      · rw [fracLoop]
        simp only [h]
        rw [Nat.pow_succ', ← Nat.div_div_eq_div_mul]
        exact h1
      · rw [Nat.pow_succ', Nat.mod_mul, h, h5, show n + 1 - ds.length = (n - ds.length) + 1 by omega, Nat.pow_succ]
        rw [Nat.zero_add, Nat.mul_comm 10, Nat.mul_assoc]
    · obtain ⟨ds, h1, h2, h3, h4⟩ := loop_true n (v / 10) [dig v]
      refine ⟨ds ++ [dig v], ?_, ?_, by simp [h3], ?_, ?_⟩
      · rw [fracLoop]
        have hb : (v % 10 != 0) = true := by simp [h]
        simp only [hb, Bool.or_true, if_true]
        rw [h1, Nat.pow_succ', ← Nat.div_div_eq_div_mul]
        simp
      · intro c hc
        rcases List.mem_append.mp hc with hc | hc
        · exact h2 c hc
        · rw [List.mem_singleton.mp hc]; exact dig_isDigit v
      · rw [List.getLast?_concat]
        intro hd
        have := congrArg UInt8.toNat (Option.some.inj hd)
        rw [dig_toNat] at this
        have h48 : (48 : UInt8).toNat = 48 := rfl
        omega
      · rw [List.length_append, h3, List.length_singleton, Nat.sub_self, Nat.pow_zero, Nat.mul_one, decimalValue_append, h4, Nat.pow_succ', Nat.mod_mul]
        simp [decimalValue, dig_toNat]
        omega

/-- A fraction behind a whole number. -/
theorem frac_number (u p i : Nat) (hi : i % 10 ^ p = u % 10 ^ p) :
    ∃ f, (fmtFrac u p).1 = f ∧ (fmtFrac u p).2 = u / 10 ^ p ∧ ∀ k, Number p (k * 10 ^ p + i % 10 ^ p) (natDec k ++ f) := by
  obtain ⟨ds, h1, h2, h3, h4, h5⟩ := loop_false p u
  refine ⟨_, rfl, by unfold fmtFrac; rw [h1], fun k => ⟨natDec k, k, ds, ?_, natDec_canonical k, h2, h3, h4, by rw [hi, h5]⟩⟩
  unfold fmtFrac
  rw [h1]
  by_cases hd : ds = []
  · simp [hd]
  · simp [hd]

theorem whole_number (u p : Nat) (unit : Bytes) : ∃ t, Number p u t ∧ fmtInt (number u p unit).2 (number u p unit).1 = t ++ unit := by
  obtain ⟨f, h1, h2, h3⟩ := frac_number u p u rfl
  refine ⟨natDec (u / 10 ^ p) ++ f, ?_, ?_⟩
  · have := h3 (u / 10 ^ p)
    rwa [Nat.div_add_mod'] at this
  · unfold number
    rw [fmtInt_eq, h1, h2, List.append_assoc]

/-- C135: the text of a duration shows it. -/
theorem text_shows (d : Int64) : Shows (durationText d) d.toInt := by
  have key : ∀ u : Nat, ShowsNat
      (if u < 1000000000 then
        if u = 0 then asc "0s"
        else if u < 1000 then let r := number u 0 (asc "ns"); fmtInt r.2 r.1
        else if u < 1000000 then let r := number u 3 [0xC2, 0xB5, 115]; fmtInt r.2 r.1
        else let r := number u 6 (asc "ms"); fmtInt r.2 r.1
      else
        let r := number u 9 (asc "s")
        let s := fmtInt (r.2 % 60) r.1
        let m := r.2 / 60
        if m > 0 then
          let s := fmtInt (m % 60) (109 :: s)
          let h := m / 60
          if h > 0 then fmtInt h (104 :: s) else s
        else s) u := by
    intro u
    by_cases h1 : u < 1000000000
    · rw [if_pos h1]
      by_cases h0 : u = 0
      · rw [if_pos h0, h0]
        exact .s 0 (asc "0") ⟨asc "0", 0, [], rfl, ⟨by decide, by decide, by decide, by decide⟩, by simp, by simp, by simp, by simp [decimalValue]⟩
      · rw [if_neg h0]
        by_cases h2 : u < 1000
        · rw [if_pos h2]
          obtain ⟨t, ht, he⟩ := whole_number u 0 (asc "ns")
          simp only [he]; exact .ns u t ht
        · rw [if_neg h2]
          by_cases h3 : u < 1000000
          · rw [if_pos h3]
            obtain ⟨t, ht, he⟩ := whole_number u 3 [0xC2, 0xB5, 115]
            simp only [he]; exact .us u t ht
          · rw [if_neg h3]
            obtain ⟨t, ht, he⟩ := whole_number u 6 (asc "ms")
            simp only [he]; exact .ms u t ht
    · rw [if_neg h1]
      obtain ⟨f, hf, hq, hN⟩ := frac_number u 9 u rfl
      simp only [number, hf, hq, fmtInt_eq]
      have hNs := hN (u / 10 ^ 9 % 60)
      have hlt : u / 10 ^ 9 % 60 * 10 ^ 9 + u % 10 ^ 9 < 60 * 10 ^ 9 := by omega
      by_cases hm : u / 10 ^ 9 / 60 > 0
      · rw [if_pos hm]
        by_cases hh : u / 10 ^ 9 / 60 / 60 > 0
        · rw [if_pos hh]
          have := ShowsNat.h _ _ _ _ _ _ hNs (natDec_canonical (u / 10 ^ 9 / 60 % 60)) (natDec_canonical (u / 10 ^ 9 / 60 / 60)) hlt (by omega)
          have e : u / 10 ^ 9 / 60 / 60 * (3600 * 10 ^ 9) + u / 10 ^ 9 / 60 % 60 * (60 * 10 ^ 9) + (u / 10 ^ 9 % 60 * 10 ^ 9 + u % 10 ^ 9) = u := by omega
          rw [e] at this
          simpa only [List.append_assoc] using this
        · rw [if_neg hh]
          have := ShowsNat.m _ _ _ _ hNs (natDec_canonical (u / 10 ^ 9 / 60 % 60)) hlt
          have e : u / 10 ^ 9 / 60 % 60 * (60 * 10 ^ 9) + (u / 10 ^ 9 % 60 * 10 ^ 9 + u % 10 ^ 9) = u := by omega
          rw [e] at this
          simpa only [List.append_assoc] using this
      · rw [if_neg hm]
        have e : u / 10 ^ 9 % 60 * 10 ^ 9 + u % 10 ^ 9 = u := by omega
        rw [e] at hNs
        have := ShowsNat.s _ _ hNs
        simpa only [List.append_assoc] using this
  unfold Shows durationText
  by_cases hd : d.toInt < 0
  · rw [if_pos hd]
    exact ⟨_, by simp only [if_pos hd], key _⟩
  · rw [if_neg hd]
    simp only [if_neg hd]
    exact key _

/-! ### Proofs: timers -/

theorem sub_toInt (a b : Int64) (ha : 0 ≤ a.toInt) (hb : 0 ≤ b.toInt) : (a - b).toInt = a.toInt - b.toInt := by
  rw [Int64.toInt_sub]
  have h1 := a.toInt_lt
  have h2 := b.toInt_lt
  apply Int.bmod_eq_of_le <;> omega

/-- C135, part: in every entry whose level is not above that of its timer, the time shown is the time from the start of the timer to the
event, if the level was not lowered between.  Missing: other entries, above all those of calls that failed (`failed_call`), and a lowered
level (`lowered`). -/
theorem shown_partial (k : Timer) (api : Api) (cfg0 cfg : Levels) (suppressed level : Int) (failed call : Bool) (now0 : Int64) (ev : FmtEvent)
    (shw : List Msgfmt.Arg → Bytes) (idx : Nat) (space : Bytes) (hlog : entry cfg suppressed failed api = some (level, call)) (hl : level ≤ k.level)
    (hcfg : cfg0.minLevel ≤ cfg.minLevel) (h0 : 0 ≤ now0.toInt) (h1 : 0 ≤ ev.nanos.toInt)
    (hev : ev.latency idx = latencyOf ev.nanos (some (k.start cfg0 now0))) :
    ∃ t, (Part.timer idx).format shw ev space = .ok (space ++ asc "\ntimer: " ++ t) ∧ Shows t (ev.nanos.toInt - now0.toInt) := by
  have hk : k.level ≤ 30 := by cases k <;> decide
  have hmin : cfg.minLevel ≤ level := by
    have hw : ∀ l : Int, 40 ≤ l → ∀ c, some (l, c) = some (level, call) → cfg.minLevel ≤ level := by
      intro l hl' c he
      cases he
      omega
    cases api with
    | warn => exact hw 40 (by decide) _ hlog
    | error => exact hw 50 (by decide) _ hlog
    | fatal => exact hw 60 (by decide) _ hlog
    | _ =>
      rw [entry] at hlog
      repeat' split at hlog
      all_goals first
        | exact hw 40 (by decide) _ hlog
        | exact hw 50 (by decide) _ hlog
        | (cases hlog; omega)
        | cases hlog
  have hs : k.start cfg0 now0 = now0 := by
    unfold Timer.start
    rw [if_neg (by omega)]
  rw [hs] at hev
  refine ⟨durationText (ev.nanos - now0), ?_, ?_⟩
  · show (match ev.latency idx with | some text => _ | none => _) = _
    rw [hev]
    rfl
  · rw [← sub_toInt _ _ h1 h0]
    exact text_shows _

/-! ### Disagreements and a concrete case -/

/-- The call a timer goes with. -/
def Timer.call : Timer → Api
  | .trace => .traceCall
  | .debug => .debugCall
  | .info => .infoCall

/-- C135 fails: if the level is not enabled, a call that failed is logged nevertheless, and the time shown is that since 1970. -/
theorem failed_call (k : Timer) (cfg : Levels) (suppressed : Int) (now0 : Int64) (ev : FmtEvent) (shw : List Msgfmt.Arg → Bytes) (idx : Nat) (space : Bytes)
    (hoff : k.level < cfg.minLevel) (h1 : 0 ≤ ev.nanos.toInt) (hev : ev.latency idx = latencyOf ev.nanos (some (k.start cfg now0))) :
    entry cfg suppressed true k.call = some (levelWarn, true) ∧
    ∃ t, (Part.timer idx).format shw ev space = .ok (space ++ asc "\ntimer: " ++ t) ∧ Shows t ev.nanos.toInt := by
  refine ⟨by cases k <;> rfl, durationText (ev.nanos - 0), ?_, ?_⟩
  · show (match ev.latency idx with | some text => _ | none => _) = _
    rw [hev]
    unfold Timer.start
    rw [if_pos hoff]
    rfl
  · have := text_shows (ev.nanos - 0)
    rwa [sub_toInt _ _ h1 (by decide), show (0 : Int64).toInt = 0 from rfl, Int.sub_zero] at this

/-- C135 fails: a timer started while its level was not enabled counts from 1970 when the level is lowered before the entry. -/
theorem lowered (now0 nanos : Int64) : latencyOf nanos (some (Timer.debug.start (setMinLevel levelInfo) now0)) = some (durationText (nanos - 0)) ∧
    entry (setMinLevel levelTrace) 0 false .debug = some (levelDebug, false) := ⟨rfl, by decide⟩

/-- A call in November 2017, two seconds and a half after its start; with the level for production and an error 419528 hours are shown. -/
example : durationText (1510300802500000000 - Timer.debug.start Levels.init 1510300800000000000) = asc "2.5s" ∧
    durationText (1510300802500000000 - Timer.debug.start (setMinLevel levelInfo) 1510300800000000000) = asc "419528h0m2.5s" ∧
    entry Levels.init 0 false .debugCall = some (levelDebug, true) ∧ levelDebug ≤ Timer.debug.level ∧
    durationText (-1500) = asc "-1.5" ++ [0xC2, 0xB5, 115] ∧ durationText 61000000000 = asc "1m1s" := by
  refine ⟨by decide +kernel, by decide +kernel, by decide, by decide, by decide +kernel, by decide +kernel⟩

end Verif.Countlog.Timers
