import Verif.Basic

/-!
# C31 and C32: size-limited log files

Model of the writing side of countlog/output/lumberjack/lumberjack.go.  `Write`, `Close` and `Rotate` hold
the mutex, so they are atomic.  Every call into the file system may fail.  Cleaning (`mill`) is in
`Verif.Output.Backups`; here nothing is removed.
-/

namespace Verif.Lumberjack

/-! ### Model -/

/-- `max`, lumberjack.go 453-458, with `megabyte` (130) as it is. -/
def maxBytes (maxSize : Int64) : Int64 :=
  if maxSize = 0 then 100 * (1024 * 1024) else maxSize * (1024 * 1024)

/-- What the environment does during one call of `rotate`, `openNew` or `openExistingOrNew`: the time (in
milliseconds, as far as it shows in a backup's name) and which file system calls fail (lumberjack.go 197-294). -/
structure Env where
  time : Nat
  close : Bool := false
  mkdir : Bool := false
  stat : Bool := false
  rename : Bool := false
  chownOpen : Bool := false
  chown : Bool := false
  open_ : Bool := false
  append : Bool := false
  deriving DecidableEq, Repr

/-- The logger (lumberjack.go 112-118) and the files: the live one if it exists, and the backups by the time in
their name.  Sizes are unbounded integers, a simplification: files are smaller than 2^62 bytes.  Nothing else
touches the files (as the package comment asks, 18-21). -/
structure Log where
  max : Int
  opened : Bool
  size : Int
  live : Option Bytes
  backups : List (Nat × Bytes)
  deriving DecidableEq, Repr

/-- `os.Rename` onto a backup name replaces a file of that name, lumberjack.go 226-227. -/
def moveAside (t : Nat) (c : Bytes) (bs : List (Nat × Bytes)) : List (Nat × Bytes) :=
  bs.filter (fun b => decide (b.1 ≠ t)) ++ [(t, c)]

/-- `openNew` after the rename, lumberjack.go 240-246: create or truncate. -/
def openTruncated (s : Log) (e : Env) : Log × Bool :=
  if e.open_ then (s, false) else ({ s with opened := true, size := 0, live := some [] }, true)

/-- `openNew`, lumberjack.go 210-247, and `chown`, chown_linux.go 11-19.  The flag says whether it succeeded. -/
def openNew (s : Log) (e : Env) : Log × Bool :=
  if e.mkdir then (s, false)
  else
    match (if e.stat then none else s.live) with
    | none => openTruncated s e
    | some c =>
      if e.rename then (s, false)
      else
        let s1 := { s with live := none, backups := moveAside e.time c s.backups }
        if e.chownOpen then (s1, false)
        else
          let s2 := { s1 with live := some [] }
          if e.chown then (s2, false) else openTruncated s2 e

/-- `close`, lumberjack.go 174-181. -/
def close (s : Log) (e : Env) : Log × Bool :=
  if s.opened then ({ s with opened := false }, !e.close) else (s, true)

/-- `rotate`, lumberjack.go 197-206. -/
def rotate (s : Log) (e : Env) : Log × Bool :=
  let c := close s e
  if c.2 then openNew c.1 e else c

/-- `openExistingOrNew`, lumberjack.go 269-294. -/
def openExistingOrNew (s : Log) (writeLen : Nat) (e : Env) : Log × Bool :=
  if e.stat then (s, false)
  else
    match s.live with
    | none => openNew s e
    | some c =>
      if (c.length : Int) + writeLen ≥ s.max then rotate s e
      else if e.append then openNew s e
      else ({ s with opened := true, size := c.length }, true)

/-- `Write`, lumberjack.go 137-164; the file system takes `w` bytes or fewer if `p` is shorter.  Returns the number of
bytes written. -/
def write (s : Log) (p : Bytes) (e1 e2 : Env) (w : Nat) : Log × Nat :=
  if (p.length : Int) > s.max then (s, 0)
  else
    let r1 := if s.opened then (s, true) else openExistingOrNew s p.length e1
    if r1.2 then
      let r2 := if r1.1.size + p.length > r1.1.max then rotate r1.1 e2 else (r1.1, true)
      if r2.2 then
        let n := min w p.length
        ({ r2.1 with live := r2.1.live.map (· ++ p.take n), size := r2.1.size + n }, n)
      else (r2.1, 0)
    else (r1.1, 0)

/-- Calls by the user.  `restart` is a new process with a new `Logger` (lumberjack.go 137-192). -/
inductive Op where
  | write (p : Bytes) (e1 e2 : Env) (w : Nat)
  | rotate (e : Env)
  | close (e : Env)
  | restart
  deriving Repr

/-- One call: the new state and the bytes that reached the file (lumberjack.go 137-192). -/
def Log.op (s : Log) : Op → Log × Bytes
  | .write p e1 e2 w => ((Lumberjack.write s p e1 e2 w).1, p.take (Lumberjack.write s p e1 e2 w).2)
  | .rotate e => ((Lumberjack.rotate s e).1, [])
  | .close e => ((Lumberjack.close s e).1, [])
  | .restart => ({ s with opened := false, size := 0 }, [])

/-- A sequence of calls (lumberjack.go 137-192). -/
def Log.ops (s : Log) : List Op → Log × Bytes
  | [] => (s, [])
  | o :: os => (((s.op o).1.ops os).1, (s.op o).2 ++ ((s.op o).1.ops os).2)

/-- A new logger over whatever files there are (lumberjack.go 79-118). -/
def start (max : Int) (live : Option Bytes) (backups : List (Nat × Bytes)) : Log := ⟨max, false, 0, live, backups⟩

/-! ### C31 -/

/-- An open logger knows the size of the live file. -/
def Sized (s : Log) : Prop := s.opened = true → ∃ c, s.live = some c ∧ s.size = c.length

/-- The live file is within the limit. -/
def Fits (s : Log) : Prop := ∀ c, s.live = some c → (c.length : Int) ≤ s.max

theorem openTruncated_spec (s : Log) (e : Env) (hs : Sized s) (hf : Fits s) (h0 : 0 ≤ s.max) :
    Sized (openTruncated s e).1 ∧ Fits (openTruncated s e).1 ∧ (openTruncated s e).1.max = s.max ∧
      ((openTruncated s e).2 = true → (openTruncated s e).1.opened = true) := by
  unfold openTruncated
  split
  · exact ⟨hs, hf, rfl, by simp⟩
  · refine ⟨fun _ => ⟨[], rfl, rfl⟩, ?_, rfl, fun _ => rfl⟩
    intro c hc
    injection hc with hc
    subst hc
    simpa using h0

theorem openNew_spec (s : Log) (e : Env) (hclosed : s.opened = false) (hf : Fits s) (h0 : 0 ≤ s.max) :
    Sized (openNew s e).1 ∧ Fits (openNew s e).1 ∧ (openNew s e).1.max = s.max ∧ ((openNew s e).2 = true → (openNew s e).1.opened = true) := by
  have hsz : Sized s := by intro h; rw [hclosed] at h; cases h
  unfold openNew
  split
  · exact ⟨hsz, hf, rfl, by simp⟩
  · split
    · exact openTruncated_spec s e hsz hf h0
    · rename_i c hc
      split
      · exact ⟨hsz, hf, rfl, by simp⟩
      · simp only
        split
        · refine ⟨?_, ?_, rfl, by simp⟩
          · intro h; rw [hclosed] at h; cases h
          · intro c hc; cases hc
        · have hsz2 : Sized { s with live := some [], backups := moveAside e.time c s.backups } := by
            intro h; rw [hclosed] at h; cases h
          have hf2 : Fits { s with live := some [], backups := moveAside e.time c s.backups } := by
            intro c hc
            injection hc with hc
            subst hc
            simpa using h0
          split
          · exact ⟨hsz2, hf2, rfl, by simp⟩
          · exact openTruncated_spec _ e hsz2 hf2 h0

theorem close_spec (s : Log) (e : Env) (hf : Fits s) :
    (close s e).1.opened = false ∧ Fits (close s e).1 ∧ (close s e).1.max = s.max ∧ (close s e).1.live = s.live ∧ (close s e).1.backups = s.backups := by
  unfold close
  split
  · exact ⟨rfl, hf, rfl, rfl, rfl⟩
  · rename_i h
    exact ⟨by simpa using h, hf, rfl, rfl, rfl⟩

theorem rotate_spec (s : Log) (e : Env) (hf : Fits s) (h0 : 0 ≤ s.max) :
    Sized (rotate s e).1 ∧ Fits (rotate s e).1 ∧ (rotate s e).1.max = s.max ∧ ((rotate s e).2 = true → (rotate s e).1.opened = true) := by
  obtain ⟨h1, h2, h3, _⟩ := close_spec s e hf
  unfold rotate
  simp only
  split
  · have := openNew_spec (close s e).1 e h1 h2 (by rw [h3]; exact h0)
    rw [h3] at this
    exact this
  · rename_i hc
    refine ⟨?_, h2, h3, fun h => absurd h hc⟩
    intro h; rw [h1] at h; cases h

theorem openExistingOrNew_spec (s : Log) (n : Nat) (e : Env) (hclosed : s.opened = false) (hf : Fits s) (h0 : 0 ≤ s.max) :
    Sized (openExistingOrNew s n e).1 ∧ Fits (openExistingOrNew s n e).1 ∧ (openExistingOrNew s n e).1.max = s.max ∧
      ((openExistingOrNew s n e).2 = true → (openExistingOrNew s n e).1.opened = true) := by
  unfold openExistingOrNew
  split
  · refine ⟨?_, hf, rfl, by simp⟩
    intro h; rw [hclosed] at h; cases h
  · split
    · exact openNew_spec s e hclosed hf h0
    · rename_i c hc
      split
      · exact rotate_spec s e hf h0
      · split
        · exact openNew_spec s e hclosed hf h0
        · exact ⟨fun _ => ⟨c, hc, rfl⟩, hf, rfl, fun _ => rfl⟩

theorem openTruncated_max (s : Log) (e : Env) : (openTruncated s e).1.max = s.max := by
  unfold openTruncated; split <;> rfl

theorem openNew_max (s : Log) (e : Env) : (openNew s e).1.max = s.max := by
  unfold openNew
  split
  · rfl
  · split
    · exact openTruncated_max s e
    · split
      · rfl
      · split
        · rfl
        · split
          · rfl
          · exact openTruncated_max _ e

theorem rotate_max (s : Log) (e : Env) : (rotate s e).1.max = s.max := by
  have hc : (close s e).1.max = s.max := by unfold close; split <;> rfl
  unfold rotate
  simp only
  split
  · rw [openNew_max, hc]
  · exact hc

theorem rotate_empty (s : Log) (e : Env) (h : (rotate s e).2 = true) : (rotate s e).1.live = some [] ∧ (rotate s e).1.size = 0 := by
  have ht : ∀ (t : Log), (openTruncated t e).2 = true → (openTruncated t e).1.live = some [] ∧ (openTruncated t e).1.size = 0 := by
    intro t h
    unfold openTruncated at h ⊢
    split
    · rename_i ho; simp [ho] at h
    · exact ⟨rfl, rfl⟩
  unfold rotate at h ⊢
  simp only at h ⊢
  split
  · rename_i hc
    rw [if_pos hc] at h
    unfold openNew at h ⊢
    split
    · rename_i hm; simp [hm] at h
    · rename_i hm
      rw [if_neg hm] at h
      split
      · rename_i hl; simp only [hl] at h; exact ht _ h
      · rename_i c hl
        simp only [hl] at h
        split
        · rename_i hr; simp [hr] at h
        · rename_i hr
          simp only
          rw [if_neg hr] at h
          split
          · rename_i hr; simp [hr] at h
          · rename_i hr
            rw [if_neg hr] at h
            split
            · rename_i hr; simp [hr] at h
            · rename_i hr; rw [if_neg hr] at h; exact ht _ h
  · rename_i hc; rw [if_neg hc] at h; exact absurd h hc

theorem write_spec (s : Log) (p : Bytes) (e1 e2 : Env) (w : Nat) (hs : Sized s) (hf : Fits s) (h0 : 0 ≤ s.max) :
    Sized (write s p e1 e2 w).1 ∧ Fits (write s p e1 e2 w).1 ∧ (write s p e1 e2 w).1.max = s.max := by
  unfold write
  split
  · exact ⟨hs, hf, rfl⟩
  · rename_i hle
    have h1 : ∃ r1, (if s.opened then (s, true) else openExistingOrNew s p.length e1) = r1 ∧ Sized r1.1 ∧ Fits r1.1 ∧ r1.1.max = s.max ∧
        (r1.2 = true → r1.1.opened = true) := by
      split
      · rename_i ho; exact ⟨_, rfl, hs, hf, rfl, fun _ => ho⟩
      · rename_i ho; exact ⟨_, rfl, openExistingOrNew_spec s p.length e1 (by simpa using ho) hf h0⟩
    obtain ⟨r1, hr1, hs1, hf1, hm1, ho1⟩ := h1
    simp only [hr1]
    split
    · rename_i hok1
      have h2 : ∃ r2, (if r1.1.size + p.length > r1.1.max then rotate r1.1 e2 else (r1.1, true)) = r2 ∧ Sized r2.1 ∧ Fits r2.1 ∧ r2.1.max = s.max ∧
          (r2.2 = true → r2.1.opened = true ∧ r2.1.size + p.length ≤ r2.1.max) := by
        split
        · have := rotate_spec r1.1 e2 hf1 (by rw [hm1]; exact h0)
          refine ⟨_, rfl, this.1, this.2.1, by rw [this.2.2.1, hm1], fun h => ⟨this.2.2.2 h, ?_⟩⟩
          rw [(rotate_empty _ _ h).2, this.2.2.1, hm1]
          omega
        · rename_i hle2
          exact ⟨_, rfl, hs1, hf1, hm1, fun _ => ⟨ho1 hok1, by simp only; omega⟩⟩
      obtain ⟨r2, hr2, hs2, hf2, hm2, ho2⟩ := h2
      rw [hr2]
      split
      · rename_i hok2
        obtain ⟨ho, hfit⟩ := ho2 hok2
        obtain ⟨c, hc, hsz⟩ := hs2 ho
        have hn : (p.take (min w p.length)).length = min w p.length := by simp
        refine ⟨fun _ => ⟨c ++ p.take (min w p.length), by simp [hc], ?_⟩, ?_, hm2⟩
        · simp only [List.length_append, hn]; omega
        · intro c' hc'
          simp only [hc, Option.map_some, Option.some.injEq] at hc'
          subst hc'
          simp only [List.length_append, hn]
          omega
      · exact ⟨hs2, hf2, hm2⟩
    · exact ⟨hs1, hf1, hm1⟩

theorem op_spec (s : Log) (o : Op) (hs : Sized s) (hf : Fits s) (h0 : 0 ≤ s.max) :
    Sized (s.op o).1 ∧ Fits (s.op o).1 ∧ (s.op o).1.max = s.max := by
  cases o with
  | write p e1 e2 w => exact write_spec s p e1 e2 w hs hf h0
  | rotate e =>
    have := rotate_spec s e hf h0
    exact ⟨this.1, this.2.1, this.2.2.1⟩
  | close e =>
    obtain ⟨h1, h2, h3, _⟩ := close_spec s e hf
    refine ⟨?_, h2, h3⟩
    intro h; simp only [Log.op] at h; rw [h1] at h; cases h
  | restart => exact ⟨(by intro h; cases h), hf, rfl⟩

/-- C31: after any sequence of writes, rotations, closes and restarts, with any failures of the file system, the live
file is within the limit if it was at the start. -/
theorem live_within_limit (max : Int) (live : Option Bytes) (backups : List (Nat × Bytes)) (os : List Op) (h0 : 0 ≤ max)
    (hinit : ∀ c, live = some c → (c.length : Int) ≤ max) :
    ∀ c, ((start max live backups).ops os).1.live = some c → (c.length : Int) ≤ max := by
  have main : ∀ (os : List Op) (s : Log), Sized s → Fits s → 0 ≤ s.max → Fits (s.ops os).1 ∧ (s.ops os).1.max = s.max := by
    intro os
    induction os with
    | nil => intro s _ hf _; exact ⟨hf, rfl⟩
    | cons o os ih =>
      intro s hs hf h0
      obtain ⟨h1, h2, h3⟩ := op_spec s o hs hf h0
      have := ih (s.op o).1 h1 h2 (by rw [h3]; exact h0)
      rw [h3] at this
      exact this
  obtain ⟨h1, h2⟩ := main os (start max live backups) (by intro h; cases h) hinit h0
  intro c hc
  have := h1 c hc
  rw [h2] at this
  exact this

/-- C31: a write larger than the limit changes nothing. -/
theorem too_large_rejected (s : Log) (p : Bytes) (e1 e2 : Env) (w : Nat) (h : s.max < p.length) : write s p e1 e2 w = (s, 0) := by
  rw [write, if_pos (by omega)]

/-- C31: a file beyond the limit (from before) is never added to: if a write by a new logger reaches the file, the
file is within the limit. -/
theorem written_within_limit (max : Int) (live : Option Bytes) (backups : List (Nat × Bytes)) (p : Bytes) (e1 e2 : Env) (w : Nat)
    (h0 : 0 ≤ max) (hw : (write (start max live backups) p e1 e2 w).2 ≠ 0) :
    ∀ c, (write (start max live backups) p e1 e2 w).1.live = some c → (c.length : Int) ≤ max := by
  by_cases hf : Fits (start max live backups)
  · have := write_spec (start max live backups) p e1 e2 w (by intro h; cases h) hf h0
    intro c hc
    have h := this.2.1 c hc
    rw [this.2.2] at h
    exact h
  · cases live with
    | none => exact absurd (by intro c hc; cases hc) hf
    | some c0 =>
      have hbig : ¬ (c0.length : Int) ≤ max := by
        intro h
        apply hf
        intro c hc
        simp only [start, Option.some.injEq] at hc
        subst hc
        exact h
      unfold write at hw ⊢
      by_cases hlen : (p.length : Int) > (start max (some c0) backups).max
      · rw [if_pos hlen] at hw; exact absurd rfl hw
      · rw [if_neg hlen] at hw ⊢
        have ho : (start max (some c0) backups).opened = false := rfl
        simp only [ho, Bool.false_eq_true, if_false] at hw ⊢
        by_cases hok : (openExistingOrNew (start max (some c0) backups) p.length e1).2 = true
        · rw [if_pos hok] at hw ⊢
          have hrot : openExistingOrNew (start max (some c0) backups) p.length e1 = rotate (start max (some c0) backups) e1 := by
            unfold openExistingOrNew at hok ⊢
            by_cases hst : e1.stat = true
            · rw [if_pos hst] at hok; cases hok
            · rw [if_neg hst]
              simp only [start, ge_iff_le]
              rw [if_pos (show max ≤ (c0.length : Int) + p.length by omega)]
          rw [hrot] at hok hw ⊢
          obtain ⟨he, hz⟩ := rotate_empty _ _ hok
          have hmax : (rotate (start max (some c0) backups) e1).1.max = max := by
            rw [rotate_max]; rfl
          rw [hz, hmax]
          have hin : (if (0 : Int) + (p.length : Int) > max then rotate (rotate (start max (some c0) backups) e1).1 e2
              else ((rotate (start max (some c0) backups) e1).1, true)) = ((rotate (start max (some c0) backups) e1).1, true) :=
            if_neg (by simp only [start] at hlen; omega)
          rw [hin, if_pos rfl]
          intro c hc
          simp only [he, Option.map_some, List.nil_append, Option.some.injEq] at hc
          subst hc
          simp only [start] at hlen
          simp only [List.length_take]
          omega
        · rw [if_neg hok] at hw; exact absurd rfl hw

/-- The limit: what is configured in megabytes, 100 if nothing is, as long as it is below eight exabytes. -/
theorem limit_megabytes (maxSize : Int64) (h0 : 0 ≤ maxSize.toInt) (h : maxSize.toInt < 2 ^ 43) :
    (maxBytes maxSize).toInt = if maxSize.toInt = 0 then 104857600 else maxSize.toInt * 1048576 := by
  unfold maxBytes
  by_cases hz : maxSize = 0
  · subst hz; decide
  · rw [if_neg hz, if_neg (fun he => hz (Int64.toInt_inj.mp (by rw [he]; rfl)))]
    rw [Int64.toInt_mul]
    have : (1024 * 1024 : Int64).toInt = 1048576 := by decide
    rw [this]
    rw [Int.bmod_eq_of_le] <;> omega

/-- Three writes of three bytes with a limit of five; the last two meet in one file only with a restart in between. -/
example : let e : Nat → Env := fun t => { time := t }
    (start 5 (some (asc "old")) []).ops [.write (asc "abc") (e 1) (e 2) 9, .restart, .write (asc "d") (e 3) (e 4) 9, .write (asc "ef") (e 5) (e 6) 9] =
      (⟨5, true, 2, some (asc "ef"), [(1, asc "old"), (6, asc "abcd")]⟩, asc "abcdef") := by decide

/-! ### C32 -/

/-- The contents of the backups in order, then the live file. -/
def Log.contents (s : Log) : Bytes := (s.backups.map Prod.snd).flatten ++ s.live.getD []

/-- The times of the backups. -/
def Log.times (s : Log) : List Nat := s.backups.map Prod.fst

/-- The clock readings of a call. -/
def Op.times : Op → List Nat
  | .write _ e1 e2 _ => [e1.time, e2.time]
  | .rotate e => [e.time]
  | _ => []

/-- Whether `os.Stat` works in all of a call. -/
def Op.statWorks : Op → Prop
  | .write _ e1 e2 _ => e1.stat = false ∧ e2.stat = false
  | .rotate e => e.stat = false
  | _ => True

theorem moveAside_fresh (t : Nat) (c : Bytes) (bs : List (Nat × Bytes)) (h : t ∉ bs.map Prod.fst) :
    moveAside t c bs = bs ++ [(t, c)] := by
  unfold moveAside
  rw [List.filter_eq_self.mpr]
  intro b hb
  simp only [decide_eq_true_eq]
  intro he
  exact h (List.mem_map.mpr ⟨b, hb, he⟩)

/-- What a part of a call may do to the files: keep the contents, and add at most one backup, the last, with the time given. -/
def Kept (s s' : Log) (t : Nat) : Prop :=
  s'.contents = s.contents ∧ (s'.times = s.times ∨ s'.times = s.times ++ [t])

theorem Kept.refl (s : Log) (t : Nat) : Kept s s t := ⟨rfl, Or.inl rfl⟩

theorem openTruncated_kept (s : Log) (e : Env) (h : s.live.getD [] = []) : Kept s (openTruncated s e).1 e.time := by
  unfold openTruncated
  split
  · exact Kept.refl s _
  · refine ⟨?_, Or.inl rfl⟩
    simp [Log.contents, h]

theorem openNew_kept (s : Log) (e : Env) (hst : e.stat = false) (hfresh : e.time ∉ s.times) : Kept s (openNew s e).1 e.time := by
  unfold openNew
  split
  · exact Kept.refl s _
  · simp only [hst, Bool.false_eq_true, if_false]
    split
    · rename_i hl
      exact openTruncated_kept s e (by rw [hl]; rfl)
    · rename_i c hl
      have hk : ∀ l, l.getD [] = [] → Kept s { s with live := l, backups := moveAside e.time c s.backups } e.time := by
        intro l h
        rw [moveAside_fresh _ _ _ hfresh]
        refine ⟨?_, Or.inr ?_⟩
        · simp [Log.contents, hl, h]
        · simp [Log.times]
      split
      · exact Kept.refl s _
      · split
        · exact hk none rfl
        · split
          · exact hk (some []) rfl
          · unfold openTruncated
            split
            · exact hk (some []) rfl
            · obtain ⟨h1, h2⟩ := hk (some []) rfl
              exact ⟨h1, h2⟩

theorem close_kept (s : Log) (e : Env) (t : Nat) : Kept s (close s e).1 t := by
  unfold close
  split
  · exact ⟨rfl, Or.inl rfl⟩
  · exact Kept.refl s t

theorem close_times (s : Log) (e : Env) : (close s e).1.times = s.times := by
  unfold close
  split <;> rfl

theorem rotate_kept (s : Log) (e : Env) (hst : e.stat = false) (hfresh : e.time ∉ s.times) : Kept s (rotate s e).1 e.time := by
  unfold rotate
  simp only
  have hc := close_kept s e e.time
  have ht := close_times s e
  split
  · obtain ⟨h1, h2⟩ := openNew_kept (close s e).1 e hst (by rw [ht]; exact hfresh)
    rw [ht] at h2
    exact ⟨h1.trans hc.1, h2⟩
  · exact hc

theorem openExistingOrNew_kept (s : Log) (n : Nat) (e : Env) (hst : e.stat = false) (hfresh : e.time ∉ s.times) :
    Kept s (openExistingOrNew s n e).1 e.time := by
  unfold openExistingOrNew
  split
  · exact Kept.refl s _
  · split
    · exact openNew_kept s e hst hfresh
    · split
      · exact rotate_kept s e hst hfresh
      · split
        · exact openNew_kept s e hst hfresh
        · exact ⟨rfl, Or.inl rfl⟩

theorem openNew_live (s : Log) (e : Env) (h : (openNew s e).2 = true) : ∃ c, (openNew s e).1.live = some c := by
  unfold openNew openTruncated at h ⊢
  repeat' split
  all_goals first
    | exact ⟨_, rfl⟩
    | (simp_all)

theorem rotate_live (s : Log) (e : Env) (h : (rotate s e).2 = true) : ∃ c, (rotate s e).1.live = some c :=
  ⟨[], (rotate_empty s e h).1⟩

theorem openExistingOrNew_live (s : Log) (n : Nat) (e : Env) (h : (openExistingOrNew s n e).2 = true) :
    ∃ c, (openExistingOrNew s n e).1.live = some c := by
  unfold openExistingOrNew at h ⊢
  split
  · rename_i hs; simp [hs] at h
  · rename_i hs
    rw [if_neg hs] at h
    split
    · rename_i hl; simp only [hl] at h; exact openNew_live s e h
    · rename_i c hl
      simp only [hl] at h
      split
      · rename_i hg; rw [if_pos hg] at h; exact rotate_live s e h
      · rename_i hg
        rw [if_neg hg] at h
        split
        · rename_i ha; rw [if_pos ha] at h; exact openNew_live s e h
        · exact ⟨c, hl⟩

/-- An open logger has a live file. -/
def HasLive (s : Log) : Prop := s.opened = true → ∃ c, s.live = some c

/-- One call: contents grow by what was written, and the times by some of the call's, in order. -/
theorem write_contents (s : Log) (p : Bytes) (e1 e2 : Env) (w : Nat) (hs : HasLive s) (h1 : e1.stat = false) (h2 : e2.stat = false)
    (hf : (s.times ++ [e1.time, e2.time]).Nodup) :
    (write s p e1 e2 w).1.contents = s.contents ++ p.take (write s p e1 e2 w).2 ∧
      ∃ ts, ts.Sublist [e1.time, e2.time] ∧ (write s p e1 e2 w).1.times = s.times ++ ts := by
  have hf1 : e1.time ∉ s.times := by
    intro h
    exact (List.nodup_append.mp hf).2.2 _ h _ (by simp) rfl
  have hf2 : e2.time ∉ s.times ++ [e1.time] := by
    intro h
    rcases List.mem_append.mp h with h | h
    · exact (List.nodup_append.mp hf).2.2 _ h _ (by simp) rfl
    · have := (List.nodup_append.mp hf).2.1
      simp only [List.mem_singleton] at h
      simp [h] at this
  unfold write
  split
  · exact ⟨by simp, [], by simp, by simp⟩
  · have hr1 : ∃ r1, (if s.opened then (s, true) else openExistingOrNew s p.length e1) = r1 ∧ Kept s r1.1 e1.time ∧
        (r1.2 = true → ∃ c, r1.1.live = some c) := by
      split
      · rename_i ho; exact ⟨_, rfl, Kept.refl s _, fun _ => hs ho⟩
      · exact ⟨_, rfl, openExistingOrNew_kept s p.length e1 h1 hf1, openExistingOrNew_live s p.length e1⟩
    obtain ⟨r1, hr1, hk1, hl1⟩ := hr1
    simp only [hr1]
    have hsub1 : ∃ ts, ts.Sublist [e1.time] ∧ r1.1.times = s.times ++ ts := by
      rcases hk1.2 with h | h
      · exact ⟨[], by simp, by simpa using h⟩
      · exact ⟨[e1.time], by simp, h⟩
    split
    · rename_i hok1
      have hr2 : ∃ r2, (if r1.1.size + p.length > r1.1.max then rotate r1.1 e2 else (r1.1, true)) = r2 ∧ Kept r1.1 r2.1 e2.time ∧
          (r2.2 = true → ∃ c, r2.1.live = some c) := by
        split
        · refine ⟨_, rfl, rotate_kept r1.1 e2 h2 ?_, rotate_live r1.1 e2⟩
          intro hm
          obtain ⟨ts, hts, he⟩ := hsub1
          rw [he] at hm
          rcases List.mem_append.mp hm with hm | hm
          · exact hf2 (List.mem_append_left _ hm)
          · exact hf2 (List.mem_append_right _ (hts.subset hm))
        · exact ⟨_, rfl, Kept.refl _ _, fun _ => hl1 hok1⟩
      obtain ⟨r2, hr2, hk2, hl2⟩ := hr2
      rw [hr2]
      have hsub2 : ∃ ts, ts.Sublist [e1.time, e2.time] ∧ r2.1.times = s.times ++ ts := by
        obtain ⟨ts, hts, he⟩ := hsub1
        rcases hk2.2 with h | h
        · exact ⟨ts, hts.trans (List.sublist_append_left [e1.time] [e2.time]), by rw [h, he]⟩
        · refine ⟨ts ++ [e2.time], ?_, by rw [h, he, List.append_assoc]⟩
          exact hts.append (List.Sublist.refl [e2.time])
      have hcont : r2.1.contents = s.contents := hk2.1.trans hk1.1
      split
      · rename_i hok2
        obtain ⟨c, hc⟩ := hl2 hok2
        refine ⟨?_, hsub2⟩
        rw [← hcont]
        simp [Log.contents, hc]
      · exact ⟨by simpa using hcont, hsub2⟩
    · obtain ⟨ts, hts, he⟩ := hsub1
      exact ⟨by simpa using hk1.1, ts, hts.trans (List.sublist_append_left [e1.time] [e2.time]), he⟩

theorem write_hasLive (s : Log) (p : Bytes) (e1 e2 : Env) (w : Nat) (hs : HasLive s) : HasLive (write s p e1 e2 w).1 := by
  have htr : ∀ (t : Log) (e : Env), t.opened = false → HasLive (openTruncated t e).1 := by
    intro t e ht
    unfold openTruncated
    split
    · intro h; rw [ht] at h; cases h
    · intro _; exact ⟨[], rfl⟩
  have hnew : ∀ (t : Log) (e : Env), t.opened = false → HasLive (openNew t e).1 := by
    intro t e ht
    have hn : ∀ l b, HasLive { t with live := l, backups := b } := by intro l b h; rw [ht] at h; cases h
    have hn' : HasLive t := by intro h; rw [ht] at h; cases h
    unfold openNew
    split
    · exact hn'
    · split
      · exact htr t e ht
      · split
        · exact hn'
        · split
          · exact hn _ _
          · split
            · exact hn _ _
            · exact htr _ e ht
  have hclosed : ∀ (t : Log) (e : Env), (close t e).1.opened = false := by
    intro t e
    unfold close
    split
    · rfl
    · rename_i h; simpa using h
  have hrot : ∀ (t : Log) (e : Env), HasLive (rotate t e).1 := by
    intro t e
    unfold rotate
    simp only
    split
    · exact hnew _ e (hclosed t e)
    · intro h; rw [hclosed t e] at h; cases h
  unfold write
  split
  · exact hs
  · have hr1 : ∃ r1, (if s.opened then (s, true) else openExistingOrNew s p.length e1) = r1 ∧ HasLive r1.1 := by
      split
      · exact ⟨_, rfl, hs⟩
      · rename_i ho
        refine ⟨_, rfl, ?_⟩
        unfold openExistingOrNew
        split
        · exact hs
        · split
          · exact hnew s e1 (by simpa using ho)
          · rename_i c hc
            split
            · exact hrot s e1
            · split
              · exact hnew s e1 (by simpa using ho)
              · intro _; exact ⟨c, hc⟩
    obtain ⟨r1, hr1, hl1⟩ := hr1
    simp only [hr1]
    split
    · have hr2 : ∃ r2, (if r1.1.size + p.length > r1.1.max then rotate r1.1 e2 else (r1.1, true)) = r2 ∧ HasLive r2.1 := by
        split
        · exact ⟨_, rfl, hrot _ _⟩
        · exact ⟨_, rfl, hl1⟩
      obtain ⟨r2, hr2, hl2⟩ := hr2
      rw [hr2]
      split
      · intro h
        obtain ⟨c, hc⟩ := hl2 h
        exact ⟨c ++ p.take (min w p.length), by simp only [hc, Option.map_some]⟩
      · exact hl2
    · exact hl1

theorem op_hasLive (s : Log) (o : Op) (hs : HasLive s) : HasLive (s.op o).1 := by
  cases o with
  | write p e1 e2 w => exact write_hasLive s p e1 e2 w hs
  | rotate e =>
    intro h
    simp only [Log.op] at h ⊢
    unfold rotate close openNew openTruncated at h ⊢
    simp only at h ⊢
    repeat' split
    all_goals first
      | exact ⟨_, rfl⟩
      | simp_all
  | close e =>
    intro h
    simp only [Log.op] at h
    unfold close at h
    split at h
    · cases h
    · rename_i ho; exact absurd h ho
  | restart => intro h; cases h

theorem op_contents (s : Log) (o : Op) (hs : HasLive s) (hw : o.statWorks) (hf : (s.times ++ o.times).Nodup) :
    (s.op o).1.contents = s.contents ++ (s.op o).2 ∧ ∃ ts, ts.Sublist o.times ∧ (s.op o).1.times = s.times ++ ts := by
  cases o with
  | write p e1 e2 w => exact write_contents s p e1 e2 w hs hw.1 hw.2 hf
  | rotate e =>
    have hfresh : e.time ∉ s.times := by
      intro h
      exact (List.nodup_append.mp hf).2.2 _ h _ (by simp [Op.times]) rfl
    obtain ⟨h1, h2⟩ := rotate_kept s e hw hfresh
    refine ⟨by simpa [Log.op] using h1, ?_⟩
    rcases h2 with h | h
    · exact ⟨[], by simp, by simpa [Log.op] using h⟩
    · exact ⟨[e.time], by simp [Op.times], h⟩
  | close e =>
    obtain ⟨h1, _⟩ := close_kept s e 0
    exact ⟨by simpa [Log.op] using h1, [], by simp, by simpa [Log.op] using close_times s e⟩
  | restart => exact ⟨by simp [Log.op, Log.contents], [], by simp, by simp [Log.op, Log.times]⟩

/-- C32 (partly): as long as no two clock readings that go into backup names (nor any of them and an existing backup)
fall in the same millisecond, and `os.Stat` works, the backups in the order of rotation followed by the live file are what
was there at the start followed by all bytes written, in order - with any other failures of the file system.  If the clock
goes forward, the order of rotation is the order of the names.  Otherwise false: `same_millisecond_loses`,
`failing_stat_loses`. -/
theorem nothing_lost_partial (max : Int) (live : Option Bytes) (backups : List (Nat × Bytes)) (os : List Op)
    (hstat : ∀ o ∈ os, o.statWorks) (hfresh : (backups.map Prod.fst ++ os.flatMap Op.times).Nodup) :
    let r := (start max live backups).ops os
    r.1.contents = ((backups.map Prod.snd).flatten ++ live.getD []) ++ r.2 ∧
      ((backups.map Prod.fst ++ os.flatMap Op.times).Pairwise (· < ·) → r.1.times.Pairwise (· < ·)) := by
  have main : ∀ (os : List Op) (s : Log), HasLive s → (∀ o ∈ os, o.statWorks) → (s.times ++ os.flatMap Op.times).Nodup →
      (s.ops os).1.contents = s.contents ++ (s.ops os).2 ∧ ∃ ts, ts.Sublist (os.flatMap Op.times) ∧ (s.ops os).1.times = s.times ++ ts := by
    intro os
    induction os with
    | nil => intro s _ _ _; exact ⟨by simp [Log.ops], [], by simp, by simp [Log.ops]⟩
    | cons o os ih =>
      intro s hs hw hf
      rw [List.flatMap_cons, ← List.append_assoc] at hf
      obtain ⟨h1, ts, hts, h2⟩ := op_contents s o hs (hw o (List.mem_cons_self ..)) (List.nodup_append.mp hf).1
      have hf' : ((s.op o).1.times ++ os.flatMap Op.times).Nodup := by
        rw [h2]
        exact hf.sublist (((List.Sublist.refl _).append hts).append (List.Sublist.refl _))
      obtain ⟨h3, ts', hts', h4⟩ := ih (s.op o).1 (op_hasLive s o hs) (fun o' ho' => hw o' (List.mem_cons_of_mem _ ho')) hf'
      refine ⟨?_, ts ++ ts', ?_, ?_⟩
      · simp only [Log.ops]
        rw [h3, h1, List.append_assoc]
      · rw [List.flatMap_cons]; exact hts.append hts'
      · simp only [Log.ops]
        rw [h4, h2, List.append_assoc]
  obtain ⟨h1, ts, hts, h2⟩ := main os (start max live backups) (by intro h; cases h) hstat hfresh
  refine ⟨h1, fun hp => ?_⟩
  rw [h2]
  exact hp.sublist ((List.Sublist.refl _).append hts)

/-- The hypotheses hold for the run above. -/
example : let e : Nat → Env := fun t => { time := t }
    let os : List Op := [.write (asc "abc") (e 1) (e 2) 9, .restart, .write (asc "d") (e 3) (e 4) 9, .write (asc "ef") (e 5) (e 6) 9]
    (([] : List (Nat × Bytes)).map Prod.fst ++ os.flatMap Op.times).Nodup ∧ ((start 5 (some (asc "old")) []).ops os).1.contents = asc "oldabcdef" := by
  decide

/-- C32 is false: two rotations in one millisecond, and the first backup is overwritten. -/
theorem same_millisecond_loses : ∃ os : List Op, (∀ o ∈ os, o.statWorks) ∧
    ((start 5 none []).ops os).2 = asc "abcdefghi" ∧ ((start 5 none []).ops os).1.contents = asc "defghi" := by
  refine ⟨[.write (asc "abc") { time := 1 } { time := 1 } 9,
    .write (asc "def") { time := 1 } { time := 1 } 9,
    .write (asc "ghi") { time := 1 } { time := 1 } 9], ?_, ?_, ?_⟩
  · intro o ho
    simp only [List.mem_cons, List.not_mem_nil, or_false] at ho
    rcases ho with rfl | rfl | rfl <;> exact ⟨rfl, rfl⟩
  · decide
  · decide

/-- C32 is false if `os.Stat` fails for any reason during a rotation: the live file is not moved but truncated. -/
theorem failing_stat_loses : ((start 5 (some (asc "old")) []).ops [.rotate { time := 1, stat := true }]).1.contents = [] := by decide

end Verif.Lumberjack
