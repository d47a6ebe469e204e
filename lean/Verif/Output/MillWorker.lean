import Verif.Output.Mill
import Mathlib.Data.List.Sort

/-!
# C122: cleaning in the background

Model of `mill` and `millRun`, countlog/output/lumberjack/lumberjack.go 383-401, together with the calls of `mill` in
`rotate`, 197-206, and `openExistingOrNew`, 269-294.  The live file is left out of the directory (see `live_untouched`).
-/

namespace Verif.Lumberjack

/-! ### Model -/

/-- Where the goroutine of `millRun` is, lumberjack.go 383-388: waiting for the channel, at the beginning of `millRunOnce`,
or in it with the files listed, 314. -/
inductive Worker where
  | waiting
  | started
  | listed (files : List LogInfo)

/-- Where the goroutine holding the mutex is: outside of `rotate`, or in it between moving the file aside in `openNew`, 227,
and calling `mill`, 204. -/
inductive Pc where
  | idle
  | moved

/-- The directory, the channel of one element `millCh`, 394, and the two goroutines (lumberjack.go 112-118). -/
structure Shop where
  dir : Dir
  token : Bool
  worker : Worker
  pc : Pc

/-- `os.Rename` of the live file to a backup name, lumberjack.go 226-227. -/
def putFile (d : Dir) (n c : Bytes) : Dir := (n, c) :: removeFile d n

/-- Whose step it is: a writer's that goes well, a writer's that fails, or of the goroutine of `millRun` (lumberjack.go 383-401). -/
inductive Kind where
  | writer
  | failure
  | worker
deriving DecidableEq

/-- One step, lumberjack.go 197-206, 269-294 and 383-401.  Removing and compressing is one step, a simplification; a failing removal
or compression is not modelled. -/
inductive Move (cfg : Config) (gz : Bytes → Bytes) (name : Bytes) : Kind → Shop → Shop → Prop
  /-- 197-201 and 226-227: the live file is moved aside -/
  | moveAside (s : Shop) (n c : Bytes) : s.pc = .idle → Move cfg gz name .writer s { s with dir := putFile s.dir n c, pc := .moved }
  /-- 197-201: there was no live file -/
  | nothingToMove (s : Shop) : s.pc = .idle → Move cfg gz name .writer s { s with pc := .moved }
  /-- 204 and 392-401: the channel may be full already -/
  | signal (s : Shop) : s.pc = .moved → Move cfg gz name .writer s { s with token := true, pc := .idle }
  /-- 270 and 392-401 -/
  | wake (s : Shop) : s.pc = .idle → Move cfg gz name .writer s { s with token := true }
  /-- 232-242 and 201-203: `openNew` fails after the rename, and `mill` is not called -/
  | fail (s : Shop) : s.pc = .moved → Move cfg gz name .failure s { s with pc := .idle }
  /-- 285-289: the existing file cannot be opened for appending and is moved aside, after `mill` was called at 270 -/
  | late (s : Shop) (n c : Bytes) : s.pc = .idle → Move cfg gz name .failure s { s with dir := putFile s.dir n c }
  /-- 384 -/
  | take (s : Shop) : s.token = true → s.worker = .waiting → Move cfg gz name .worker s { s with token := false, worker := .started }
  /-- 314 -/
  | list (s : Shop) (files : List LogInfo) : s.worker = .started → Listing name s.dir files →
      Move cfg gz name .worker s { s with worker := .listed files }
  /-- 319-378 -/
  | act (s : Shop) (files : List LogInfo) (now : Int) : s.worker = .listed files →
      Move cfg gz name .worker s { s with dir := millRunOnce cfg gz now files s.dir, worker := .waiting }

/-! ### Specification -/

/-- A step that is not a failure. -/
def Good (cfg : Config) (gz : Bytes → Bytes) (name : Bytes) (s t : Shop) : Prop :=
  ∃ k, k ≠ Kind.failure ∧ Move cfg gz name k s t

/-- A step of anybody. -/
def AnyMove (cfg : Config) (gz : Bytes → Bytes) (name : Bytes) (s t : Shop) : Prop := ∃ k, Move cfg gz name k s t

/-- A number of steps. -/
inductive Steps (step : Shop → Shop → Prop) : Nat → Shop → Shop → Prop
  | zero (s : Shop) : Steps step 0 s s
  | succ (n : Nat) (s t u : Shop) : Steps step n s t → step t u → Steps step (n + 1) s u

/-- Nobody does anything any more. -/
def Quiet (s : Shop) : Prop := s.token = false ∧ s.worker = .waiting ∧ s.pc = .idle

/-- After the first call of `mill`, over any directory. -/
def opened (d : Dir) : Shop := ⟨d, true, .waiting, .idle⟩

/-- The directory is as cleaning leaves it. -/
def Cleaned (cfg : Config) (gz : Bytes → Bytes) (name : Bytes) (d : Dir) : Prop :=
  ∃ d0 files now, Listing name d0 files ∧ d = millRunOnce cfg gz now files d0

/-! ### Proofs -/

/-- What is still to come. -/
def Pending (cfg : Config) (gz : Bytes → Bytes) (name : Bytes) (s : Shop) : Prop :=
  s.pc = .moved ∨ s.token = true ∨
    match s.worker with
    | .started => True
    | .listed files => Listing name s.dir files
    | .waiting => Cleaned cfg gz name s.dir

theorem good_pending {cfg : Config} {gz : Bytes → Bytes} {name : Bytes} {s t : Shop} (h : Good cfg gz name s t)
    (hp : Pending cfg gz name s) : Pending cfg gz name t := by
  obtain ⟨k, hk, h⟩ := h
  cases h with
  | fail _ => exact absurd rfl hk
  | late n c _ => exact absurd rfl hk
  | moveAside _ n c _ => exact Or.inl rfl
  | nothingToMove _ => exact Or.inl rfl
  | signal _ => exact Or.inr (Or.inl rfl)
  | wake _ => exact Or.inr (Or.inl rfl)
  | take _ _ => exact Or.inr (Or.inr trivial)
  | list _ files _ hl => exact Or.inr (Or.inr hl)
  | act _ files now hw =>
    rcases hp with hp | hp | hp
    · exact Or.inl hp
    · exact Or.inr (Or.inl hp)
    · rw [hw] at hp
      exact Or.inr (Or.inr ⟨s.dir, files, now, hp, rfl⟩)

theorem steps_pending {cfg : Config} {gz : Bytes → Bytes} {name : Bytes} {d : Dir} {n : Nat} {s : Shop}
    (h : Steps (Good cfg gz name) n (opened d) s) : Pending cfg gz name s := by
  generalize ho : opened d = o at h
  induction h with
  | zero => subst ho; exact Or.inr (Or.inl rfl)
  | succ n s t u _ hs ih => exact good_pending hs (ih ho)

/-- C122, partial: in every interleaving of rotations and cleaning in which no rotation fails halfway, once nothing is going
on any more the directory is as cleaning leaves it, with the backups listed after the last of them was made. -/
theorem quiet_cleaned_partial (cfg : Config) (gz : Bytes → Bytes) (name : Bytes) (d : Dir) (n : Nat) (s : Shop)
    (h : Steps (Good cfg gz name) n (opened d) s) (hq : Quiet s) : Cleaned cfg gz name s.dir := by
  obtain ⟨h1, h2, h3⟩ := hq
  rcases steps_pending h with hp | hp | hp
  · rw [h3] at hp; cases hp
  · rw [h1] at hp; cases hp
  · rw [h2] at hp; exact hp

/-- C122, partial: of the backups that were listed, those expired are gone (with the limits of `cleaned_exactly_partial`). -/
theorem quiet_expired_gone_partial (cfg : Config) (gz : Bytes → Bytes) (name : Bytes) (d : Dir) (n : Nat) (s : Shop)
    (h : Steps (Good cfg gz name) n (opened d) s) (hq : Quiet s) (hage : cfg.maxAge ≤ 106751) :
    ∃ d0 files now, Listing name d0 files ∧ s.dir = millRunOnce cfg gz now files d0 ∧
      (OneEach files → ∀ f ∈ files, Expired cfg now files f → lookup s.dir f.name = none) := by
  obtain ⟨d0, files, now, hl, hd⟩ := quiet_cleaned_partial cfg gz name d n s h hq
  refine ⟨d0, files, now, hl, hd, fun h1 f hf he => ?_⟩
  rw [hd]
  exact (cleaned_exactly_partial cfg gz now name d0 files hl h1 hage f hf).1 he

/-- Steps the goroutine of `millRun` has to do before it waits on an empty channel. -/
def work (s : Shop) : Nat :=
  (if s.token then 3 else 0) +
    match s.worker with
    | .waiting => 0
    | .started => 2
    | .listed _ => 1

/-- The backups in a directory, with their times. -/
def backupsIn (name : Bytes) (d : Dir) : List LogInfo :=
  d.filterMap fun x =>
    match backupTime name x.1 with
    | .time c => some ⟨c.millis * 1000000, x.1⟩
    | _ => none

theorem mem_backupsIn (name : Bytes) (d : Dir) (f : LogInfo) : f ∈ backupsIn name d ↔
    ∃ c, (∃ x ∈ d, x.1 = f.name) ∧ backupTime name f.name = .time c ∧ f.time = c.millis * 1000000 := by
  unfold backupsIn
  rw [List.mem_filterMap]
  constructor
  · rintro ⟨x, hx, hf⟩
    cases hb : backupTime name x.1 with
    | time c =>
      rw [hb] at hf
      simp only [Option.some.injEq] at hf
      subst hf
      exact ⟨c, ⟨x, hx, rfl⟩, hb, rfl⟩
    | _ => rw [hb] at hf; simp at hf
  · rintro ⟨c, ⟨x, hx, hn⟩, hb, ht⟩
    refine ⟨x, hx, ?_⟩
    rw [hn, hb]
    simp only [Option.some.injEq]
    cases f
    simp_all

/-- The directory can be listed. -/
theorem listing_exists (name : Bytes) (d : Dir) : ∃ files, Listing name d files := by
  refine ⟨(backupsIn name d).mergeSort (fun f g => decide (g.time ≤ f.time)), ?_, ?_⟩
  · intro f
    rw [List.mem_mergeSort]
    exact mem_backupsIn name d f
  · have := List.pairwise_mergeSort (le := fun f g : LogInfo => decide (g.time ≤ f.time))
      (fun a b c hab hbc => by simp only [decide_eq_true_eq] at *; omega)
      (fun a b => by simp only [Bool.or_eq_true, decide_eq_true_eq]; omega) (backupsIn name d)
    exact this.imp (fun h => by simpa using h)

theorem work_le (s : Shop) : work s ≤ 5 := by
  unfold work
  cases s.worker <;> cases s.token <;> simp

theorem worker_decreases {cfg : Config} {gz : Bytes → Bytes} {name : Bytes} {s t : Shop} (h : Move cfg gz name .worker s t) :
    work t < work s := by
  cases h with
  | take _ h1 h2 => simp [work, h1, h2]
  | list _ files h1 h2 => simp [work, h1]
  | act _ files now h1 => simp [work, h1]

/-- C122: cleaning comes to an end: left alone, the goroutine of `millRun` does at most five steps. -/
theorem worker_stops (cfg : Config) (gz : Bytes → Bytes) (name : Bytes) (n : Nat) (s t : Shop)
    (h : Steps (Move cfg gz name .worker) n s t) : n ≤ 5 := by
  have key : work t + n ≤ work s := by
    induction h with
    | zero s => omega
    | succ n s t u _ hs ih => have := worker_decreases hs; omega
  have := work_le s
  omega

/-- C122: while there is anything to do, somebody can do a step: a writer never waits for the channel, and the goroutine of
`millRun` does not wait while something is in it. -/
theorem not_stuck (cfg : Config) (gz : Bytes → Bytes) (name : Bytes) (s : Shop) (h : ¬ Quiet s) :
    (s.pc = .moved ∧ ∃ t, Move cfg gz name .writer s t) ∨ ∃ t, Move cfg gz name .worker s t := by
  cases hp : s.pc with
  | moved => exact Or.inl ⟨rfl, _, .signal s hp⟩
  | idle =>
    right
    cases hw : s.worker with
    | started =>
      obtain ⟨files, hl⟩ := listing_exists name s.dir
      exact ⟨_, .list s files hw hl⟩
    | listed files => exact ⟨_, .act s files 0 hw⟩
    | waiting =>
      cases ht : s.token with
      | true => exact ⟨_, .take s ht hw⟩
      | false => exact absurd ⟨ht, hw, hp⟩ h

/-! ### Disagreements and concrete cases -/

/-- The directory of `exDir` without its newest backup. -/
def shopDir : Dir :=
  [(asc "a.log", asc "live"), (asc "a-2016-11-04T18-30-00.000.log", asc "1"), (asc "a-2016-11-05T18-30-00.000.log.gz", asc "2")]

/-- The directory after one more rotation. -/
def shopDir2 : Dir := putFile shopDir (asc "a-2016-11-06T18-30-00.000.log") (asc "3")

theorem shop_listed : Listing (asc "a.log") shopDir exFiles.tail := by
  have h : backupsIn (asc "a.log") shopDir = exFiles.tail.reverse := by decide +kernel
  refine ⟨fun f => ?_, by decide +kernel⟩
  refine Iff.trans ?_ (mem_backupsIn _ _ f)
  rw [h, List.mem_reverse]

theorem shop2_listed : Listing (asc "a.log") shopDir2 exFiles := by
  have h : backupsIn (asc "a.log") shopDir2 = ⟨1478457000000000000, asc "a-2016-11-06T18-30-00.000.log"⟩ :: exFiles.tail.reverse := by decide +kernel
  refine ⟨fun f => ?_, by decide +kernel⟩
  refine Iff.trans ?_ (mem_backupsIn _ _ f)
  rw [h, List.mem_cons, List.mem_reverse]
  exact List.mem_cons

theorem shop_expired (now : Int) : Expired ⟨2, 0, false⟩ now exFiles ⟨1478284200000000000, asc "a-2016-11-04T18-30-00.000.log"⟩ := by
  left
  exact ⟨by decide, by decide +kernel⟩

/-- The first pass over `shopDir`, with two backups allowed, changes nothing. -/
theorem shop_first (k : Nat) (hk : k = 3) : Steps (Good ⟨2, 0, false⟩ id (asc "a.log")) k (opened shopDir) ⟨shopDir, false, .waiting, .idle⟩ := by
  subst hk
  refine .succ 2 _ ⟨shopDir, false, .listed exFiles.tail, .idle⟩ _ (.succ 1 _ ⟨shopDir, false, .started, .idle⟩ _
    (.succ 0 _ (opened shopDir) _ (.zero _) ⟨.worker, by decide, .take _ rfl rfl⟩) ⟨.worker, by decide, .list _ _ rfl shop_listed⟩)
    ⟨.worker, by decide, ?_⟩
  have := Move.act (cfg := ⟨2, 0, false⟩) (gz := id) (name := asc "a.log") ⟨shopDir, false, .listed exFiles.tail, .idle⟩ exFiles.tail 0 rfl
  have hd : millRunOnce ⟨2, 0, false⟩ id 0 exFiles.tail shopDir = shopDir := by decide +kernel
  rw [hd] at this
  exact this

theorem any_of_good {cfg : Config} {gz : Bytes → Bytes} {name : Bytes} {n : Nat} {s t : Shop} (h : Steps (Good cfg gz name) n s t) :
    Steps (AnyMove cfg gz name) n s t := by
  induction h with
  | zero s => exact .zero s
  | succ n s t u _ hs ih => exact .succ n s t u ih (by obtain ⟨k, _, h⟩ := hs; exact ⟨k, h⟩)

/-- C122 fails when a rotation moves the file aside but cannot open a new one: it returns the error without cleaning, and one backup
too many is left when everything is quiet. -/
theorem failed_rotation_leaves_expired : ∃ (n : Nat) (s : Shop), Steps (AnyMove ⟨2, 0, false⟩ id (asc "a.log")) n (opened shopDir) s ∧
    Quiet s ∧ ∃ files, Listing (asc "a.log") s.dir files ∧ OneEach files ∧
      ∃ f ∈ files, ∀ now, Expired ⟨2, 0, false⟩ now files f := by
  refine ⟨5, ⟨shopDir2, false, .waiting, .idle⟩, ?_, ⟨rfl, rfl, rfl⟩, exFiles, shop2_listed, ?_, _, by simp [exFiles], shop_expired⟩
  · refine .succ 4 _ ⟨shopDir2, false, .waiting, .moved⟩ _ (.succ 3 _ ⟨shopDir, false, .waiting, .idle⟩ _ (any_of_good (shop_first 3 rfl))
      ⟨.writer, .moveAside ⟨shopDir, false, .waiting, .idle⟩ _ _ rfl⟩) ⟨.failure, .fail ⟨shopDir2, false, .waiting, .moved⟩ rfl⟩
  · intro f hf g hg
    simp only [exFiles, List.mem_cons, List.not_mem_nil, or_false] at hf hg
    rcases hf with rfl | rfl | rfl <;> rcases hg with rfl | rfl | rfl <;> decide +kernel

/-- C122 fails when the existing file cannot be opened for appending: it is moved aside after cleaning was asked for, and one backup
too many is left when everything is quiet. -/
theorem late_backup_leaves_expired : ∃ (n : Nat) (s : Shop), Steps (AnyMove ⟨2, 0, false⟩ id (asc "a.log")) n (opened shopDir) s ∧
    Quiet s ∧ ∃ files, Listing (asc "a.log") s.dir files ∧ ∃ f ∈ files, ∀ now, Expired ⟨2, 0, false⟩ now files f := by
  refine ⟨4, ⟨shopDir2, false, .waiting, .idle⟩, ?_, ⟨rfl, rfl, rfl⟩, exFiles, shop2_listed, _, by simp [exFiles], shop_expired⟩
  exact .succ 3 _ ⟨shopDir, false, .waiting, .idle⟩ _ (any_of_good (shop_first 3 rfl))
      ⟨.failure, .late ⟨shopDir, false, .waiting, .idle⟩ _ _ rfl⟩

/-- The hypotheses of `quiet_cleaned_partial` hold after the first pass. -/
example : Cleaned ⟨2, 0, false⟩ id (asc "a.log") shopDir :=
  quiet_cleaned_partial _ _ _ _ _ _ (shop_first 3 rfl) ⟨rfl, rfl, rfl⟩

/-- A rotation while the goroutine is at the beginning of a pass: the channel makes it go round again. -/
example : ∃ s, Steps (Good ⟨2, 0, false⟩ id (asc "a.log")) 4 (opened shopDir) s ∧ s.token = true ∧ s.worker = .started ∧ s.dir = shopDir2 :=
  ⟨_, .succ 3 _ _ _ (.succ 2 _ _ _ (.succ 1 _ _ _ (.succ 0 _ _ _ (.zero _) ⟨.worker, by decide, .take _ rfl rfl⟩)
    ⟨.writer, by decide, .moveAside _ (asc "a-2016-11-06T18-30-00.000.log") (asc "3") rfl⟩) ⟨.writer, by decide, .signal _ rfl⟩) ⟨.writer, by decide, .wake _ rfl⟩, rfl, rfl, rfl⟩

end Verif.Lumberjack
