import Verif.Output.Mill

/-!
# C148: failures while cleaning

Model of `compressLogFile`, countlog/output/lumberjack/lumberjack.go 476-527, system call by system call, as called in the loops of
`millRunOnce`, 364-376, with calls that fail, processes that are killed, and more than one `Logger` for the same file.
Names lead to files, and open files stay after their name is gone, as on Unix.  A call that fails has no effect.  Not modelled:
losing power, after which even finished writes may be gone (the code never calls `Sync`).
-/

namespace Verif.Lumberjack.Compress

/-! ### Model -/

/-- Names in the directory of the log and the files they lead to (lumberjack.go 365, 371). -/
abbrev Names := List (Bytes × Nat)

/-- The file a name leads to (for lumberjack.go 477). -/
def find (d : Names) (n : Bytes) : Option Nat := (d.find? fun x => x.1 == n).map Prod.snd

/-- `os.Remove`, lumberjack.go 365, 504, 522. -/
def unlink (d : Names) (n : Bytes) : Names := d.filter fun x => x.1 != n

/-- Where a goroutine in `compressLogFile` is, lumberjack.go 476-527; `f` is the original as opened, `g` the compressed file as opened,
and `sent` what was written to it. -/
inductive Pc where
  /-- before 477 -/
  | start
  /-- before 483 -/
  | opened (f : Nat)
  /-- before chown_linux.go 12 -/
  | known (f : Nat)
  /-- before chown_linux.go 18 -/
  | made (f : Nat)
  /-- before 494 -/
  | owned (f : Nat)
  /-- in 509-512 -/
  | writing (f g : Nat) (sent : Bytes)
  /-- before 515 -/
  | flushed
  /-- before 519 -/
  | closedDst
  /-- before 522 -/
  | closedSrc
  /-- before 504 -/
  | failing
  deriving DecidableEq

/-- Where the goroutine of a `Logger` in `millRun` is, lumberjack.go 364-388: waiting, removing, between two files or in `compressLogFile`. -/
inductive Worker where
  | idle
  | removing (rm cp : List Bytes)
  | between (cp : List Bytes)
  | inside (n : Bytes) (pc : Pc) (cp : List Bytes)
  deriving DecidableEq

/-- The directory, the contents of files, and the goroutines of all `Logger`s of this file (lumberjack.go 112-118).  The last three only record what
happened: the backups made, the beginnings of `millRunOnce` with what was listed, and the names for which `compressLogFile` returned nil. -/
structure State where
  names : Names
  data : Nat → Bytes
  next : Nat
  workers : Nat → Worker
  backups : List (Bytes × Bytes)
  starts : List (Int × List LogInfo)
  finished : List Bytes

/-- An empty directory (lumberjack.go 112-118). -/
def init : State := ⟨[], fun _ => [], 0, fun _ => .idle, [], [], []⟩

/-- What can happen next (lumberjack.go 226-227, 309-388, 476-527). -/
inductive Step where
  /-- `os.Rename` of the live file in `openNew`, 227, by anybody -/
  | rotate (n c : Bytes)
  /-- 309-362: what `oldLogFiles` returned at what time -/
  | begin_ (w : Nat) (now : Int) (files : List LogInfo)
  /-- `os.Remove` at 365 -/
  | remove (w : Nat) (ok : Bool)
  /-- the loops at 364 and 370 go on -/
  | go (w : Nat)
  /-- the next system call in `compressLogFile`, except writes to the compressed file -/
  | call (w : Nat) (ok : Bool)
  /-- a write of `gzip` at 509 or 512 -/
  | write (w : Nat) (p : Bytes)
  /-- the process is killed -/
  | kill
  deriving DecidableEq

/-- Changing one entry of a table (for lumberjack.go 476-527). -/
def upd {α : Type} (f : Nat → α) (i : Nat) (x : α) : Nat → α := fun j => if j = i then x else f j

/-- Writing at an offset (lumberjack.go 509): a gap is filled with zeros. -/
def writeAt (old : Bytes) (off : Nat) (p : Bytes) : Bytes :=
  old.take off ++ List.replicate (off - old.length) 0 ++ p ++ old.drop (off + p.length)

/-- `os.OpenFile` with `O_CREATE|O_TRUNC`, lumberjack.go 494 and chown_linux.go 12: the file and what is then. -/
def create (s : State) (n : Bytes) : Nat × State :=
  match find s.names n with
  | some g => (g, { s with data := upd s.data g [] })
  | none => (s.next, { s with names := (n, s.next) :: s.names, data := upd s.data s.next [], next := s.next + 1 })

/-- The name of the compressed file, lumberjack.go 372. -/
def gzOf (n : Bytes) : Bytes := n ++ asc ".gz"

/-- One system call of `compressLogFile` (lumberjack.go 476-527, and `chown`, chown_linux.go 11-19, or chown.go 9-11 if not `linux`): where the goroutine
is then, `none` if it has returned. -/
def compressCall (linux : Bool) (gz : Bytes → Bytes) (s : State) (n : Bytes) (ok : Bool) : Pc → State × Option Pc
  | .start => -- 477
    match find s.names n with
    | some f => if ok then (s, some (.opened f)) else (s, none)
    | none => (s, none)
  | .opened f => -- 483
    if ok ∧ find s.names n ≠ none then (s, some (if linux then .known f else .owned f)) else (s, none)
  | .known f => -- chown_linux.go 12
    if ok then ((create s (gzOf n)).2, some (.made f)) else (s, none)
  | .made f => -- chown_linux.go 18
    if ok ∧ find s.names (gzOf n) ≠ none then (s, some (.owned f)) else (s, none)
  | .owned f => -- 494
    if ok then ((create s (gzOf n)).2, some (.writing f (create s (gzOf n)).1 [])) else (s, none)
  | .writing f g sent => -- 509 and 512: not before everything is written, unless it fails
    if ok then (s, some (if sent = gz (s.data f) then .flushed else .writing f g sent)) else (s, some .failing)
  | .flushed => (s, some (if ok then .closedDst else .failing)) -- 515
  | .closedDst => (s, some (if ok then .closedSrc else .failing)) -- 519
  | .closedSrc => -- 522 and 526
    if ok ∧ find s.names n ≠ none then ({ s with names := unlink s.names n, finished := n :: s.finished }, none) else (s, some .failing)
  | .failing => -- 504, whatever it returns
    (if ok then { s with names := unlink s.names (gzOf n) } else s, none)

/-- One step; `none` if it cannot take place (lumberjack.go 226-227, 309-388, 476-527).  `gz` stands for what gzip makes of a content. -/
def step (cfg : Config) (linux : Bool) (gz : Bytes → Bytes) (s : State) : Step → Option State
  | .rotate n c => some { s with
      names := (n, s.next) :: unlink s.names n
      data := upd s.data s.next c
      next := s.next + 1
      backups := (n, c) :: s.backups }
  | .begin_ w now files =>
    if s.workers w = .idle then
      some { s with
        workers := upd s.workers w (.removing ((plan cfg now files).1.map LogInfo.name) ((plan cfg now files).2.map LogInfo.name))
        starts := (now, files) :: s.starts }
    else none
  | .remove w ok =>
    match s.workers w with
    | .removing (n :: rm) cp =>
      some { s with names := if ok then unlink s.names n else s.names, workers := upd s.workers w (.removing rm cp) }
    | _ => none
  | .go w =>
    match s.workers w with
    | .removing [] cp => some { s with workers := upd s.workers w (.between cp) }
    | .between (n :: cp) => some { s with workers := upd s.workers w (.inside n .start cp) }
    | .between [] => some { s with workers := upd s.workers w .idle }
    | _ => none
  | .call w ok =>
    match s.workers w with
    | .inside n pc cp =>
      let r := compressCall linux gz s n ok pc
      some { r.1 with workers := upd s.workers w (match r.2 with | some pc => .inside n pc cp | none => .between cp) }
    | _ => none
  | .write w p =>
    match s.workers w with
    | .inside n (.writing f g sent) cp =>
      if sent ++ p <+: gz (s.data f) then
        some { s with data := upd s.data g (writeAt (s.data g) sent.length p), workers := upd s.workers w (.inside n (.writing f g (sent ++ p)) cp) }
      else none
    | _ => none
  | .kill => some { s with workers := fun _ => .idle }

/-- A sequence of steps (lumberjack.go 226-227, 309-388, 476-527). -/
def run (cfg : Config) (linux : Bool) (gz : Bytes → Bytes) (s : State) : List Step → Option State
  | [] => some s
  | x :: xs => (step cfg linux gz s x).bind fun s => run cfg linux gz s xs

/-! ### Specification -/

/-- A file of that name with that content is there. -/
def Holds (s : State) (n c : Bytes) : Prop := ∃ i, find s.names n = some i ∧ s.data i = c

/-- The directory as a list of names and contents. -/
def dirOf (s : State) : Dir := s.names.map fun x => (x.1, s.data x.2)

/-- What is taken for granted of a step: backups get new names, which do not end in .gz; and what is listed is what is there, with one time for each backup. -/
def Proper (name : Bytes) (s : State) : Step → Prop
  | .rotate n _ => isGz n = false ∧ find s.names n = none ∧ ∀ c, (n, c) ∉ s.backups
  | .begin_ _ _ files => Listing name (dirOf s) files ∧ OneEach files
  | _ => True

/-- No two goroutines clean at a time. -/
def Alone (s : State) : Step → Prop
  | .begin_ _ _ _ => ∀ w, s.workers w = .idle
  | _ => True

/-- All steps of a run are so. -/
def All (cfg : Config) (linux : Bool) (gz : Bytes → Bytes) (P : State → Step → Prop) : State → List Step → Prop
  | _, [] => True
  | s, x :: xs => P s x ∧ ∀ t, step cfg linux gz s x = some t → All cfg linux gz P t xs

/-- When cleaning began some time, the backup was to go. -/
def WasExpired (cfg : Config) (s : State) (n : Bytes) : Prop :=
  ∃ x ∈ s.starts, ∃ f ∈ x.2, (f.name = n ∨ f.name = n ++ asc ".gz") ∧ Expired cfg x.1 x.2 f

/-- A step in which nothing fails. -/
def Smooth : Step → Prop
  | .remove _ ok => ok = true
  | .call _ ok => ok = true
  | .kill => False
  | _ => True

/-- Nothing happens that can leave an incomplete compressed file: the process is not killed, the removal at 504 does not fail, and on Linux
neither the change of the owner nor the second opening of the compressed file fails. -/
def Tidy (linux : Bool) (s : State) : Step → Prop
  | .kill => False
  | .call w ok =>
    match s.workers w with
    | .inside _ .failing _ => ok = true
    | .inside _ (.made _) _ | .inside _ (.owned _) _ => linux = true → ok = true
    | _ => True
  | _ => True

/-! ### Proofs -/

theorem find_cons (d : Names) (n m : Bytes) (i : Nat) : find ((n, i) :: d) m = if n = m then some i else find d m := by
  unfold find
  rw [List.find?_cons]
  by_cases h : n = m
  · simp [h]
  · have : (n == m) = false := by simpa using h
    simp [this, h]

theorem find_unlink (d : Names) (n m : Bytes) : find (unlink d n) m = if m = n then none else find d m := by
  unfold find unlink
  induction d with
  | nil => simp
  | cons x d ih =>
    rw [List.filter_cons]
    by_cases hx : x.1 = n
    · have h1 : (x.1 != n) = false := by simp [hx]
      rw [h1]
      simp only [Bool.false_eq_true, if_false]
      rw [ih]
      by_cases hm : m = n
      · simp [hm]
      · have h2 : (x.1 == m) = false := by rw [hx]; simpa using fun h => hm h.symm
        rw [List.find?_cons, h2]
    · have h1 : (x.1 != n) = true := by simpa using hx
      rw [h1]
      simp only [if_true]
      rw [List.find?_cons, List.find?_cons]
      by_cases hm : x.1 = m
      · have h2 : (x.1 == m) = true := by simpa using hm
        rw [h2]
        rw [if_neg (fun h => hx (hm.trans h))]
      · have h2 : (x.1 == m) = false := by simpa using hm
        rw [h2]
        exact ih

theorem gzOf_ne {n m : Bytes} (h : isGz n = false) : n ≠ gzOf m := by
  intro he
  have := isGz_gz m
  rw [show m ++ asc ".gz" = gzOf m from rfl, ← he, h] at this
  cases this

theorem gzOf_inj {n m : Bytes} (h : gzOf n = gzOf m) : n = m := List.append_cancel_right h

/-- What a goroutine relies on. -/
def PcInv (gz : Bytes → Bytes) (s : State) (n : Bytes) : Pc → Prop
  | .start => True
  | .opened f | .known f | .owned f => find s.names n = some f
  | .made f => find s.names n = some f ∧ find s.names (gzOf n) ≠ none
  | .writing f g sent => find s.names n = some f ∧ find s.names (gzOf n) = some g ∧ s.data g = sent
  | .flushed | .closedDst | .closedSrc => ∃ f g, find s.names n = some f ∧ find s.names (gzOf n) = some g ∧ s.data g = gz (s.data f)
  | .failing => find s.names n ≠ none

def WorkerInv (cfg : Config) (gz : Bytes → Bytes) (s : State) : Worker → Prop
  | .idle => True
  | .removing rm cp => (∀ n ∈ rm, ∃ x ∈ s.starts, ∃ f ∈ x.2, f.name = n ∧ Expired cfg x.1 x.2 f) ∧ ∀ n ∈ cp, isGz n = false
  | .between cp => ∀ n ∈ cp, isGz n = false
  | .inside n pc cp => isGz n = false ∧ PcInv gz s n pc ∧ ∀ n ∈ cp, isGz n = false

/-- What has become of a backup. -/
def Fate (cfg : Config) (gz : Bytes → Bytes) (s : State) (n c : Bytes) : Prop :=
  WasExpired cfg s n ∨ (n ∈ s.finished ∧ find s.names n = none ∧ Holds s (gzOf n) (gz c)) ∨ (n ∉ s.finished ∧ Holds s n c)

structure Inv (cfg : Config) (gz : Bytes → Bytes) (s : State) : Prop where
  bound : ∀ n i, find s.names n = some i → i < s.next
  inj : ∀ n m i, find s.names n = some i → find s.names m = some i → n = m
  plain : ∀ n c, (n, c) ∈ s.backups → isGz n = false
  known : ∀ n, isGz n = false → find s.names n ≠ none → ∃ c, (n, c) ∈ s.backups
  ended : ∀ n ∈ s.finished, ∃ c, (n, c) ∈ s.backups
  fate : ∀ n c, (n, c) ∈ s.backups → Fate cfg gz s n c
  worker : ∀ w, WorkerInv cfg gz s (s.workers w)
  sole : ∀ v w, s.workers v ≠ .idle → s.workers w ≠ .idle → v = w

theorem inv_init (cfg : Config) (gz : Bytes → Bytes) : Inv cfg gz init where
  bound := by intro n i h; cases h
  inj := by intro n m i h; cases h
  plain := by intro n c h; cases h
  known := by intro n _ h; exact absurd rfl h
  ended := by intro n h; cases h
  fate := by intro n c h; cases h
  worker := fun _ => trivial
  sole := fun v w h => absurd rfl h

theorem fate_frame {cfg : Config} {gz : Bytes → Bytes} {s t : State} {n c : Bytes} (hs : ∀ x ∈ s.starts, x ∈ t.starts)
    (hf : n ∈ t.finished ↔ n ∈ s.finished) (h1 : find t.names n = find s.names n) (h2 : find t.names (gzOf n) = find s.names (gzOf n))
    (h3 : ∀ i, find s.names n = some i ∨ find s.names (gzOf n) = some i → t.data i = s.data i) (h : Fate cfg gz s n c) : Fate cfg gz t n c := by
  rcases h with ⟨x, hx, h⟩ | ⟨ha, hb, i, hi, hd⟩ | ⟨ha, i, hi, hd⟩
  · exact .inl ⟨x, hs x hx, h⟩
  · exact .inr (.inl ⟨hf.2 ha, by rw [h1, hb], i, by rw [h2, hi], by rw [h3 i (.inr hi), hd]⟩)
  · exact .inr (.inr ⟨fun h => ha (hf.1 h), i, by rw [h1, hi], by rw [h3 i (.inl hi), hd]⟩)

/-- A goroutine that goes on leaves the others idle. -/
theorem workers_step {cfg : Config} {gz : Bytes → Bytes} {s t : State} {w : Nat} {W : Worker} (h : Inv cfg gz s) (hw : s.workers w ≠ .idle)
    (ht : t.workers = upd s.workers w W) (hW : WorkerInv cfg gz t W) :
    (∀ v, WorkerInv cfg gz t (t.workers v)) ∧ ∀ u v, t.workers u ≠ .idle → t.workers v ≠ .idle → u = v := by
  have hid : ∀ v, v ≠ w → t.workers v = .idle := by
    intro v hv
    rw [ht]
    simp only [upd, if_neg hv]
    by_contra hn
    exact hv (h.sole v w hn hw)
  constructor
  · intro v
    by_cases hv : v = w
    · subst hv; rw [ht]; simpa [upd] using hW
    · rw [hid v hv]; trivial
  · intro u v hu hv
    by_cases h1 : u = w
    · by_cases h2 : v = w
      · rw [h1, h2]
      · exact absurd (hid v h2) hv
    · exact absurd (hid u h1) hu

/-- A step that changes no file. -/
theorem inv_same {cfg : Config} {gz : Bytes → Bytes} {s t : State} {w : Nat} {W : Worker} (h : Inv cfg gz s) (hw : s.workers w ≠ .idle)
    (ht : t = { s with workers := upd s.workers w W }) (hW : WorkerInv cfg gz s W) : Inv cfg gz t := by
  have hW' : WorkerInv cfg gz t W := by
    subst ht
    cases W with
    | idle => trivial
    | removing rm cp => exact hW
    | between cp => exact hW
    | inside n pc cp =>
      refine ⟨hW.1, ?_, hW.2.2⟩
      cases pc <;> exact hW.2.1
  obtain ⟨h1, h2⟩ := workers_step h hw (by rw [ht]) hW'
  subst ht
  exact ⟨h.bound, h.inj, h.plain, h.known, h.ended, fun n c hb => fate_frame (fun _ h => h) Iff.rfl rfl rfl (fun _ _ => rfl) (h.fate n c hb), h1, h2⟩

/-- A name that is no backup, or an expired one, is removed. -/
theorem inv_unlink {cfg : Config} {gz : Bytes → Bytes} {s t : State} {w : Nat} {W : Worker} (m : Bytes) (h : Inv cfg gz s) (hw : s.workers w ≠ .idle)
    (ht : t = { s with names := unlink s.names m, workers := upd s.workers w W }) (hW : WorkerInv cfg gz t W)
    (hm : ∀ n c, (n, c) ∈ s.backups → n = m ∨ gzOf n = m → Fate cfg gz t n c) : Inv cfg gz t := by
  obtain ⟨h1, h2⟩ := workers_step h hw (by rw [ht]) hW
  have hfu : ∀ n, find t.names n = if n = m then none else find s.names n := by
    intro n; rw [ht]; exact find_unlink _ _ _
  refine ⟨?_, ?_, by rw [ht]; exact h.plain, ?_, by rw [ht]; exact h.ended, ?_, h1, h2⟩
  · intro n i hi
    rw [hfu] at hi
    split at hi
    · cases hi
    · rw [ht]; exact h.bound n i hi
  · intro n k i hi hk
    rw [hfu] at hi hk
    split at hi
    · cases hi
    · split at hk
      · cases hk
      · exact h.inj n k i hi hk
  · intro n hz hn
    rw [hfu] at hn
    split at hn
    · exact absurd rfl hn
    · rw [ht]; exact h.known n hz hn
  · intro n c hb
    have hb' : (n, c) ∈ s.backups := by rw [ht] at hb; exact hb
    by_cases hnm : n = m ∨ gzOf n = m
    · exact hm n c hb' hnm
    · rw [not_or] at hnm
      refine fate_frame (s := s) ?_ ?_ ?_ ?_ ?_ (h.fate n c hb')
      · rw [ht]; exact fun _ h => h
      · rw [ht]
      · rw [hfu, if_neg hnm.1]
      · rw [hfu, if_neg hnm.2]
      · rw [ht]; exact fun _ _ => rfl

/-- The compressed file is changed while the original is there. -/
theorem inv_data {cfg : Config} {gz : Bytes → Bytes} {s t : State} {w f g : Nat} {W : Worker} {m b : Bytes} (h : Inv cfg gz s) (hw : s.workers w ≠ .idle)
    (hz : isGz m = false) (hf : find s.names m = some f) (hg : find s.names (gzOf m) = some g)
    (ht : t = { s with data := upd s.data g b, workers := upd s.workers w W }) (hW : WorkerInv cfg gz t W) : Inv cfg gz t := by
  obtain ⟨h1, h2⟩ := workers_step h hw (by rw [ht]) hW
  have hne : ∀ n i, n ≠ gzOf m → find s.names n = some i → t.data i = s.data i := by
    intro n i hn hi
    have : i ≠ g := fun e => hn (h.inj n (gzOf m) g (e ▸ hi) hg)
    rw [ht]; simp [upd, this]
  refine ⟨by rw [ht]; exact h.bound, by rw [ht]; exact h.inj, by rw [ht]; exact h.plain, by rw [ht]; exact h.known, by rw [ht]; exact h.ended, ?_, h1, h2⟩
  intro n c hb
  have hb' : (n, c) ∈ s.backups := by rw [ht] at hb; exact hb
  have hnz := h.plain n c hb'
  by_cases hnm : n = m
  · subst hnm
    rcases h.fate n c hb' with ⟨x, hx, h⟩ | ⟨_, hb, _⟩ | ⟨ha, i, hi, hd⟩
    · exact .inl ⟨x, by rw [ht]; exact hx, h⟩
    · rw [hf] at hb; cases hb
    · exact .inr (.inr ⟨by rw [ht]; exact ha, i, by rw [ht]; exact hi, by rw [hne n i (gzOf_ne hnz) hi, hd]⟩)
  · refine fate_frame (s := s) ?_ ?_ ?_ ?_ ?_ (h.fate n c hb')
    · rw [ht]; exact fun _ h => h
    · rw [ht]
    · rw [ht]
    · rw [ht]
    · rintro i (hi | hi)
      · exact hne n i (gzOf_ne hnz) hi
      · exact hne (gzOf n) i (fun e => hnm (gzOf_inj e)) hi

/-- The compressed file is made while the original is there. -/
theorem inv_new {cfg : Config} {gz : Bytes → Bytes} {s t : State} {w f : Nat} {W : Worker} {m : Bytes} (h : Inv cfg gz s) (hw : s.workers w ≠ .idle)
    (hz : isGz m = false) (hf : find s.names m = some f) (hg : find s.names (gzOf m) = none)
    (ht : t = { s with names := (gzOf m, s.next) :: s.names, data := upd s.data s.next [], next := s.next + 1, workers := upd s.workers w W })
    (hW : WorkerInv cfg gz t W) : Inv cfg gz t := by
  obtain ⟨h1, h2⟩ := workers_step h hw (by rw [ht]) hW
  have hfc : ∀ n, find t.names n = if gzOf m = n then some s.next else find s.names n := by
    intro n; rw [ht]; exact find_cons _ _ _ _
  have hne : ∀ n i, find s.names n = some i → t.data i = s.data i := by
    intro n i hi
    have := h.bound n i hi
    rw [ht]; simp [upd, Nat.ne_of_lt this]
  refine ⟨?_, ?_, by rw [ht]; exact h.plain, ?_, by rw [ht]; exact h.ended, ?_, h1, h2⟩
  · intro n i hi
    rw [hfc] at hi
    have hnx : t.next = s.next + 1 := by rw [ht]
    split at hi
    · cases hi; omega
    · have := h.bound n i hi; omega
  · intro n k i hi hk
    rw [hfc] at hi hk
    split at hi
    · split at hk
      · rename_i e1 e2; rw [← e1, ← e2]
      · cases hi; exact absurd (h.bound k _ hk) (Nat.lt_irrefl _)
    · split at hk
      · cases hk; exact absurd (h.bound n _ hi) (Nat.lt_irrefl _)
      · exact h.inj n k i hi hk
  · intro n hnz hn
    rw [hfc, if_neg (fun e => gzOf_ne hnz e.symm)] at hn
    rw [ht]; exact h.known n hnz hn
  · intro n c hb
    have hb' : (n, c) ∈ s.backups := by rw [ht] at hb; exact hb
    have hnz := h.plain n c hb'
    by_cases hnm : n = m
    · subst hnm
      rcases h.fate n c hb' with ⟨x, hx, h⟩ | ⟨_, hb, _⟩ | ⟨ha, i, hi, hd⟩
      · exact .inl ⟨x, by rw [ht]; exact hx, h⟩
      · rw [hf] at hb; cases hb
      · exact .inr (.inr ⟨by rw [ht]; exact ha, i, by rw [hfc, if_neg (fun e => gzOf_ne hnz e.symm)]; exact hi, by rw [hne n i hi, hd]⟩)
    · refine fate_frame (s := s) ?_ ?_ ?_ ?_ ?_ (h.fate n c hb')
      · rw [ht]; exact fun _ h => h
      · rw [ht]
      · rw [hfc, if_neg (fun e => gzOf_ne hnz e.symm)]
      · rw [hfc, if_neg (fun e => hnm (gzOf_inj e).symm)]
      · rintro i (hi | hi)
        · exact hne n i hi
        · exact hne (gzOf n) i hi

/-- `create` with the goroutine going on. -/
theorem inv_create {cfg : Config} {gz : Bytes → Bytes} {s : State} {w f : Nat} {m : Bytes} {pc : Pc} {cp : List Bytes} (h : Inv cfg gz s) (hw : s.workers w ≠ .idle)
    (hz : isGz m = false) (hcp : ∀ n ∈ cp, isGz n = false) (hf : find s.names m = some f)
    (hpc : pc = .made f ∨ pc = .writing f (create s (gzOf m)).1 []) :
    Inv cfg gz { (create s (gzOf m)).2 with workers := upd s.workers w (.inside m pc cp) } := by
  cases hg : find s.names (gzOf m) with
  | some g =>
    have hc : create s (gzOf m) = (g, { s with data := upd s.data g [] }) := by unfold create; rw [hg]
    rw [hc] at hpc ⊢
    refine inv_data (b := []) h hw hz hf hg rfl ⟨hz, ?_, hcp⟩
    rcases hpc with rfl | rfl
    · exact ⟨hf, by show find s.names (gzOf m) ≠ none; rw [hg]; simp⟩
    · exact ⟨hf, hg, by simp [upd]⟩
  | none =>
    have hc : create s (gzOf m) = (s.next, { s with names := (gzOf m, s.next) :: s.names, data := upd s.data s.next [], next := s.next + 1 }) := by
      unfold create; rw [hg]
    rw [hc] at hpc ⊢
    have hm : find ((gzOf m, s.next) :: s.names) m = some f := by rw [find_cons, if_neg (fun e => gzOf_ne hz e.symm), hf]
    refine inv_new h hw hz hf hg rfl ⟨hz, ?_, hcp⟩
    rcases hpc with rfl | rfl
    · exact ⟨hm, by show find _ (gzOf m) ≠ none; rw [find_cons, if_pos rfl]; simp⟩
    · exact ⟨hm, by rw [find_cons, if_pos rfl], by simp [upd]⟩

theorem writeAt_end (sent p : Bytes) : writeAt sent sent.length p = sent ++ p := by
  unfold writeAt
  simp

/-- `compressLogFile` returns nil. -/
theorem inv_finish {cfg : Config} {gz : Bytes → Bytes} {s : State} {w f g : Nat} {m : Bytes} {cp : List Bytes} (h : Inv cfg gz s) (hw : s.workers w ≠ .idle)
    (hz : isGz m = false) (hcp : ∀ n ∈ cp, isGz n = false) (hf : find s.names m = some f) (hg : find s.names (gzOf m) = some g)
    (hd : s.data g = gz (s.data f)) :
    Inv cfg gz { s with names := unlink s.names m, finished := m :: s.finished, workers := upd s.workers w (.between cp) } := by
  obtain ⟨c0, hc0⟩ := h.known m hz (by rw [hf]; simp)
  generalize ht : ({ s with names := unlink s.names m, finished := m :: s.finished, workers := upd s.workers w (.between cp) } : State) = t
  obtain ⟨h1, h2⟩ := workers_step (t := t) (W := .between cp) h hw (by rw [← ht]) hcp
  have hfu : ∀ n, find t.names n = if n = m then none else find s.names n := by
    intro n; rw [← ht]; exact find_unlink _ _ _
  refine ⟨?_, ?_, by rw [← ht]; exact h.plain, ?_, ?_, ?_, h1, h2⟩
  · intro n i hi
    rw [hfu] at hi
    split at hi
    · cases hi
    · rw [← ht]; exact h.bound n i hi
  · intro n k i hi hk
    rw [hfu] at hi hk
    split at hi
    · cases hi
    · split at hk
      · cases hk
      · exact h.inj n k i hi hk
  · intro n hz hn
    rw [hfu] at hn
    split at hn
    · exact absurd rfl hn
    · rw [← ht]; exact h.known n hz hn
  · intro n hn
    rw [← ht] at hn ⊢
    rcases List.mem_cons.mp hn with rfl | hn
    · exact ⟨c0, hc0⟩
    · exact h.ended n hn
  · intro n c hb
    have hb' : (n, c) ∈ s.backups := by rw [← ht] at hb; exact hb
    by_cases hnm : n = m
    · subst hnm
      rcases h.fate n c hb' with ⟨x, hx, h⟩ | ⟨_, hb, _⟩ | ⟨_, i, hi, he⟩
      · exact .inl ⟨x, by rw [← ht]; exact hx, h⟩
      · rw [hf] at hb; cases hb
      · refine .inr (.inl ⟨by rw [← ht]; exact List.mem_cons_self .., by rw [hfu, if_pos rfl], g, ?_, ?_⟩)
        · rw [hfu, if_neg (fun e => gzOf_ne hz e.symm)]; exact hg
        · rw [hi] at hf
          cases hf
          rw [← ht, ← he]; exact hd
    · refine fate_frame (s := s) ?_ ?_ ?_ ?_ ?_ (h.fate n c hb')
      · rw [← ht]; exact fun _ h => h
      · rw [← ht]; simp [hnm]
      · rw [hfu, if_neg hnm]
      · rw [hfu, if_neg (fun e => gzOf_ne hz e.symm)]
      · rw [← ht]; exact fun _ _ => rfl

theorem inv_call {cfg : Config} {linux : Bool} {gz : Bytes → Bytes} {s : State} {w : Nat} {ok : Bool} {n : Bytes} {pc : Pc} {cp : List Bytes}
    (h : Inv cfg gz s) (hw : s.workers w = .inside n pc cp) :
    Inv cfg gz { (compressCall linux gz s n ok pc).1 with
      workers := upd s.workers w (match (compressCall linux gz s n ok pc).2 with | some pc => .inside n pc cp | none => .between cp) } := by
  have hi := h.worker w
  rw [hw] at hi
  obtain ⟨hz, hp, hcp⟩ := hi
  have hne : s.workers w ≠ .idle := by rw [hw]; intro h; cases h
  cases pc with
  | start =>
    unfold compressCall
    cases hf : find s.names n with
    | none => exact inv_same h hne rfl hcp
    | some f =>
      cases ok
      · exact inv_same h hne rfl hcp
      · exact inv_same h hne rfl ⟨hz, hf, hcp⟩
  | opened f =>
    unfold compressCall
    by_cases hc : ok = true ∧ find s.names n ≠ none
    · simp only [if_pos hc]
      cases linux
      · exact inv_same h hne rfl ⟨hz, hp, hcp⟩
      · exact inv_same h hne rfl ⟨hz, hp, hcp⟩
    · simp only [if_neg hc]
      exact inv_same h hne rfl hcp
  | known f =>
    unfold compressCall
    cases ok
    · exact inv_same h hne rfl hcp
    · exact inv_create h hne hz hcp hp (.inl rfl)
  | made f =>
    unfold compressCall
    by_cases hc : ok = true ∧ find s.names (gzOf n) ≠ none
    · simp only [if_pos hc]
      exact inv_same h hne rfl ⟨hz, hp.1, hcp⟩
    · simp only [if_neg hc]
      exact inv_same h hne rfl hcp
  | owned f =>
    unfold compressCall
    cases ok
    · exact inv_same h hne rfl hcp
    · exact inv_create h hne hz hcp hp (.inr rfl)
  | writing f g sent =>
    unfold compressCall
    obtain ⟨hf, hg, hd⟩ := hp
    cases ok
    · exact inv_same h hne rfl ⟨hz, (by show find s.names n ≠ none; rw [hf]; simp), hcp⟩
    · by_cases hc : sent = gz (s.data f)
      · simp only [if_pos hc, if_true]
        exact inv_same h hne rfl ⟨hz, ⟨f, g, hf, hg, hd.trans hc⟩, hcp⟩
      · simp only [if_neg hc, if_true]
        exact inv_same h hne rfl ⟨hz, ⟨hf, hg, hd⟩, hcp⟩
  | flushed =>
    unfold compressCall
    obtain ⟨f, g, hf, hg, hd⟩ := hp
    cases ok
    · exact inv_same h hne rfl ⟨hz, (by show find s.names n ≠ none; rw [hf]; simp), hcp⟩
    · exact inv_same h hne rfl ⟨hz, ⟨f, g, hf, hg, hd⟩, hcp⟩
  | closedDst =>
    unfold compressCall
    obtain ⟨f, g, hf, hg, hd⟩ := hp
    cases ok
    · exact inv_same h hne rfl ⟨hz, (by show find s.names n ≠ none; rw [hf]; simp), hcp⟩
    · exact inv_same h hne rfl ⟨hz, ⟨f, g, hf, hg, hd⟩, hcp⟩
  | closedSrc =>
    unfold compressCall
    obtain ⟨f, g, hf, hg, hd⟩ := hp
    by_cases hc : ok = true ∧ find s.names n ≠ none
    · simp only [if_pos hc]
      exact inv_finish h hne hz hcp hf hg hd
    · simp only [if_neg hc]
      exact inv_same h hne rfl ⟨hz, by rw [PcInv, hf]; simp, hcp⟩
  | failing =>
    unfold compressCall
    cases ok
    · exact inv_same h hne rfl hcp
    · refine inv_unlink (gzOf n) h hne rfl hcp ?_
      rintro k c hb (hk | hk)
      · exact absurd hk (gzOf_ne (h.plain k c hb))
      · have hk := gzOf_inj hk
        subst hk
        rcases h.fate k c hb with ⟨x, hx, h⟩ | ⟨_, hb, _⟩ | ⟨ha, i, hi, he⟩
        · exact .inl ⟨x, hx, h⟩
        · exact absurd hb hp
        · exact .inr (.inr ⟨ha, i, by
            show find (unlink s.names (gzOf k)) k = some i
            rw [find_unlink, if_neg (gzOf_ne hz)]; exact hi, he⟩)

theorem inv_step (cfg : Config) (linux : Bool) (gz : Bytes → Bytes) (name : Bytes) (hage : cfg.maxAge ≤ 106751) (s t : State) (x : Step)
    (h : Inv cfg gz s) (hp : Proper name s x) (ha : Alone s x) (hs : step cfg linux gz s x = some t) : Inv cfg gz t := by
  cases x with
  | rotate n c =>
    obtain ⟨hz, hn, hnew⟩ := hp
    simp only [step, Option.some.injEq] at hs
    subst hs
    have hfc : ∀ k, find ((n, s.next) :: unlink s.names n) k = if n = k then some s.next else find s.names k := by
      intro k
      rw [find_cons, find_unlink]
      by_cases hk : n = k
      · rw [if_pos hk, if_pos hk]
      · rw [if_neg hk, if_neg hk, if_neg (fun e => hk e.symm)]
    have hold : ∀ k i, find s.names k = some i → find ((n, s.next) :: unlink s.names n) k = some i ∧ upd s.data s.next c i = s.data i := by
      intro k i hi
      have hb := h.bound k i hi
      refine ⟨?_, by simp [upd, Nat.ne_of_lt hb]⟩
      rw [hfc, if_neg, hi]
      intro e
      rw [← e, hn] at hi
      cases hi
    refine ⟨?_, ?_, ?_, ?_, ?_, ?_, ?_, h.sole⟩
    · intro k i hi
      simp only [hfc] at hi
      split at hi
      · cases hi; exact Nat.lt_succ_self _
      · exact Nat.lt_succ_of_lt (h.bound k i hi)
    · intro k l i hi hl
      simp only [hfc] at hi hl
      split at hi
      · split at hl
        · rename_i e1 e2; rw [← e1, ← e2]
        · cases hi; exact absurd (h.bound l _ hl) (Nat.lt_irrefl _)
      · split at hl
        · cases hl; exact absurd (h.bound k _ hi) (Nat.lt_irrefl _)
        · exact h.inj k l i hi hl
    · intro k d hk
      rcases List.mem_cons.mp hk with hk | hk
      · cases hk; exact hz
      · exact h.plain k d hk
    · intro k hk hf
      simp only [hfc] at hf
      split at hf
      · rename_i e; exact ⟨c, by rw [← e]; exact List.mem_cons_self ..⟩
      · obtain ⟨d, hd⟩ := h.known k hk hf
        exact ⟨d, List.mem_cons_of_mem _ hd⟩
    · intro k hk
      obtain ⟨d, hd⟩ := h.ended k hk
      exact ⟨d, List.mem_cons_of_mem _ hd⟩
    · intro k d hk
      rcases List.mem_cons.mp hk with hk | hk
      · cases hk
        refine .inr (.inr ⟨fun hf => ?_, s.next, ?_, by simp [upd]⟩)
        · obtain ⟨e, he⟩ := h.ended n hf
          exact hnew e he
        · simp only [hfc, if_pos]
      · have hkn : k ≠ n := fun e => hnew d (e ▸ hk)
        refine fate_frame (s := s) (fun _ h => h) Iff.rfl ?_ ?_ ?_ (h.fate k d hk)
        · simp only [hfc, if_neg (fun e : n = k => hkn e.symm)]
        · simp only [hfc, if_neg (gzOf_ne hz)]
        · rintro i (hi | hi)
          · exact (hold k i hi).2
          · exact (hold _ i hi).2
    · intro w
      have hw := h.worker w
      revert hw
      show WorkerInv cfg gz s (s.workers w) → WorkerInv cfg gz _ (s.workers w)
      cases s.workers w with
      | idle => exact id
      | removing rm cp => exact id
      | between cp => exact id
      | inside m pc cp =>
        rintro ⟨h1, h2, h3⟩
        refine ⟨h1, ?_, h3⟩
        cases pc with
        | start => trivial
        | opened f => exact (hold _ _ h2).1
        | known f => exact (hold _ _ h2).1
        | made f =>
          refine ⟨(hold _ _ h2.1).1, ?_⟩
          obtain ⟨i, hi⟩ := Option.ne_none_iff_exists'.mp h2.2
          show find _ (gzOf m) ≠ none
          rw [(hold _ i hi).1]; simp
        | owned f => exact (hold _ _ h2).1
        | writing f g sent => exact ⟨(hold _ _ h2.1).1, (hold _ _ h2.2.1).1, by rw [← h2.2.2]; exact (hold _ _ h2.2.1).2⟩
        | flushed =>
          obtain ⟨f, g, hf, hg, hd⟩ := h2
          exact ⟨f, g, (hold _ _ hf).1, (hold _ _ hg).1, by simp only [(hold _ _ hf).2, (hold _ _ hg).2]; exact hd⟩
        | closedDst =>
          obtain ⟨f, g, hf, hg, hd⟩ := h2
          exact ⟨f, g, (hold _ _ hf).1, (hold _ _ hg).1, by simp only [(hold _ _ hf).2, (hold _ _ hg).2]; exact hd⟩
        | closedSrc =>
          obtain ⟨f, g, hf, hg, hd⟩ := h2
          exact ⟨f, g, (hold _ _ hf).1, (hold _ _ hg).1, by simp only [(hold _ _ hf).2, (hold _ _ hg).2]; exact hd⟩
        | failing =>
          have h2 : find s.names m ≠ none := h2
          obtain ⟨i, hi⟩ := Option.ne_none_iff_exists'.mp h2
          show find _ m ≠ none
          rw [(hold m i hi).1]; simp
  | begin_ w now files =>
    obtain ⟨hl, h1⟩ := hp
    simp only [step] at hs
    rw [if_pos (ha w)] at hs
    simp only [Option.some.injEq] at hs
    subst hs
    obtain ⟨hp1, hp2⟩ := plan_spec cfg now files hl.sorted h1 hage
    have hid : ∀ v, v ≠ w → upd s.workers w (.removing ((plan cfg now files).1.map LogInfo.name) ((plan cfg now files).2.map LogInfo.name)) v = .idle := by
      intro v hv
      simp only [upd, if_neg hv]
      exact ha v
    refine ⟨h.bound, h.inj, h.plain, h.known, h.ended, ?_, ?_, ?_⟩
    · intro n c hb
      exact fate_frame (fun _ h => List.mem_cons_of_mem _ h) Iff.rfl rfl rfl (fun _ _ => rfl) (h.fate n c hb)
    · intro v
      by_cases hv : v = w
      · subst hv
        simp only [upd, if_true]
        constructor
        · intro n hn
          obtain ⟨f, hf, rfl⟩ := List.mem_map.mp hn
          obtain ⟨hf1, hf2⟩ := (hp1 f).mp hf
          exact ⟨(now, files), List.mem_cons_self .., f, hf1, rfl, hf2⟩
        · intro n hn
          obtain ⟨f, hf, rfl⟩ := List.mem_map.mp hn
          exact ((hp2 f).mp hf).2.2.2
      · simp only [hid v hv]; trivial
    · intro u v hu hv
      by_cases h1 : u = w
      · by_cases h2 : v = w
        · rw [h1, h2]
        · exact absurd (hid v h2) hv
      · exact absurd (hid u h1) hu
  | remove w ok =>
    simp only [step] at hs
    split at hs
    · rename_i n rm cp hw
      have hne : s.workers w ≠ .idle := by rw [hw]; intro h; cases h
      have hi := h.worker w
      rw [hw] at hi
      simp only [Option.some.injEq] at hs
      subst hs
      cases ok
      · exact inv_same (W := .removing rm cp) h hne rfl ⟨fun k hk => hi.1 k (List.mem_cons_of_mem _ hk), hi.2⟩
      · refine inv_unlink (W := .removing rm cp) n h hne rfl ⟨fun k hk => hi.1 k (List.mem_cons_of_mem _ hk), hi.2⟩ ?_
        intro k c hb hk
        obtain ⟨x, hx, f, hf, hfn, he⟩ := hi.1 n (List.mem_cons_self ..)
        refine .inl ⟨x, hx, f, hf, ?_, he⟩
        rcases hk with rfl | hk
        · exact .inl hfn
        · exact .inr (hfn.trans hk.symm)
    · cases hs
  | go w =>
    simp only [step] at hs
    have hi := h.worker w
    split at hs
    · rename_i cp hw
      simp only [Option.some.injEq] at hs
      rw [hw] at hi
      exact inv_same h (by rw [hw]; intro h; cases h) hs.symm hi.2
    · rename_i n cp hw
      simp only [Option.some.injEq] at hs
      rw [hw] at hi
      exact inv_same h (by rw [hw]; intro h; cases h) hs.symm ⟨hi n (List.mem_cons_self ..), trivial, fun k hk => hi k (List.mem_cons_of_mem _ hk)⟩
    · rename_i hw
      simp only [Option.some.injEq] at hs
      exact inv_same h (by rw [hw]; intro h; cases h) hs.symm trivial
    · cases hs
  | call w ok =>
    simp only [step] at hs
    split at hs
    · rename_i n pc cp hw
      simp only [Option.some.injEq] at hs
      subst hs
      exact inv_call h hw
    · cases hs
  | write w p =>
    simp only [step] at hs
    split at hs
    · rename_i n f g sent cp hw
      split at hs
      · simp only [Option.some.injEq] at hs
        subst hs
        have hi := h.worker w
        rw [hw] at hi
        obtain ⟨hz, ⟨hf, hg, hd⟩, hcp⟩ := hi
        refine inv_data h (by rw [hw]; intro h; cases h) hz hf hg rfl ⟨hz, ⟨hf, hg, ?_⟩, hcp⟩
        simp only [upd, if_true, hd, writeAt_end]
      · cases hs
    · cases hs
  | kill =>
    simp only [step, Option.some.injEq] at hs
    subst hs
    exact ⟨h.bound, h.inj, h.plain, h.known, h.ended, fun n c hb => fate_frame (fun _ h => h) Iff.rfl rfl rfl (fun _ _ => rfl) (h.fate n c hb),
      fun _ => trivial, fun _ _ h => absurd rfl h⟩

theorem inv_run (cfg : Config) (linux : Bool) (gz : Bytes → Bytes) (name : Bytes) (hage : cfg.maxAge ≤ 106751) (xs : List Step) :
    ∀ s t, Inv cfg gz s → All cfg linux gz (Proper name) s xs → All cfg linux gz Alone s xs → run cfg linux gz s xs = some t → Inv cfg gz t := by
  induction xs with
  | nil => intro s t h _ _ hr; simp only [run, Option.some.injEq] at hr; exact hr ▸ h
  | cons x xs ih =>
    intro s t h hp ha hr
    rw [run] at hr
    cases hx : step cfg linux gz s x with
    | none => rw [hx] at hr; cases hr
    | some u =>
      rw [hx] at hr
      exact ih u t (inv_step cfg linux gz name hage s u x h hp.1 ha.1 hx) (hp.2 u hx) (ha.2 u hx) hr

/-- C148, partial: whatever calls fail and whenever the process is killed and started again, with any rotations going on, a backup that was never found expired is there: as it was
until `compressLogFile` has returned nil for it, and compressed completely from then on.  Proved if no two goroutines clean at a time; with two it is false
(`two_loggers_lose`). -/
theorem kept_partial (cfg : Config) (linux : Bool) (gz : Bytes → Bytes) (name : Bytes) (hage : cfg.maxAge ≤ 106751) (xs : List Step) (s : State)
    (hr : run cfg linux gz init xs = some s) (hp : All cfg linux gz (Proper name) init xs) (ha : All cfg linux gz Alone init xs)
    (n c : Bytes) (hb : (n, c) ∈ s.backups) (he : ¬ WasExpired cfg s n) :
    (n ∉ s.finished ∧ Holds s n c) ∨ (n ∈ s.finished ∧ find s.names n = none ∧ Holds s (n ++ asc ".gz") (gz c)) := by
  rcases (inv_run cfg linux gz name hage xs init s (inv_init cfg gz) hp ha hr).fate n c hb with h | h | h
  · exact absurd h he
  · exact .inr h
  · exact .inl h

/-! ### When nothing fails -/

/-- The file is still to be compressed. -/
def Pend (n : Bytes) : Worker → Prop
  | .idle => False
  | .removing rm cp => n ∈ cp ∧ n ∉ rm
  | .between cp => n ∈ cp
  | .inside m _ cp => m = n ∨ n ∈ cp

/-- Each of the files is compressed, or there and still to be, and nothing has failed. -/
structure Going (ns : List Bytes) (w : Nat) (s : State) : Prop where
  all : ∀ n ∈ ns, n ∈ s.finished ∨ (find s.names n ≠ none ∧ Pend n (s.workers w))
  fine : ∀ n cp, s.workers w ≠ .inside n .failing cp

theorem create_find (s : State) (n m : Bytes) (h : find s.names m ≠ none) : find (create s n).2.names m ≠ none := by
  unfold create
  split
  · exact h
  · simp only [find_cons]
    split
    · simp
    · exact h

theorem create_other (s : State) (n : Bytes) : (create s n).2.finished = s.finished := by
  unfold create
  split <;> rfl

theorem smooth_call {cfg : Config} {linux : Bool} {gz : Bytes → Bytes} {s : State} {w : Nat} {m : Bytes} {pc : Pc} {cp : List Bytes} {ns : List Bytes}
    (h : Inv cfg gz s) (hw : s.workers w = .inside m pc cp) (hg : Going ns w s) :
    Going ns w { (compressCall linux gz s m true pc).1 with
      workers := upd s.workers w (match (compressCall linux gz s m true pc).2 with | some pc => .inside m pc cp | none => .between cp) } := by
  have hi := h.worker w
  rw [hw] at hi
  obtain ⟨hz, hp, hcp⟩ := hi
  have hall := hg.all
  rw [hw] at hall
  have stay : ∀ (t : State) (pc' : Pc), pc' ≠ .failing → t.finished = s.finished → (∀ n, find s.names n ≠ none → find t.names n ≠ none) →
      t.workers = upd s.workers w (.inside m pc' cp) → Going ns w t := by
    intro t pc' hpc hf hn ht
    have hwt : t.workers w = .inside m pc' cp := by rw [ht]; simp [upd]
    refine ⟨fun n hns => ?_, fun n cp' he => ?_⟩
    · rw [hf, hwt]
      rcases hall n hns with h | ⟨h1, h2⟩
      · exact .inl h
      · exact .inr ⟨hn n h1, h2⟩
    · rw [hwt] at he
      injection he with _ e _
      exact hpc e
  cases pc with
  | start =>
    unfold compressCall
    cases hf : find s.names m with
    | some f => exact stay _ (.opened f) (by intro h; cases h) rfl (fun _ h => h) rfl
    | none =>
      refine ⟨fun n hns => ?_, fun n cp' he => ?_⟩
      · rcases hall n hns with h | ⟨h1, h2⟩
        · exact .inl h
        · rcases h2 with rfl | h2
          · exact absurd hf h1
          · refine .inr ⟨h1, ?_⟩
            simp only [upd, if_true]; exact h2
      · simp only [upd, if_true] at he; cases he
  | opened f =>
    have hp : find s.names m = some f := hp
    have hc : compressCall linux gz s m true (.opened f) = (s, some (if linux then .known f else .owned f)) :=
      if_pos ⟨rfl, by rw [hp]; simp⟩
    rw [hc]
    exact stay _ (if linux then .known f else .owned f) (by cases linux <;> (intro h; cases h)) rfl (fun _ h => h) rfl
  | known f =>
    unfold compressCall
    exact stay _ (.made f) (by intro h; cases h) (create_other _ _) (fun _ h => create_find _ _ _ h) rfl
  | made f =>
    have hc : compressCall linux gz s m true (.made f) = (s, some (.owned f)) := if_pos ⟨rfl, hp.2⟩
    rw [hc]
    exact stay _ (.owned f) (by intro h; cases h) rfl (fun _ h => h) rfl
  | owned f =>
    unfold compressCall
    exact stay _ (.writing f (create s (gzOf m)).1 []) (by intro h; cases h) (create_other _ _) (fun _ h => create_find _ _ _ h) rfl
  | writing f g sent =>
    unfold compressCall
    exact stay _ (if sent = gz (s.data f) then .flushed else .writing f g sent) (by split <;> (intro h; cases h)) rfl (fun _ h => h) rfl
  | flushed => exact stay _ .closedDst (by intro h; cases h) rfl (fun _ h => h) rfl
  | closedDst => exact stay _ .closedSrc (by intro h; cases h) rfl (fun _ h => h) rfl
  | closedSrc =>
    obtain ⟨f, g, hf, _, _⟩ := hp
    have hc : compressCall linux gz s m true .closedSrc = ({ s with names := unlink s.names m, finished := m :: s.finished }, none) :=
      if_pos ⟨rfl, by rw [hf]; simp⟩
    rw [hc]
    refine ⟨fun n hns => ?_, fun n cp' he => ?_⟩
    · by_cases hnm : n = m
      · subst hnm; exact .inl (List.mem_cons_self ..)
      · rcases hall n hns with h | ⟨h1, h2⟩
        · exact .inl (List.mem_cons_of_mem _ h)
        · refine .inr ⟨?_, ?_⟩
          · simp only [find_unlink, if_neg hnm]; exact h1
          · simp only [upd, if_true]
            exact h2.resolve_left fun e => hnm e.symm
    · simp only [upd, if_true] at he; cases he
  | failing => exact absurd hw (hg.fine m cp)

theorem call_finished (linux : Bool) (gz : Bytes → Bytes) (s : State) (n : Bytes) (ok : Bool) (pc : Pc) :
    (compressCall linux gz s n ok pc).1.finished = s.finished ∨ ∃ m, (compressCall linux gz s n ok pc).1.finished = m :: s.finished := by
  cases pc <;> simp only [compressCall]
  case start => split <;> (try split) <;> exact .inl rfl
  case closedSrc => split <;> first | exact .inl rfl | exact .inr ⟨_, rfl⟩
  all_goals first
    | exact .inl trivial
    | (split <;> first | exact .inl rfl | exact .inl (create_other _ _))

theorem smooth_step (cfg : Config) (linux : Bool) (gz : Bytes → Bytes) (name : Bytes) (ns : List Bytes) (w : Nat) (s t : State) (x : Step)
    (h : Inv cfg gz s) (hg : Going ns w s) (hp : Proper name s x) (ha : Alone s x) (hx : Smooth x) (hs : step cfg linux gz s x = some t) : Going ns w t := by
  have idle : s.workers w = .idle → ∀ n ∈ ns, n ∈ s.finished := by
    intro hw n hn
    rcases hg.all n hn with h | ⟨_, h⟩
    · exact h
    · rw [hw] at h; exact absurd h id
  -- steps of others, when this goroutine is idle
  have other : ∀ v W, v ≠ w → t.finished = s.finished ∨ (∃ m, t.finished = m :: s.finished) → s.workers v ≠ .idle → t.workers = upd s.workers v W → Going ns w t := by
    intro v W hv hf hv2 ht
    have hw : s.workers w = .idle := by
      by_contra hn
      exact hv (h.sole v w hv2 hn)
    have hwt : t.workers w = .idle := by rw [ht]; simp only [upd, if_neg (fun e : w = v => hv e.symm)]; exact hw
    refine ⟨fun n hn => .inl ?_, fun n cp he => ?_⟩
    · rcases hf with hf | ⟨m, hf⟩
      · rw [hf]; exact idle hw n hn
      · rw [hf]; exact List.mem_cons_of_mem _ (idle hw n hn)
    · rw [hwt] at he; cases he
  cases x with
  | rotate n c =>
    simp only [step, Option.some.injEq] at hs
    subst hs
    refine ⟨fun k hk => ?_, hg.fine⟩
    rcases hg.all k hk with h | ⟨h1, h2⟩
    · exact .inl h
    · refine .inr ⟨?_, h2⟩
      simp only [find_cons, find_unlink]
      by_cases hk : n = k
      · simp [hk]
      · rw [if_neg hk, if_neg (fun e => hk e.symm)]; exact h1
  | begin_ v now files =>
    simp only [step] at hs
    rw [if_pos (ha v)] at hs
    simp only [Option.some.injEq] at hs
    subst hs
    refine ⟨fun n hn => .inl (idle (ha w) n hn), fun n cp he => ?_⟩
    simp only [upd] at he
    split at he
    · cases he
    · rw [ha w] at he; cases he
  | remove v ok =>
    have hx : ok = true := hx
    subst hx
    simp only [step] at hs
    split at hs
    · rename_i n rm cp hv
      simp only [if_true, Option.some.injEq] at hs
      by_cases hvw : v = w
      · subst hvw
        subst hs
        have hall := hg.all
        rw [hv] at hall
        refine ⟨fun k hk => ?_, fun k cp' he => ?_⟩
        · rcases hall k hk with h | ⟨h1, h2, h3⟩
          · exact .inl h
          · simp only [List.mem_cons, not_or] at h3
            refine .inr ⟨?_, ?_⟩
            · simp only [find_unlink, if_neg h3.1]; exact h1
            · simp only [upd, if_true]; exact ⟨h2, h3.2⟩
        · simp only [upd, if_true] at he; cases he
      · exact other v _ hvw (.inl (by rw [← hs])) (by rw [hv]; intro h; cases h) (by rw [← hs])
    · cases hs
  | go v =>
    simp only [step] at hs
    split at hs
    · rename_i cp hv
      simp only [Option.some.injEq] at hs
      by_cases hvw : v = w
      · subst hvw
        subst hs
        have hall := hg.all
        rw [hv] at hall
        refine ⟨fun k hk => ?_, fun k cp' he => ?_⟩
        · rcases hall k hk with h | ⟨h1, h2, _⟩
          · exact .inl h
          · refine .inr ⟨h1, ?_⟩
            simp only [upd, if_true]; exact h2
        · simp only [upd, if_true] at he; cases he
      · exact other v _ hvw (.inl (by rw [← hs])) (by rw [hv]; intro h; cases h) (by rw [← hs])
    · rename_i n cp hv
      simp only [Option.some.injEq] at hs
      by_cases hvw : v = w
      · subst hvw
        subst hs
        have hall := hg.all
        rw [hv] at hall
        refine ⟨fun k hk => ?_, fun k cp' he => ?_⟩
        · rcases hall k hk with h | ⟨h1, h2⟩
          · exact .inl h
          · refine .inr ⟨h1, ?_⟩
            simp only [upd, if_true]
            exact (List.mem_cons.mp h2).imp Eq.symm id
        · simp only [upd, if_true] at he
          injection he with _ e _
          cases e
      · exact other v _ hvw (.inl (by rw [← hs])) (by rw [hv]; intro h; cases h) (by rw [← hs])
    · rename_i hv
      simp only [Option.some.injEq] at hs
      by_cases hvw : v = w
      · subst hvw
        subst hs
        have hall := hg.all
        rw [hv] at hall
        refine ⟨fun k hk => ?_, fun k cp' he => ?_⟩
        · rcases hall k hk with h | ⟨_, h2⟩
          · exact .inl h
          · exact absurd (show k ∈ ([] : List Bytes) from h2) (by simp)
        · simp only [upd, if_true] at he; cases he
      · exact other v _ hvw (.inl (by rw [← hs])) (by rw [hv]; intro h; cases h) (by rw [← hs])
    · cases hs
  | call v ok =>
    have hx : ok = true := hx
    subst hx
    simp only [step] at hs
    split at hs
    · rename_i n pc cp hv
      simp only [Option.some.injEq] at hs
      by_cases hvw : v = w
      · subst hvw
        subst hs
        exact smooth_call h hv hg
      · refine other v _ hvw ?_ (by rw [hv]; intro h; cases h) (by rw [← hs])
        rw [← hs]
        exact call_finished linux gz s n true pc
    · cases hs
  | write v p =>
    simp only [step] at hs
    split at hs
    · rename_i n f g sent cp hv
      split at hs
      · simp only [Option.some.injEq] at hs
        by_cases hvw : v = w
        · subst hvw
          subst hs
          have hall := hg.all
          rw [hv] at hall
          refine ⟨fun k hk => ?_, fun k cp' he => ?_⟩
          · rcases hall k hk with h | ⟨h1, h2⟩
            · exact .inl h
            · refine .inr ⟨h1, ?_⟩
              simp only [upd, if_true]; exact h2
          · simp only [upd, if_true] at he
            injection he with _ e _
            cases e
        · exact other v _ hvw (.inl (by rw [← hs])) (by rw [hv]; intro h; cases h) (by rw [← hs])
      · cases hs
    · cases hs
  | kill => exact absurd hx id

theorem smooth_run (cfg : Config) (linux : Bool) (gz : Bytes → Bytes) (name : Bytes) (hage : cfg.maxAge ≤ 106751) (ns : List Bytes) (w : Nat) (xs : List Step) :
    ∀ s t, Inv cfg gz s → Going ns w s → All cfg linux gz (Proper name) s xs → All cfg linux gz Alone s xs → (∀ x ∈ xs, Smooth x) →
      run cfg linux gz s xs = some t → Going ns w t := by
  induction xs with
  | nil => intro s t _ h _ _ _ hr; simp only [run, Option.some.injEq] at hr; exact hr ▸ h
  | cons x xs ih =>
    intro s t h hg hp ha hm hr
    rw [run] at hr
    cases hx : step cfg linux gz s x with
    | none => rw [hx] at hr; cases hr
    | some u =>
      rw [hx] at hr
      exact ih u t (inv_step cfg linux gz name hage s u x h hp.1 ha.1 hx) (smooth_step cfg linux gz name ns w s u x h hg hp.1 ha.1 (hm x (List.mem_cons_self ..)) hx)
        (hp.2 u hx) (ha.2 u hx) (fun y hy => hm y (List.mem_cons_of_mem _ hy)) hr

theorem find_dirOf (s : State) (n : Bytes) (h : ∃ x ∈ dirOf s, x.1 = n) : find s.names n ≠ none := by
  obtain ⟨x, hx, rfl⟩ := h
  obtain ⟨y, hy, rfl⟩ := List.mem_map.mp hx
  unfold find
  cases hf : s.names.find? (fun z => z.1 == y.1) with
  | none =>
    rw [List.find?_eq_none] at hf
    exact absurd (by simp) (hf y hy)
  | some z => simp

theorem run_append (cfg : Config) (linux : Bool) (gz : Bytes → Bytes) (xs ys : List Step) :
    ∀ s, run cfg linux gz s (xs ++ ys) = (run cfg linux gz s xs).bind fun t => run cfg linux gz t ys := by
  induction xs with
  | nil => intro s; rfl
  | cons x xs ih =>
    intro s
    simp only [List.cons_append, run]
    cases step cfg linux gz s x with
    | none => rfl
    | some t => exact ih t

theorem all_append (cfg : Config) (linux : Bool) (gz : Bytes → Bytes) (P : State → Step → Prop) (xs ys : List Step) :
    ∀ s t, All cfg linux gz P s (xs ++ ys) → run cfg linux gz s xs = some t → All cfg linux gz P s xs ∧ All cfg linux gz P t ys := by
  induction xs with
  | nil => intro s t h hr; simp only [run, Option.some.injEq] at hr; subst hr; exact ⟨trivial, h⟩
  | cons x xs ih =>
    intro s t h hr
    rw [run] at hr
    cases hx : step cfg linux gz s x with
    | none => rw [hx] at hr; cases hr
    | some u =>
      rw [hx] at hr
      refine ⟨⟨h.1, fun v hv => ?_⟩, (ih u t (h.2 u hx) hr).2⟩
      rw [hx] at hv
      cases hv
      exact (ih u t (h.2 u hx) hr).1

/-- C148, partial: whatever went wrong before, once cleaning has gone through without a failure all backups then listed that had not expired are compressed
(with `kept_partial`: completely, and their originals are gone). -/
theorem caught_up_partial (cfg : Config) (linux : Bool) (gz : Bytes → Bytes) (name : Bytes) (hage : cfg.maxAge ≤ 106751) (hc : cfg.compress = true)
    (before after : List Step) (w : Nat) (now : Int) (files : List LogInfo) (s : State)
    (hr : run cfg linux gz init (before ++ .begin_ w now files :: after) = some s)
    (hp : All cfg linux gz (Proper name) init (before ++ .begin_ w now files :: after)) (ha : All cfg linux gz Alone init (before ++ .begin_ w now files :: after))
    (hm : ∀ x ∈ after, Smooth x) (hw : s.workers w = .idle) (f : LogInfo) (hf : f ∈ files) (he : ¬ Expired cfg now files f) (hz : isGz f.name = false) :
    f.name ∈ s.finished := by
  rw [run_append] at hr
  obtain ⟨a, hra, hr⟩ := Option.bind_eq_some_iff.mp hr
  obtain ⟨hp1, hp2⟩ := all_append cfg linux gz _ _ _ _ _ hp hra
  obtain ⟨ha1, ha2⟩ := all_append cfg linux gz _ _ _ _ _ ha hra
  have hi := inv_run cfg linux gz name hage before init a (inv_init cfg gz) hp1 ha1 hra
  obtain ⟨hl, h1⟩ := hp2.1
  obtain ⟨hpl1, hpl2⟩ := plan_spec cfg now files hl.sorted h1 hage
  rw [run] at hr
  obtain ⟨b, hb, hr⟩ := Option.bind_eq_some_iff.mp hr
  have hib := inv_step cfg linux gz name hage a b _ hi hp2.1 ha2.1 hb
  have hbe := hb
  simp only [step] at hbe
  rw [if_pos (ha2.1 w)] at hbe
  simp only [Option.some.injEq] at hbe
  have hgo : Going [f.name] w b := by
    subst hbe
    refine ⟨fun n hn => ?_, fun n cp he => ?_⟩
    · rw [List.mem_singleton] at hn
      subst hn
      obtain ⟨_, hex, _⟩ := (hl.exact_ f).mp hf
      refine .inr ⟨find_dirOf a f.name hex, ?_⟩
      simp only [upd, if_true]
      refine ⟨List.mem_map.mpr ⟨f, (hpl2 f).mpr ⟨hf, he, hc, hz⟩, rfl⟩, fun hn => ?_⟩
      obtain ⟨g, hg, hgn⟩ := List.mem_map.mp hn
      obtain ⟨hg1, hg2⟩ := (hpl1 g).mp hg
      have ht : g.time = f.time := (h1 g hg1 f hf).mp (by rw [hgn])
      apply he
      unfold Expired newer at hg2 ⊢
      rw [← ht]; exact hg2
    · simp only [upd, if_true] at he; cases he
  have hgs := smooth_run cfg linux gz name hage [f.name] w after b s hib hgo (hp2.2 b hb) (ha2.2 b hb) hm hr
  rcases hgs.all f.name (List.mem_singleton.mpr rfl) with h | ⟨_, h⟩
  · exact h
  · rw [hw] at h; exact absurd h id

/-! ### Nothing incomplete is left -/

/-- The goroutine may have made the compressed file. -/
def Busy (linux : Bool) : Pc → Prop
  | .start | .opened _ | .known _ => False
  | .owned _ => linux = true
  | _ => True

structure Clean (linux : Bool) (s : State) : Prop where
  src : ∀ m, find s.names m ≠ none → ∃ n c, (n, c) ∈ s.backups ∧ (m = n ∨ m = gzOf n)
  gone : ∀ n c, (n, c) ∈ s.backups → n ∉ s.finished → find s.names (gzOf n) ≠ none → ∃ w pc cp, s.workers w = .inside n pc cp ∧ Busy linux pc
  kind : ∀ w n f cp, s.workers w = .inside n (.known f) cp ∨ s.workers w = .inside n (.made f) cp → linux = true

theorem create_find_iff (s : State) (n m : Bytes) : find (create s n).2.names m ≠ none ↔ find s.names m ≠ none ∨ m = n := by
  unfold create
  cases h : find s.names n with
  | some g =>
    simp only
    constructor
    · exact .inl
    · rintro (h' | rfl)
      · exact h'
      · rw [h]; simp
  | none =>
    simp only [find_cons]
    by_cases hm : n = m
    · simp [hm]
    · rw [if_neg hm]
      constructor
      · exact .inl
      · rintro (h' | rfl)
        · exact h'
        · exact absurd rfl hm

theorem create_backups (s : State) (n : Bytes) : (create s n).2.backups = s.backups := by
  unfold create
  split <;> rfl

theorem clean_call {cfg : Config} {linux ok : Bool} {gz : Bytes → Bytes} {s : State} {w : Nat} {m : Bytes} {pc : Pc} {cp : List Bytes}
    (h : Inv cfg gz s) (hc : Clean linux s) (hw : s.workers w = .inside m pc cp) (ht : Tidy linux s (.call w ok)) :
    Clean linux { (compressCall linux gz s m ok pc).1 with
      workers := upd s.workers w (match (compressCall linux gz s m ok pc).2 with | some pc => .inside m pc cp | none => .between cp) } := by
  have hi := h.worker w
  rw [hw] at hi
  obtain ⟨hz, hp, hcp⟩ := hi
  have hsole : ∀ v, s.workers v ≠ .idle → v = w := fun v hv => h.sole v w hv (by rw [hw]; intro h; cases h)
  -- the files of other names
  have away : ∀ n c, (n, c) ∈ s.backups → n ∉ s.finished → n ≠ m → find s.names (gzOf n) = none := by
    intro n c hb hf hne
    by_contra hn
    obtain ⟨v, pc', cp', hv, _⟩ := hc.gone n c hb hf hn
    have := hsole v (by rw [hv]; intro h; cases h)
    subst this
    rw [hw] at hv
    injection hv with e
    exact hne e.symm
  have mine : ∀ c, (m, c) ∈ s.backups → m ∉ s.finished → find s.names (gzOf m) ≠ none → Busy linux pc := by
    intro c hb hf hn
    obtain ⟨v, pc', cp', hv, hbz⟩ := hc.gone m c hb hf hn
    have := hsole v (by rw [hv]; intro h; cases h)
    subst this
    rw [hw] at hv
    injection hv with _ e _
    exact e ▸ hbz
  -- the goroutine goes on and may have made the file
  have kindOn : ∀ (t : State) (pc' : Pc), (∀ f, pc' = .known f ∨ pc' = .made f → linux = true) → t.workers = upd s.workers w (.inside m pc' cp) →
      ∀ v n f cp', t.workers v = .inside n (.known f) cp' ∨ t.workers v = .inside n (.made f) cp' → linux = true := by
    intro t pc' hk ht v n f cp' hv
    rw [ht] at hv
    simp only [upd] at hv
    split at hv
    · rcases hv with hv | hv <;> injection hv with _ e _
      · exact hk f (.inl e)
      · exact hk f (.inr e)
    · exact hc.kind v n f cp' hv
  have kindOff : ∀ (t : State), t.workers = upd s.workers w (.between cp) →
      ∀ v n f cp', t.workers v = .inside n (.known f) cp' ∨ t.workers v = .inside n (.made f) cp' → linux = true := by
    intro t ht v n f cp' hv
    rw [ht] at hv
    simp only [upd] at hv
    split at hv
    · rcases hv with hv | hv <;> cases hv
    · exact hc.kind v n f cp' hv
  have on : ∀ (t : State) (pc' : Pc), (∀ f, pc' = .known f ∨ pc' = .made f → linux = true) → (Busy linux pc → Busy linux pc') → t.finished = s.finished → t.backups = s.backups →
      (∀ n, find t.names n ≠ none → find s.names n ≠ none) → t.workers = upd s.workers w (.inside m pc' cp) → Clean linux t := by
    intro t pc' hk hb hf hbk hn hwt
    refine ⟨fun n h => by rw [hbk]; exact hc.src n (hn n h), fun n c hbn hfn hg => ?_, kindOn t pc' hk hwt⟩
    rw [hbk] at hbn
    rw [hf] at hfn
    by_cases hnm : n = m
    · subst hnm
      exact ⟨w, pc', cp, by rw [hwt]; simp [upd], hb (mine c hbn hfn (hn _ hg))⟩
    · exact absurd (away n c hbn hfn hnm) (hn _ hg)
  -- the goroutine returns
  have off : ∀ (t : State), ¬ Busy linux pc → t.finished = s.finished → t.backups = s.backups →
      (∀ n, find t.names n ≠ none → find s.names n ≠ none) → t.workers = upd s.workers w (.between cp) → Clean linux t := by
    intro t hb hf hbk hn hwt
    refine ⟨fun n h => by rw [hbk]; exact hc.src n (hn n h), fun n c hbn hfn hg => ?_, kindOff t hwt⟩
    rw [hbk] at hbn
    rw [hf] at hfn
    by_cases hnm : n = m
    · subst hnm
      exact absurd (mine c hbn hfn (hn _ hg)) hb
    · exact absurd (away n c hbn hfn hnm) (hn _ hg)
  have madeIt : ∀ (pc' : Pc), (∀ f, pc' = .known f ∨ pc' = .made f → linux = true) → find s.names m ≠ none → Busy linux pc' → Clean linux { (create s (gzOf m)).2 with workers := upd s.workers w (.inside m pc' cp) } := by
    intro pc' hk hm hb
    refine ⟨fun n hn => ?_, fun n c hbn hfn hg => ?_, kindOn _ pc' hk rfl⟩
    · simp only [create_backups]
      rcases (create_find_iff s (gzOf m) n).mp hn with hn | rfl
      · exact hc.src n hn
      · obtain ⟨c, hcm⟩ := h.known m hz hm
        exact ⟨m, c, hcm, .inr rfl⟩
    · simp only [create_backups] at hbn
      simp only [create_other] at hfn
      by_cases hnm : n = m
      · subst hnm
        exact ⟨w, pc', cp, by simp [upd], hb⟩
      · rcases (create_find_iff s (gzOf m) (gzOf n)).mp hg with hg | hg
        · exact absurd (away n c hbn hfn hnm) hg
        · exact absurd (gzOf_inj hg) hnm
  simp only [Tidy, hw] at ht
  cases pc with
  | start =>
    unfold compressCall
    cases hf : find s.names m with
    | some f =>
      cases ok
      · exact off _ id rfl rfl (fun _ h => h) rfl
      · exact on _ (.opened f) (by rintro _ (h | h) <;> cases h) (fun h => absurd h id) rfl rfl (fun _ h => h) rfl
    | none => exact off _ id rfl rfl (fun _ h => h) rfl
  | opened f =>
    by_cases hk : ok = true ∧ find s.names m ≠ none
    · have he : compressCall linux gz s m ok (.opened f) = (s, some (if linux then .known f else .owned f)) := if_pos hk
      rw [he]
      exact on _ (if linux then .known f else .owned f) (by intro f' h; cases hl : linux <;> simp_all) (fun h => absurd h id) rfl rfl (fun _ h => h) rfl
    · have he : compressCall linux gz s m ok (.opened f) = (s, none) := if_neg hk
      rw [he]
      exact off _ id rfl rfl (fun _ h => h) rfl
  | known f =>
    have hlin := hc.kind w m f cp (.inl hw)
    cases ok
    · exact off _ id rfl rfl (fun _ h => h) rfl
    · exact madeIt (.made f) (fun _ _ => hlin) (by have hp : find s.names m = some f := hp; rw [hp]; simp) trivial
  | made f =>
    have hlin := hc.kind w m f cp (.inr hw)
    have he : compressCall linux gz s m ok (.made f) = (s, some (.owned f)) := if_pos ⟨ht hlin, hp.2⟩
    rw [he]
    exact on _ (.owned f) (by rintro _ (h | h) <;> cases h) (fun _ => hlin) rfl rfl (fun _ h => h) rfl
  | owned f =>
    cases ok
    · have hl : linux ≠ true := fun h => absurd (ht h) (by simp)
      exact off _ hl rfl rfl (fun _ h => h) rfl
    · exact madeIt (.writing f (create s (gzOf m)).1 []) (by rintro _ (h | h) <;> cases h) (by have hp : find s.names m = some f := hp; rw [hp]; simp) trivial
  | writing f g sent =>
    cases ok
    · exact on _ .failing (by rintro _ (h | h) <;> cases h) (fun _ => trivial) rfl rfl (fun _ h => h) rfl
    · exact on _ (if sent = gz (s.data f) then .flushed else .writing f g sent) (by intro f' h; split at h <;> rcases h with h | h <;> cases h) (fun _ => by split <;> trivial) rfl rfl (fun _ h => h) rfl
  | flushed =>
    exact on _ (if ok then .closedDst else .failing) (by intro f' h; split at h <;> rcases h with h | h <;> cases h) (fun _ => by split <;> trivial) rfl rfl (fun _ h => h) rfl
  | closedDst =>
    exact on _ (if ok then .closedSrc else .failing) (by intro f' h; split at h <;> rcases h with h | h <;> cases h) (fun _ => by split <;> trivial) rfl rfl (fun _ h => h) rfl
  | closedSrc =>
    by_cases hk : ok = true ∧ find s.names m ≠ none
    · have he : compressCall linux gz s m ok .closedSrc = ({ s with names := unlink s.names m, finished := m :: s.finished }, none) := if_pos hk
      rw [he]
      have hn : ∀ n, find (unlink s.names m) n ≠ none → find s.names n ≠ none := by
        intro n h
        rw [find_unlink] at h
        split at h
        · exact absurd rfl h
        · exact h
      refine ⟨fun n h => hc.src n (hn n h), fun n c hbn hfn hg => ?_, kindOff _ rfl⟩
      simp only [List.mem_cons, not_or] at hfn
      exact absurd (away n c hbn hfn.2 hfn.1) (hn _ hg)
    · have he : compressCall linux gz s m ok .closedSrc = (s, some .failing) := if_neg hk
      rw [he]
      exact on _ .failing (by rintro _ (h | h) <;> cases h) (fun _ => trivial) rfl rfl (fun _ h => h) rfl
  | failing =>
    have ht : ok = true := ht
    subst ht
    have hn : ∀ n, find (unlink s.names (gzOf m)) n ≠ none → n ≠ gzOf m ∧ find s.names n ≠ none := by
      intro n h
      rw [find_unlink] at h
      split at h
      · exact absurd rfl h
      · rename_i h'; exact ⟨h', h⟩
    refine ⟨fun n h => hc.src n (hn n h).2, fun n c hbn hfn hg => ?_, kindOff _ rfl⟩
    by_cases hnm : n = m
    · subst hnm
      exact absurd rfl (hn _ hg).1
    · exact absurd (away n c hbn hfn hnm) (hn _ hg).2

theorem clean_step (cfg : Config) (linux : Bool) (gz : Bytes → Bytes) (name : Bytes) (s t : State) (x : Step)
    (h : Inv cfg gz s) (hc : Clean linux s) (hp : Proper name s x) (ha : Alone s x) (ht : Tidy linux s x) (hs : step cfg linux gz s x = some t) : Clean linux t := by
  -- a goroutine not in `compressLogFile` moves
  have quiet : ∀ v W, (∀ n pc cp, s.workers v ≠ .inside n pc cp) → (∀ n pc cp, W = .inside n pc cp → pc = .start) → t.finished = s.finished → t.backups = s.backups →
      (∀ n, find t.names n ≠ none → find s.names n ≠ none) → t.workers = upd s.workers v W → Clean linux t := by
    intro v W hv hW hf hb hn hw
    refine ⟨fun n h => by rw [hb]; exact hc.src n (hn n h), fun n c hbn hfn hg => ?_, fun u n f cp hu => ?_⟩
    · rw [hb] at hbn
      rw [hf] at hfn
      obtain ⟨u, pc, cp, hu, hbz⟩ := hc.gone n c hbn hfn (hn _ hg)
      refine ⟨u, pc, cp, ?_, hbz⟩
      rw [hw]
      simp only [upd]
      rw [if_neg]
      · exact hu
      · rintro rfl; exact hv _ _ _ hu
    · rw [hw] at hu
      simp only [upd] at hu
      split at hu
      · rcases hu with hu | hu <;> cases hW _ _ _ hu
      · exact hc.kind u n f cp hu
  cases x with
  | rotate n c =>
    obtain ⟨hz, hn, hnew⟩ := hp
    simp only [step, Option.some.injEq] at hs
    subst hs
    have hfind : ∀ m, find ((n, s.next) :: unlink s.names n) m ≠ none → m = n ∨ find s.names m ≠ none := by
      intro m hm
      simp only [find_cons, find_unlink] at hm
      by_cases hnm : m = n
      · exact .inl hnm
      · rw [if_neg (fun e => hnm e.symm), if_neg hnm] at hm
        exact .inr hm
    refine ⟨fun m hm => ?_, fun m d hb hf hg => ?_, hc.kind⟩
    · rcases hfind m hm with rfl | hm
      · exact ⟨m, c, List.mem_cons_self .., .inl rfl⟩
      · obtain ⟨k, e, hk, hm⟩ := hc.src m hm
        exact ⟨k, e, List.mem_cons_of_mem _ hk, hm⟩
    · have hg' : find s.names (gzOf m) ≠ none := (hfind _ hg).resolve_left fun e => gzOf_ne hz e.symm
      rcases List.mem_cons.mp hb with hb | hb
      · injection hb with e1 e2
        subst e1
        obtain ⟨k, e, hk, hm⟩ := hc.src _ hg'
        rcases hm with hm | hm
        · exact absurd hm.symm (gzOf_ne (h.plain k e hk))
        · rw [← gzOf_inj hm] at hk
          exact absurd hk (hnew e)
      · exact hc.gone m d hb hf hg'
  | begin_ v now files =>
    simp only [step] at hs
    rw [if_pos (ha v)] at hs
    simp only [Option.some.injEq] at hs
    exact quiet v (.removing ((plan cfg now files).1.map LogInfo.name) ((plan cfg now files).2.map LogInfo.name)) (by rw [ha v]; intro _ _ _ h; cases h) (by intro _ _ _ h; cases h) (by rw [← hs]) (by rw [← hs]) (by rw [← hs]; exact fun _ h => h) (by rw [← hs])
  | remove v ok =>
    simp only [step] at hs
    split at hs
    · rename_i n rm cp hv
      simp only [Option.some.injEq] at hs
      refine quiet v (.removing rm cp) (by rw [hv]; intro _ _ _ h; cases h) (by intro _ _ _ h; cases h) (by rw [← hs]) (by rw [← hs]) ?_ (by rw [← hs])
      rw [← hs]
      cases ok
      · exact fun _ h => h
      · intro m hm
        simp only [if_true, find_unlink] at hm
        split at hm
        · exact absurd rfl hm
        · exact hm
    · cases hs
  | go v =>
    simp only [step] at hs
    split at hs
    · rename_i cp hv
      simp only [Option.some.injEq] at hs
      exact quiet v (.between cp) (by rw [hv]; intro _ _ _ h; cases h) (by intro _ _ _ h; cases h) (by rw [← hs]) (by rw [← hs]) (by rw [← hs]; exact fun _ h => h) (by rw [← hs])
    · rename_i n cp hv
      simp only [Option.some.injEq] at hs
      exact quiet v (.inside n .start cp) (by rw [hv]; intro _ _ _ h; cases h) (by intro _ _ _ h; injection h with _ e _; exact e.symm) (by rw [← hs]) (by rw [← hs]) (by rw [← hs]; exact fun _ h => h) (by rw [← hs])
    · rename_i hv
      simp only [Option.some.injEq] at hs
      exact quiet v .idle (by rw [hv]; intro _ _ _ h; cases h) (by intro _ _ _ h; cases h) (by rw [← hs]) (by rw [← hs]) (by rw [← hs]; exact fun _ h => h) (by rw [← hs])
    · cases hs
  | call v ok =>
    simp only [step] at hs
    split at hs
    · rename_i n pc cp hv
      simp only [Option.some.injEq] at hs
      subst hs
      exact clean_call h hc hv ht
    · cases hs
  | write v p =>
    simp only [step] at hs
    split at hs
    · rename_i n f g sent cp hv
      split at hs
      · simp only [Option.some.injEq] at hs
        subst hs
        refine ⟨hc.src, fun m c hb hf hg => ?_, fun u m f' cp' hu => ?_⟩
        · obtain ⟨u, pc, cp', hu, hbz⟩ := hc.gone m c hb hf hg
          by_cases huv : u = v
          · subst huv
            rw [hv] at hu
            injection hu with e1 e2 e3
            exact ⟨u, .writing f g (sent ++ p), cp, by simp [upd, e1], trivial⟩
          · exact ⟨u, pc, cp', by simp only [upd, if_neg huv]; exact hu, hbz⟩
        · simp only [upd] at hu
          split at hu
          · rcases hu with hu | hu <;> cases hu
          · exact hc.kind u m f' cp' hu
      · cases hs
    · cases hs
  | kill => exact absurd ht id

theorem clean_run (cfg : Config) (linux : Bool) (gz : Bytes → Bytes) (name : Bytes) (hage : cfg.maxAge ≤ 106751) (xs : List Step) :
    ∀ s t, Inv cfg gz s → Clean linux s → All cfg linux gz (Proper name) s xs → All cfg linux gz Alone s xs → All cfg linux gz (Tidy linux) s xs →
      run cfg linux gz s xs = some t → Clean linux t := by
  induction xs with
  | nil => intro s t _ h _ _ _ hr; simp only [run, Option.some.injEq] at hr; exact hr ▸ h
  | cons x xs ih =>
    intro s t h hc hp ha hm hr
    rw [run] at hr
    cases hx : step cfg linux gz s x with
    | none => rw [hx] at hr; cases hr
    | some u =>
      rw [hx] at hr
      exact ih u t (inv_step cfg linux gz name hage s u x h hp.1 ha.1 hx) (clean_step cfg linux gz name s u x h hc hp.1 ha.1 hm.1 hx)
        (hp.2 u hx) (ha.2 u hx) (hm.2 u hx) hr

/-- C148, partial: when no goroutine cleans, the directory has only backups, of which none has a compressed file beside it, and compressed files of backups
for which `compressLogFile` returned nil.  Proved if the process is not killed and, on Linux, neither `chown` nor the second opening of the compressed file
fails; otherwise it is false (`chown_leaves_empty`, `kill_leaves_part`). -/
theorem nothing_left_partial (cfg : Config) (linux : Bool) (gz : Bytes → Bytes) (name : Bytes) (hage : cfg.maxAge ≤ 106751) (xs : List Step) (s : State)
    (hr : run cfg linux gz init xs = some s) (hp : All cfg linux gz (Proper name) init xs) (ha : All cfg linux gz Alone init xs)
    (ht : All cfg linux gz (Tidy linux) init xs) (hi : ∀ w, s.workers w = .idle) (m : Bytes) (hm : find s.names m ≠ none) :
    ∃ n c, (n, c) ∈ s.backups ∧ (m = n ∨ (m = n ++ asc ".gz" ∧ n ∈ s.finished)) := by
  have hc := clean_run cfg linux gz name hage xs init s (inv_init cfg gz) ⟨fun _ h => absurd rfl h, fun _ _ h => (by cases h), fun _ _ _ _ h => (by rcases h with h | h <;> cases h)⟩ hp ha ht hr
  obtain ⟨n, c, hb, h | h⟩ := hc.src m hm
  · exact ⟨n, c, hb, .inl h⟩
  · refine ⟨n, c, hb, .inr ⟨h, ?_⟩⟩
    by_contra hf
    obtain ⟨w, pc, cp, hw, _⟩ := hc.gone n c hb hf (h ▸ hm)
    rw [hi w] at hw
    cases hw

/-! ### Concrete cases -/

/-- Checks `Listing`. -/
def lists (name : Bytes) (d : Dir) (files : List LogInfo) : Bool :=
  (d.all fun x => match backupTime name x.1 with | .time c => files.contains ⟨c.millis * 1000000, x.1⟩ | _ => true) &&
  (files.all fun f => (d.any fun x => x.1 == f.name) && match backupTime name f.name with | .time c => f.time == c.millis * 1000000 | _ => false) &&
  decide (files.Pairwise fun f g => g.time ≤ f.time)

theorem lists_sound (name : Bytes) (d : Dir) (files : List LogInfo) (h : lists name d files = true) : Listing name d files := by
  unfold lists at h
  simp only [Bool.and_eq_true, decide_eq_true_eq, List.all_eq_true] at h
  obtain ⟨⟨h1, h2⟩, h3⟩ := h
  refine ⟨fun f => ⟨fun hf => ?_, ?_⟩, h3⟩
  · obtain ⟨ha, hb⟩ := h2 f hf
    rw [List.any_eq_true] at ha
    obtain ⟨x, hx, hxf⟩ := ha
    cases hc : backupTime name f.name with
    | time c =>
      rw [hc] at hb
      exact ⟨c, ⟨x, hx, by simpa using hxf⟩, rfl, by simpa using hb⟩
    | _ => rw [hc] at hb; cases hb
  · rintro ⟨c, ⟨x, hx, hxf⟩, hb, ht⟩
    have := h1 x hx
    rw [hxf, hb] at this
    simp only [List.contains_iff_mem] at this
    obtain ⟨t, n⟩ := f
    simp only at ht
    rw [ht]
    exact this

/-- Checks a step of goroutines before `k`, with `Tidy` if `tidy`, `Alone` if `alone`. -/
def fit (k : Nat) (alone tidy linux : Bool) (name : Bytes) (s : State) : Step → Bool
  | .rotate n _ => !isGz n && decide (find s.names n = none) && s.backups.all fun b => b.1 != n
  | .begin_ w _ files =>
    decide (w < k) && (!alone || (List.range k).all fun w => decide (s.workers w = .idle)) && lists name (dirOf s) files &&
    files.all fun f => files.all fun g => decide (baseOf f.name = baseOf g.name ↔ f.time = g.time)
  | .call w ok => !tidy || (match s.workers w with
    | .inside _ .failing _ => ok
    | .inside _ (.made _) _ | .inside _ (.owned _) _ => !linux || ok
    | _ => true)
  | .kill => !tidy
  | _ => true

/-- Checks a run. -/
def fits (k : Nat) (alone tidy : Bool) (cfg : Config) (linux : Bool) (gz : Bytes → Bytes) (name : Bytes) : State → List Step → Bool
  | _, [] => true
  | s, x :: xs => fit k alone tidy linux name s x && ((step cfg linux gz s x).map fun t => fits k alone tidy cfg linux gz name t xs).getD true

theorem step_idle {cfg : Config} {linux : Bool} {gz : Bytes → Bytes} {s t : State} {x : Step} {u : Nat} (h : s.workers u = .idle)
    (hx : ∀ w now files, x = .begin_ w now files → w ≠ u) (hs : step cfg linux gz s x = some t) : t.workers u = .idle := by
  cases x with
  | rotate n c => simp only [step, Option.some.injEq] at hs; subst hs; exact h
  | begin_ v now files =>
    simp only [step] at hs
    split at hs
    · simp only [Option.some.injEq] at hs
      subst hs
      simp only [upd, if_neg (fun e : u = v => hx v now files rfl e.symm)]
      exact h
    · cases hs
  | remove v ok =>
    have hne : s.workers v ≠ .idle → u ≠ v := by rintro h1 rfl; exact h1 h
    simp only [step] at hs
    split at hs
    · rename_i hv
      simp only [Option.some.injEq] at hs
      subst hs
      simp only [upd, if_neg (hne (by rw [hv]; intro h; cases h))]
      exact h
    · cases hs
  | go v =>
    have hne : s.workers v ≠ .idle → u ≠ v := by rintro h1 rfl; exact h1 h
    simp only [step] at hs
    split at hs
    · rename_i hv
      simp only [Option.some.injEq] at hs
      subst hs
      simp only [upd, if_neg (hne (by rw [hv]; intro h; cases h))]
      exact h
    · rename_i hv
      simp only [Option.some.injEq] at hs
      subst hs
      simp only [upd, if_neg (hne (by rw [hv]; intro h; cases h))]
      exact h
    · rename_i hv
      simp only [Option.some.injEq] at hs
      subst hs
      simp only [upd, if_neg (hne (by rw [hv]; intro h; cases h))]
      exact h
    · cases hs
  | call v ok =>
    have hne : s.workers v ≠ .idle → u ≠ v := by rintro h1 rfl; exact h1 h
    simp only [step] at hs
    split at hs
    · rename_i hv
      simp only [Option.some.injEq] at hs
      subst hs
      simp only [upd, if_neg (hne (by rw [hv]; intro h; cases h))]
      exact h
    · cases hs
  | write v p =>
    have hne : s.workers v ≠ .idle → u ≠ v := by rintro h1 rfl; exact h1 h
    simp only [step] at hs
    split at hs
    · rename_i hv
      split at hs
      · simp only [Option.some.injEq] at hs
        subst hs
        simp only [upd, if_neg (hne (by rw [hv]; intro h; cases h))]
        exact h
      · cases hs
    · cases hs
  | kill => simp only [step, Option.some.injEq] at hs; subst hs; rfl

theorem fits_sound (k : Nat) (alone tidy : Bool) (cfg : Config) (linux : Bool) (gz : Bytes → Bytes) (name : Bytes) (xs : List Step) :
    ∀ s, (∀ w, k ≤ w → s.workers w = .idle) → fits k alone tidy cfg linux gz name s xs = true →
      All cfg linux gz (Proper name) s xs ∧ (alone = true → All cfg linux gz Alone s xs) ∧ (tidy = true → All cfg linux gz (Tidy linux) s xs) := by
  induction xs with
  | nil => intro s _ _; exact ⟨trivial, fun _ => trivial, fun _ => trivial⟩
  | cons x xs ih =>
    intro s hk h
    rw [fits, Bool.and_eq_true] at h
    obtain ⟨hx, hrest⟩ := h
    have hbeg : ∀ u, k ≤ u → ∀ w now files, x = .begin_ w now files → w ≠ u := by
      rintro u hu w now files rfl rfl
      simp only [fit, Bool.and_eq_true, decide_eq_true_eq] at hx
      omega
    have next : ∀ t, step cfg linux gz s x = some t → All cfg linux gz (Proper name) t xs ∧ (alone = true → All cfg linux gz Alone t xs) ∧ (tidy = true → All cfg linux gz (Tidy linux) t xs) := by
      intro t ht
      rw [ht] at hrest
      exact ih t (fun u hu => step_idle (hk u hu) (hbeg u hu) ht) hrest
    refine ⟨⟨?_, fun t ht => (next t ht).1⟩, fun ha => ⟨?_, fun t ht => (next t ht).2.1 ha⟩, fun ht => ⟨?_, fun t h => (next t h).2.2 ht⟩⟩
    · cases x with
      | rotate n c =>
        simp only [fit, Bool.and_eq_true, decide_eq_true_eq, Bool.not_eq_true', List.all_eq_true] at hx
        exact ⟨hx.1.1, hx.1.2, fun c hc => by simpa using hx.2 _ hc⟩
      | begin_ w now files =>
        simp only [fit, Bool.and_eq_true, decide_eq_true_eq, List.all_eq_true] at hx
        exact ⟨lists_sound _ _ _ hx.1.2, fun f hf g hg => hx.2 f hf g hg⟩
      | _ => trivial
    · cases x with
      | begin_ w now files =>
        subst ha
        simp only [fit, Bool.and_eq_true, decide_eq_true_eq, List.all_eq_true, Bool.not_true, Bool.false_or, List.mem_range] at hx
        intro u
        by_cases hu : u < k
        · exact hx.1.1.2 u hu
        · exact hk u (Nat.le_of_not_lt hu)
      | _ => trivial
    · subst ht
      cases x with
      | call w ok =>
        simp only [fit, Bool.not_true, Bool.false_or] at hx
        simp only [Tidy]
        split
        · rename_i h1; rw [h1] at hx; exact hx
        · rename_i h1; rw [h1] at hx; intro hl; rw [hl] at hx; exact hx
        · rename_i h1; rw [h1] at hx; intro hl; rw [hl] at hx; exact hx
        · trivial
      | kill => cases hx
      | _ => trivial

/-- A backup. -/
def exA : Bytes := asc "a-2016-11-04T18-30-00.000.log"
/-- A newer backup. -/
def exB : Bytes := asc "a-2016-11-05T18-30-00.000.log"

/-- All calls of `compressLogFile` on Linux, with two writes. -/
def exAll (w : Nat) (p q : Bytes) : List Step :=
  [.go w, .call w true, .call w true, .call w true, .call w true, .call w true, .write w p, .write w q, .call w true, .call w true, .call w true, .call w true]

/-- Two backups; the process is killed while the newer one is compressed; another one finds what was left, fails to close that file, and goes on to the older one. -/
def exBefore : List Step :=
  [.rotate exA (asc "1"), .rotate exB (asc "22"), .begin_ 0 1478460000000000000 [⟨1478370600000000000, exB⟩, ⟨1478284200000000000, exA⟩], .go 0, .go 0,
   .call 0 true, .call 0 true, .call 0 true, .call 0 true, .call 0 true, .write 0 [0, 50], .kill,
   .begin_ 1 1478460000000000000 [⟨1478370600000000000, exB⟩, ⟨1478370600000000000, exB ++ asc ".gz"⟩, ⟨1478284200000000000, exA⟩], .go 1] ++
  [.go 1, .call 1 true, .call 1 true, .call 1 true, .call 1 true, .call 1 true, .write 1 [0, 50], .write 1 [50], .call 1 true, .call 1 false, .call 1 true] ++
  exAll 1 [0] [49] ++ [.go 1]

/-- Then cleaning goes through. -/
def exAfter : List Step := [.go 0] ++ exAll 0 [0] [50, 50] ++ [.go 0]

/-- The hypotheses of `kept_partial` and of `caught_up_partial` hold for it. -/
example : ∃ s,
    run ⟨0, 0, true⟩ true (fun c => 0 :: c) init (exBefore ++ .begin_ 0 1478460000000000000 [⟨1478370600000000000, exB⟩, ⟨1478284200000000000, exA ++ asc ".gz"⟩] :: exAfter) = some s ∧
    All ⟨0, 0, true⟩ true (fun c => 0 :: c) (Proper (asc "a.log")) init (exBefore ++ .begin_ 0 1478460000000000000 [⟨1478370600000000000, exB⟩, ⟨1478284200000000000, exA ++ asc ".gz"⟩] :: exAfter) ∧
    All ⟨0, 0, true⟩ true (fun c => 0 :: c) Alone init (exBefore ++ .begin_ 0 1478460000000000000 [⟨1478370600000000000, exB⟩, ⟨1478284200000000000, exA ++ asc ".gz"⟩] :: exAfter) ∧
    (∀ x ∈ exAfter, Smooth x) ∧ s.workers 0 = .idle ∧ s.backups = [(exB, asc "22"), (exA, asc "1")] ∧ s.finished = [exB, exA] ∧
    dirOf s = [(exB ++ asc ".gz", [0, 50, 50]), (exA ++ asc ".gz", [0, 49])] := by
  have hf := fits_sound 2 true false ⟨0, 0, true⟩ true (fun c => 0 :: c) (asc "a.log")
    (exBefore ++ .begin_ 0 1478460000000000000 [⟨1478370600000000000, exB⟩, ⟨1478284200000000000, exA ++ asc ".gz"⟩] :: exAfter) init (fun _ _ => rfl) (by decide +kernel)
  have hr : ((run ⟨0, 0, true⟩ true (fun c => 0 :: c) init (exBefore ++ .begin_ 0 1478460000000000000 [⟨1478370600000000000, exB⟩, ⟨1478284200000000000, exA ++ asc ".gz"⟩] :: exAfter)).map
      fun s => decide (s.workers 0 = .idle ∧ s.backups = [(exB, asc "22"), (exA, asc "1")] ∧ s.finished = [exB, exA] ∧
        dirOf s = [(exB ++ asc ".gz", [0, 50, 50]), (exA ++ asc ".gz", [0, 49])])) = some true := by decide +kernel
  obtain ⟨s, h1, h2⟩ := Option.map_eq_some_iff.mp hr
  exact ⟨s, h1, hf.1, hf.2.1 rfl, (by unfold exAfter exAll; simp [Smooth]), of_decide_eq_true h2⟩

/-- C148: with two `Logger`s for the same file cleaning at the same time a backup is lost, though no call fails but for what the other has removed: the second opens
the original before the first removes it, empties the compressed file, and removes that when it finds the original gone. -/
theorem two_loggers_lose :
    ∃ xs s n c, run ⟨0, 0, true⟩ true (fun c => 0 :: c) init xs = some s ∧ All ⟨0, 0, true⟩ true (fun c => 0 :: c) (Proper (asc "a.log")) init xs ∧ (∀ x ∈ xs, Smooth x) ∧
      (∀ w, s.workers w = .idle) ∧ (n, c) ∈ s.backups ∧ (∀ cfg : Config, cfg.maxBackups = 0 → cfg.maxAge = 0 → ¬ WasExpired cfg s n) ∧
      find s.names n = none ∧ find s.names (n ++ asc ".gz") = none := by
  let xs : List Step := [.rotate exA (asc "1"), .begin_ 0 1478460000000000000 [⟨1478284200000000000, exA⟩], .begin_ 1 1478460000000000000 [⟨1478284200000000000, exA⟩],
    .go 1, .go 1, .call 1 true, .call 1 true, .go 0] ++ exAll 0 [0] [49] ++ [.go 0] ++
    [.call 1 true, .call 1 true, .call 1 true, .write 1 [0, 49], .call 1 true, .call 1 true, .call 1 true, .call 1 true, .call 1 true, .go 1]
  have hf := fits_sound 2 false false ⟨0, 0, true⟩ true (fun c => 0 :: c) (asc "a.log") xs init (fun _ _ => rfl) (by decide +kernel)
  have hr : ((run ⟨0, 0, true⟩ true (fun c => 0 :: c) init xs).map
      fun s => decide (s.workers 0 = .idle ∧ s.workers 1 = .idle ∧ s.backups = [(exA, asc "1")] ∧ s.names = [])) = some true := by decide +kernel
  obtain ⟨s, h1, h2⟩ := Option.map_eq_some_iff.mp hr
  have h2 := of_decide_eq_true h2
  have hidle : ∀ (ys : List Step) (s t : State), (∀ w now files, .begin_ w now files ∈ ys → w < 2) → (∀ w, 2 ≤ w → s.workers w = .idle) →
      run ⟨0, 0, true⟩ true (fun c => 0 :: c) s ys = some t → ∀ w, 2 ≤ w → t.workers w = .idle := by
    intro ys
    induction ys with
    | nil => intro s t _ h hr; simp only [run, Option.some.injEq] at hr; subst hr; exact h
    | cons y ys ih =>
      intro s t hy h hr
      rw [run] at hr
      obtain ⟨u, hu, hr⟩ := Option.bind_eq_some_iff.mp hr
      refine ih u t (fun w now files hm => hy w now files (List.mem_cons_of_mem _ hm)) (fun w hw => step_idle (h w hw) ?_ hu) hr
      rintro v now files rfl rfl
      have := hy v now files (List.mem_cons_self ..)
      omega
  refine ⟨xs, s, exA, asc "1", h1, hf.1, by simp [xs, exAll, Smooth], ?_, by rw [h2.2.2.1]; simp, ?_, by rw [h2.2.2.2]; rfl, by rw [h2.2.2.2]; rfl⟩
  · intro w
    match w with
    | 0 => exact h2.1
    | 1 => exact h2.2.1
    | w + 2 => exact hidle xs init s (by simp only [xs, exAll]; simp; omega) (fun _ _ => rfl) h1 (w + 2) (by omega)
  · rintro cfg hb ha ⟨x, _, f, _, _, h | h⟩
    · omega
    · omega

/-- C148: on Linux, when only the change of the owner fails, an empty compressed file stays beside the backup. -/
theorem chown_leaves_empty :
    ∃ xs s, run ⟨0, 0, true⟩ true (fun c => 0 :: c) init xs = some s ∧ All ⟨0, 0, true⟩ true (fun c => 0 :: c) (Proper (asc "a.log")) init xs ∧
      All ⟨0, 0, true⟩ true (fun c => 0 :: c) Alone init xs ∧ .kill ∉ xs ∧ s.workers 0 = .idle ∧
      dirOf s = [(exA ++ asc ".gz", []), (exA, asc "1")] ∧ s.finished = [] := by
  let xs : List Step := [.rotate exA (asc "1"), .begin_ 0 1478460000000000000 [⟨1478284200000000000, exA⟩],
    .go 0, .go 0, .call 0 true, .call 0 true, .call 0 true, .call 0 false, .go 0]
  have hf := fits_sound 2 true false ⟨0, 0, true⟩ true (fun c => 0 :: c) (asc "a.log") xs init (fun _ _ => rfl) (by decide +kernel)
  have hr : ((run ⟨0, 0, true⟩ true (fun c => 0 :: c) init xs).map
      fun s => decide (s.workers 0 = .idle ∧ dirOf s = [(exA ++ asc ".gz", []), (exA, asc "1")] ∧ s.finished = [])) = some true := by decide +kernel
  obtain ⟨s, h1, h2⟩ := Option.map_eq_some_iff.mp hr
  exact ⟨xs, s, h1, hf.1, hf.2.1 rfl, by simp [xs], of_decide_eq_true h2⟩

/-- C148: when the process is killed, part of a compressed file can stay beside the backup. -/
theorem kill_leaves_part :
    ∃ xs s, run ⟨0, 0, true⟩ true (fun c => 0 :: c) init xs = some s ∧ All ⟨0, 0, true⟩ true (fun c => 0 :: c) (Proper (asc "a.log")) init xs ∧
      All ⟨0, 0, true⟩ true (fun c => 0 :: c) Alone init xs ∧ (∀ x ∈ xs, x = .kill ∨ Smooth x) ∧
      dirOf s = [(exA ++ asc ".gz", [0]), (exA, asc "1")] ∧ s.finished = [] := by
  let xs : List Step := [.rotate exA (asc "1"), .begin_ 0 1478460000000000000 [⟨1478284200000000000, exA⟩],
    .go 0, .go 0, .call 0 true, .call 0 true, .call 0 true, .call 0 true, .call 0 true, .write 0 [0], .kill]
  have hf := fits_sound 2 true false ⟨0, 0, true⟩ true (fun c => 0 :: c) (asc "a.log") xs init (fun _ _ => rfl) (by decide +kernel)
  have hr : ((run ⟨0, 0, true⟩ true (fun c => 0 :: c) init xs).map
      fun s => decide (dirOf s = [(exA ++ asc ".gz", [0]), (exA, asc "1")] ∧ s.finished = [])) = some true := by decide +kernel
  obtain ⟨s, h1, h2⟩ := Option.map_eq_some_iff.mp hr
  exact ⟨xs, s, h1, hf.1, hf.2.1 rfl, by simp [xs, Smooth], of_decide_eq_true h2⟩

/-- The hypotheses of `nothing_left_partial` hold for a run with a failed write and a failed attempt to open. -/
example :
    let xs : List Step := [.rotate exA (asc "1"), .rotate exB (asc "22"), .begin_ 0 1478460000000000000 [⟨1478370600000000000, exB⟩, ⟨1478284200000000000, exA⟩],
      .go 0, .go 0, .call 0 false, .go 0, .call 0 true, .call 0 true, .call 0 true, .call 0 true, .call 0 true, .write 0 [0], .call 0 false, .call 0 true, .go 0]
    All ⟨0, 0, true⟩ true (fun c => 0 :: c) (Proper (asc "a.log")) init xs ∧ All ⟨0, 0, true⟩ true (fun c => 0 :: c) Alone init xs ∧
    All ⟨0, 0, true⟩ true (fun c => 0 :: c) (Tidy true) init xs ∧
    (run ⟨0, 0, true⟩ true (fun c => 0 :: c) init xs).map (fun s => (s.workers 0, dirOf s)) = some (.idle, [(exB, asc "22"), (exA, asc "1")]) := by
  intro xs
  have hf := fits_sound 2 true true ⟨0, 0, true⟩ true (fun c => 0 :: c) (asc "a.log") xs init (fun _ _ => rfl) (by decide +kernel)
  exact ⟨hf.1, hf.2.1 rfl, hf.2.2 rfl, by decide +kernel⟩

end Verif.Lumberjack.Compress
