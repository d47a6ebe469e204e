import Verif.Basic

/-!
# C39-C42: the rotating writer

Model of countlog/output/rotation: `Writer.Write`, `reopen`, `rotateInBackground` (rotation.go), `ArchiveByMove.Archive`
(archive_by_move.go), `TriggerBySize.UpdateStat` (trigger_by_size.go), `TriggerByInterval.TimeToTrigger`
(trigger_by_interval.go), `NameByTime.ListFiles` (name_by_time.go), `RetainByCount.PurgeSet` (retain_by_count.go) and
`PurgeByDelete.Purge` (purge_by_delete.go).

The writer and the background goroutine interleave between any two system calls or accesses to the shared status.  One
goroutine writes (`Write` takes no lock).
-/

namespace Verif.Rotation

/-! ### Model: the file system and the two goroutines -/

/-- rotation.go 17-19. -/
inductive Status | normal | triggered | archived
  deriving DecidableEq, Repr

/-- Where `Write` stands, rotation.go 116-140. -/
inductive WPc
  | idle
  | close (buf : Bytes)
  | open_ (buf : Bytes)
  | create (buf : Bytes)
  | write (buf : Bytes)
  | stat (buf : Bytes)
  deriving DecidableEq, Repr

/-- Where `rotateInBackground` stands, rotation.go 153-178. -/
inductive RPc
  | top
  | wait
  | archive
  | list
  | store
  | purge
  deriving DecidableEq, Repr

/-- Files are numbered in the order of their creation; `content` is what a file holds even after its last name is gone.  `moved`
records the files moved away, oldest first; `written` records the bytes that `Write` reported as written.
Both are kept for the specification only (rotation.go 21-31). -/
structure St where
  content : Nat → Bytes
  next : Nat
  live : Option Nat
  archives : List (Nat × Nat)
  fd : Option Nat
  status : Status
  stat : Option Nat
  wpc : WPc
  armed : Bool
  rpc : RPc
  moved : List Nat
  written : Bytes

/-- A step of one of the goroutines; flags say whether a system call succeeds (rotation.go 98-179). -/
inductive Step
  /-- `Write` is called and loads the status, rotation.go 116-117. -/
  | call (buf : Bytes)
  /-- The file is closed, rotation.go 118. -/
  | close
  /-- The first `OpenFile` of `reopen`, rotation.go 100. -/
  | open_ (ok : Bool)
  /-- The second, rotation.go 106. -/
  | create (ok : Bool)
  /-- `file.Write` writing at most `n` bytes, rotation.go 126. -/
  | write (n : Nat)
  /-- Counting the size, rotation.go 127-138. -/
  | count (ok : Bool)
  /-- `Close`, rotation.go 142-145. -/
  | shut
  /-- `TimeToTrigger` says `d`, rotation.go 154-158. -/
  | loop (d : Int)
  /-- The timer fires, rotation.go 163. -/
  | fire
  /-- `Archive` renames to `name`, archive_by_move.go 10-20. -/
  | rename (name : Nat) (ok : Bool)
  /-- `Archive` lists the archives, archive_by_move.go 21. -/
  | list (ok : Bool)
  /-- The status is set, rotation.go 172. -/
  | store
  /-- Some archives are removed, rotation.go 173-174. -/
  | purge (names : List Nat)

/-- One step.  `limit` is `SizeInKB*1024`; `none` if the step is not possible (rotation.go 98-179). -/
def step (limit : Nat) (s : St) : Step → Option St
  | .call buf =>
    if s.wpc = .idle then some { s with wpc := if s.status = .archived then .close buf else .write buf } else none
  | .close =>
    match s.wpc with
    | .close buf => some { s with fd := none, wpc := .open_ buf }
    | _ => none
  | .open_ ok =>
    match s.wpc with
    | .open_ buf =>
      if !ok then some { s with wpc := .write buf }
      else match s.live with
        | some i => some { s with fd := some i, wpc := .write buf }
        | none => some { s with wpc := .create buf }
    | _ => none
  | .create ok =>
    match s.wpc with
    | .create buf =>
      if !ok then some { s with wpc := .write buf }
      else match s.live with
        | some i => some { s with content := fun j => if j = i then [] else s.content j, fd := some i, wpc := .write buf }
        | none => some { s with content := fun j => if j = s.next then [] else s.content j, next := s.next + 1, live := some s.next,
                                fd := some s.next, wpc := .write buf }
    | _ => none
  | .write n =>
    match s.wpc with
    | .write buf =>
      match s.fd with
      | some i => some { s with content := fun j => if j = i then s.content j ++ buf.take n else s.content j,
                                written := s.written ++ buf.take n, wpc := .stat (buf.take n) }
      | none => some { s with wpc := .stat [] }
    | _ => none
  | .count ok =>
    match s.wpc with
    | .stat buf =>
      if s.status = .normal then
        match s.stat with
        | none =>
          match (if ok then s.fd else none) with
          | some i =>
            some { s with stat := some (s.content i).length, wpc := .idle,
                          status := if limit ≤ (s.content i).length then .triggered else s.status }
          | none => some { s with stat := none, wpc := .idle }
        | some z =>
          some { s with stat := some (z + buf.length), wpc := .idle,
                        status := if limit ≤ z + buf.length then .triggered else s.status }
      else some { s with wpc := .idle }
    | _ => none
  | .shut => if s.wpc = .idle then some { s with fd := none } else none
  | .loop d => if s.rpc = .top then some { s with rpc := .wait, armed := if 0 < d then true else s.armed } else none
  | .fire => if s.rpc = .wait ∧ s.armed = true then some { s with rpc := .archive, armed := false } else none
  | .rename name ok =>
    if s.rpc = .archive then
      if !ok then some { s with rpc := .top, armed := true }
      else match s.live with
        | some i => some { s with live := none, archives := s.archives.filter (fun a => a.1 != name) ++ [(name, i)], moved := s.moved ++ [i],
                                  rpc := .list }
        | none => some { s with rpc := .store }
    else none
  | .list ok =>
    if s.rpc = .list then
      if !ok then some { s with rpc := .top, armed := true } else some { s with rpc := .store }
    else none
  | .store => if s.rpc = .store then some { s with rpc := .purge, status := .archived } else none
  | .purge names =>
    if s.rpc = .purge then some { s with rpc := .top, archives := s.archives.filter (fun a => !names.contains a.1) } else none

/-- A run (rotation.go 98-179). -/
def run (limit : Nat) (s : St) : List Step → Option St
  | [] => some s
  | x :: xs => (step limit s x).bind fun s => run limit s xs

/-- `NewWriter` (rotation.go 81-96) with `before` in the live file; a file created anew is empty. -/
def start (before : Bytes) : St :=
  { content := fun j => if j = 0 then before else [], next := 1, live := some 0, archives := [], fd := some 0, status := .normal, stat := none,
    wpc := .idle, armed := false, rpc := .top, moved := [], written := [] }

/-! ### Specification -/

/-- What the files hold: the archives in the order in which they were made, then the live file. -/
def onDisk (s : St) : Bytes :=
  (s.archives.map fun a => s.content a.2).flatten ++ (s.live.map s.content).getD []

/-- The names archives are given in a run. -/
def names (xs : List Step) : List Nat :=
  xs.filterMap fun x => match x with
    | .rename n true => some n
    | _ => none

/-- Nothing is purged. -/
def purgesNothing (xs : List Step) : Prop := ∀ l, Step.purge l ∈ xs → l = []

/-! ### C39: nothing is lost -/

/-- What holds at any time. -/
structure Inv (before : Bytes) (s : St) : Prop where
  sum : (s.moved.map s.content).flatten ++ (s.live.map s.content).getD [] = before ++ s.written
  fd_ok : ∀ i, s.fd = some i → s.live = some i ∨ (s.live = none ∧ s.moved.getLast? = some i)
  nodup : s.moved.Nodup
  old : ∀ i ∈ s.moved, i < s.next
  live_ok : ∀ i, s.live = some i → i ∉ s.moved ∧ i < s.next
  closed : ∀ buf, s.wpc = .open_ buf ∨ s.wpc = .create buf → s.fd = none
  absent : ∀ buf, s.wpc = .create buf → s.live = none

theorem inv_start (before : Bytes) : Inv before (start before) := by
  refine ⟨by simp [start], ?_, by simp [start], by simp [start], ?_, ?_, ?_⟩
  · intro i h; exact Or.inl h
  · intro i h
    simp only [start, Option.some.injEq] at h
    subst h
    simp [start]
  · intro buf h; rcases h with h | h <;> simp [start] at h
  · intro buf h; simp [start] at h

theorem map_content_other (l : List Nat) (f : Nat → Bytes) (i : Nat) (c : Bytes) (h : i ∉ l) :
    l.map (fun j => if j = i then c else f j) = l.map f := by
  apply List.map_congr_left
  intro j hj
  rw [if_neg]
  rintro rfl
  exact h hj

theorem append_last (l : List Nat) (f : Nat → Bytes) (i : Nat) (b : Bytes) (hn : l.Nodup) (h : l.getLast? = some i) :
    (l.map (fun j => if j = i then f j ++ b else f j)).flatten = (l.map f).flatten ++ b := by
  obtain ⟨t, rfl⟩ := List.getLast?_eq_some_iff.mp h
  have hi : i ∉ t := by
    rw [List.nodup_append] at hn
    intro hm
    exact hn.2.2 i hm i (by simp) rfl
  have ht : t.map (fun j => if j = i then f j ++ b else f j) = t.map f := by
    apply List.map_congr_left
    intro j hj
    rw [if_neg]
    rintro rfl
    exact hi hj
  simp [ht]

theorem append_live (f : Nat → Bytes) (i : Nat) (b : Bytes) (l : List Nat) (h : i ∉ l) :
    l.map (fun j => if j = i then f j ++ b else f j) = l.map f := by
  apply List.map_congr_left
  intro j hj
  rw [if_neg]
  rintro rfl
  exact h hj

theorem inv_step (limit : Nat) (before : Bytes) (s : St) (x : Step) (s' : St) (h : step limit s x = some s') (hi : Inv before s) : Inv before s' := by
  obtain ⟨h1, h2, h3, h4, h5, h6, h7⟩ := hi
  cases x with
  | call buf =>
    simp only [step] at h
    split at h
    · injection h with h; subst h
      refine ⟨h1, h2, h3, h4, h5, ?_, ?_⟩
      · intro b hb
        by_cases ha : s.status = .archived <;> simp [ha] at hb
      · intro b hb
        by_cases ha : s.status = .archived <;> simp [ha] at hb
    · cases h
  | close =>
    simp only [step] at h
    split at h
    · injection h with h; subst h
      exact ⟨h1, (by intro i hi; cases hi), h3, h4, h5, fun _ _ => rfl, (by intro b hb; cases hb)⟩
    · cases h
  | open_ ok =>
    simp only [step] at h
    split at h
    · rename_i buf hw
      split at h
      · injection h with h; subst h
        exact ⟨h1, h2, h3, h4, h5, (by rintro b (hb | hb) <;> cases hb), (by intro b hb; cases hb)⟩
      · split at h
        · rename_i i hl
          injection h with h; subst h
          refine ⟨h1, ?_, h3, h4, h5, (by rintro b (hb | hb) <;> cases hb), (by intro b hb; cases hb)⟩
          intro j hj
          left
          simp only [Option.some.injEq] at hj
          rw [← hj]; exact hl
        · rename_i hl
          injection h with h; subst h
          exact ⟨h1, h2, h3, h4, h5, fun _ _ => h6 buf (Or.inl hw), fun _ _ => hl⟩
    · cases h
  | create ok =>
    simp only [step] at h
    split at h
    · rename_i buf hw
      split at h
      · injection h with h; subst h
        exact ⟨h1, h2, h3, h4, h5, (by rintro b (hb | hb) <;> cases hb), (by intro b hb; cases hb)⟩
      · rw [h7 buf hw] at h
        simp only [Option.some.injEq] at h
        subst h
        have hnot : s.next ∉ s.moved := fun hm => Nat.lt_irrefl _ (h4 _ hm)
        refine ⟨?_, ?_, h3, ?_, ?_, (by rintro b (hb | hb) <;> cases hb), (by intro b hb; cases hb)⟩
        · simp only [map_content_other _ _ _ _ hnot, Option.map_some, if_true, Option.getD_some]
          have := h1
          rw [h7 buf hw] at this
          exact this
        · intro i hi; exact Or.inl hi
        · intro i hi; exact Nat.lt_succ_of_lt (h4 i hi)
        · intro i hi
          simp only [Option.some.injEq] at hi
          subst hi
          exact ⟨hnot, Nat.lt_succ_self _⟩
    · cases h
  | write n =>
    simp only [step] at h
    split at h
    · rename_i buf hw
      split at h
      · rename_i i hfd
        injection h with h; subst h
        refine ⟨?_, h2, h3, h4, h5, (by rintro b (hb | hb) <;> cases hb), (by intro b hb; cases hb)⟩
        simp only
        rcases h2 i hfd with hl | ⟨hl, hm⟩
        · rw [hl] at h1 ⊢
          rw [append_live _ _ _ _ (h5 i hl).1]
          simp only [Option.map_some, Option.getD_some, if_true] at h1 ⊢
          rw [← List.append_assoc, ← List.append_assoc, h1]
        · rw [hl] at h1 ⊢
          rw [append_last _ _ _ _ h3 hm]
          simp only [Option.map_none, Option.getD_none, List.append_nil] at h1 ⊢
          rw [h1, List.append_assoc]
      · injection h with h; subst h
        exact ⟨h1, h2, h3, h4, h5, (by rintro b (hb | hb) <;> cases hb), (by intro b hb; cases hb)⟩
    · cases h
  | count ok =>
    simp only [step] at h
    split at h
    · split at h
      · split at h
        · split at h
          · injection h with h; subst h
            exact ⟨h1, h2, h3, h4, h5, (by rintro b (hb | hb) <;> cases hb), (by intro b hb; cases hb)⟩
          · injection h with h; subst h
            exact ⟨h1, h2, h3, h4, h5, (by rintro b (hb | hb) <;> cases hb), (by intro b hb; cases hb)⟩
        · injection h with h; subst h
          exact ⟨h1, h2, h3, h4, h5, (by rintro b (hb | hb) <;> cases hb), (by intro b hb; cases hb)⟩
      · injection h with h; subst h
        exact ⟨h1, h2, h3, h4, h5, (by rintro b (hb | hb) <;> cases hb), (by intro b hb; cases hb)⟩
    · cases h
  | shut =>
    simp only [step] at h
    split at h
    · injection h with h; subst h
      exact ⟨h1, (by intro i hi; cases hi), h3, h4, h5, fun _ _ => rfl, h7⟩
    · cases h
  | loop d =>
    simp only [step] at h
    split at h
    · injection h with h; subst h; exact ⟨h1, h2, h3, h4, h5, h6, h7⟩
    · cases h
  | fire =>
    simp only [step] at h
    split at h
    · injection h with h; subst h; exact ⟨h1, h2, h3, h4, h5, h6, h7⟩
    · cases h
  | rename name ok =>
    simp only [step] at h
    split at h
    · split at h
      · injection h with h; subst h; exact ⟨h1, h2, h3, h4, h5, h6, h7⟩
      · split at h
        · rename_i i hl
          injection h with h; subst h
          refine ⟨?_, ?_, ?_, ?_, (by intro j hj; cases hj), h6, fun _ _ => rfl⟩
          · rw [hl] at h1
            simp only [Option.map_some, Option.getD_some] at h1
            simp [← h1]
          · intro j hj
            right
            refine ⟨rfl, ?_⟩
            rcases h2 j hj with hl2 | ⟨hl2, _⟩
            · rw [hl] at hl2
              simp only [Option.some.injEq] at hl2
              simp [hl2]
            · rw [hl] at hl2; cases hl2
          · rw [List.nodup_append]
            refine ⟨h3, by simp, ?_⟩
            intro a ha b hb
            simp only [List.mem_singleton] at hb
            subst hb
            rintro rfl
            exact (h5 _ hl).1 ha
          · intro j hj
            rcases List.mem_append.mp hj with hj | hj
            · exact h4 j hj
            · simp only [List.mem_singleton] at hj
              subst hj
              exact (h5 _ hl).2
        · injection h with h; subst h; exact ⟨h1, h2, h3, h4, h5, h6, h7⟩
    · cases h
  | list ok =>
    simp only [step] at h
    split at h
    · split at h <;> (injection h with h; subst h; exact ⟨h1, h2, h3, h4, h5, h6, h7⟩)
    · cases h
  | store =>
    simp only [step] at h
    split at h
    · injection h with h; subst h; exact ⟨h1, h2, h3, h4, h5, h6, h7⟩
    · cases h
  | purge l =>
    simp only [step] at h
    split at h
    · injection h with h; subst h; exact ⟨h1, h2, h3, h4, h5, h6, h7⟩
    · cases h

/-- The archives are the moved files as long as names are not reused and nothing is purged. -/
theorem archives_step (limit : Nat) (s : St) (x : Step) (s' : St) (used : List Nat) (h : step limit s x = some s')
    (ha : s.archives.map Prod.snd = s.moved) (hu : ∀ a ∈ s.archives, a.1 ∈ used)
    (hnew : ∀ n, x = .rename n true → n ∉ used) (hp : ∀ l, x = .purge l → l = []) :
    s'.archives.map Prod.snd = s'.moved ∧ ∀ a ∈ s'.archives, a.1 ∈ used ++ names [x] := by
  have keep : s'.archives = s.archives → s'.moved = s.moved →
      s'.archives.map Prod.snd = s'.moved ∧ ∀ a ∈ s'.archives, a.1 ∈ used ++ names [x] := by
    intro e1 e2
    rw [e1, e2]
    exact ⟨ha, fun a h => List.mem_append_left _ (hu a h)⟩
  cases x with
  | rename name ok =>
    simp only [step] at h
    split at h
    · split at h
      · injection h with h; subst h; exact keep rfl rfl
      · rename_i hok
        have hok : ok = true := by cases ok <;> simp_all
        subst hok
        split at h
        · rename_i i hl
          injection h with h; subst h
          have hf : s.archives.filter (fun a => a.1 != name) = s.archives := by
            apply List.filter_eq_self.mpr
            intro a hm
            simp only [bne_iff_ne]
            intro he
            exact hnew name rfl (he ▸ hu a hm)
          refine ⟨by simp [hf, ha], ?_⟩
          intro a hm
          simp only [hf] at hm
          rcases List.mem_append.mp hm with hm | hm
          · exact List.mem_append_left _ (hu a hm)
          · simp only [List.mem_singleton] at hm
            subst hm
            simp [names]
        · injection h with h; subst h; exact keep rfl rfl
    · cases h
  | purge l =>
    have hl := hp l rfl
    subst hl
    simp only [step] at h
    split at h
    · injection h with h; subst h
      refine keep ?_ rfl
      simp
    · cases h
  | call buf =>
    simp only [step] at h
    split at h
    · injection h with h; subst h; exact keep rfl rfl
    · cases h
  | close =>
    simp only [step] at h
    split at h
    · injection h with h; subst h; exact keep rfl rfl
    · cases h
  | open_ ok =>
    simp only [step] at h
    split at h
    · split at h
      · injection h with h; subst h; exact keep rfl rfl
      · split at h <;> (injection h with h; subst h; exact keep rfl rfl)
    · cases h
  | create ok =>
    simp only [step] at h
    split at h
    · split at h
      · injection h with h; subst h; exact keep rfl rfl
      · split at h <;> (injection h with h; subst h; exact keep rfl rfl)
    · cases h
  | write n =>
    simp only [step] at h
    split at h
    · split at h <;> (injection h with h; subst h; exact keep rfl rfl)
    · cases h
  | count ok =>
    simp only [step] at h
    split at h
    · split at h
      · split at h
        · split at h <;> (injection h with h; subst h; exact keep rfl rfl)
        · injection h with h; subst h; exact keep rfl rfl
      · injection h with h; subst h; exact keep rfl rfl
    · cases h
  | shut =>
    simp only [step] at h
    split at h
    · injection h with h; subst h; exact keep rfl rfl
    · cases h
  | loop d =>
    simp only [step] at h
    split at h
    · injection h with h; subst h; exact keep rfl rfl
    · cases h
  | fire =>
    simp only [step] at h
    split at h
    · injection h with h; subst h; exact keep rfl rfl
    · cases h
  | list ok =>
    simp only [step] at h
    split at h
    · split at h <;> (injection h with h; subst h; exact keep rfl rfl)
    · cases h
  | store =>
    simp only [step] at h
    split at h
    · injection h with h; subst h; exact keep rfl rfl
    · cases h

theorem names_cons (x : Step) (xs : List Step) : names (x :: xs) = names [x] ++ names xs := by
  unfold names
  rw [List.filterMap_cons, List.filterMap_cons]
  split <;> simp

theorem run_ok (limit : Nat) (before : Bytes) (xs : List Step) (s s' : St) (used : List Nat) (h : run limit s xs = some s') (hi : Inv before s)
    (ha : s.archives.map Prod.snd = s.moved) (hu : ∀ a ∈ s.archives, a.1 ∈ used) (hn : (used ++ names xs).Nodup) (hp : purgesNothing xs) :
    Inv before s' ∧ s'.archives.map Prod.snd = s'.moved := by
  induction xs generalizing s used with
  | nil =>
    simp only [run, Option.some.injEq] at h
    subst h
    exact ⟨hi, ha⟩
  | cons x xs ih =>
    simp only [run, Option.bind_eq_some_iff] at h
    obtain ⟨t, ht, h⟩ := h
    rw [names_cons, ← List.append_assoc] at hn
    have hfresh : ∀ n, x = .rename n true → n ∉ used := by
      rintro n rfl hm
      have h2 := (List.nodup_append.mp (List.nodup_append.mp hn).1).2.2
      exact h2 n hm n (by simp [names]) rfl
    obtain ⟨ha', hu'⟩ := archives_step limit s x t used ht ha hu hfresh (by rintro l rfl; exact hp l (List.mem_cons_self ..))
    exact ih t (used ++ names [x]) h (inv_step limit before s x t ht hi) ha' hu' hn (fun l hl => hp l (List.mem_cons_of_mem _ hl))

/-- C39: whatever the interleaving of writes and background rotation, and whichever system calls fail, the archives in
order followed by the live file hold exactly what the live file held at the start followed by
every byte reported as written - if archives are given different names and none is purged. -/
theorem nothing_lost (limit : Nat) (before : Bytes) (xs : List Step) (s : St) (h : run limit (start before) xs = some s)
    (hn : (names xs).Nodup) (hp : purgesNothing xs) : onDisk s = before ++ s.written := by
  obtain ⟨hi, ha⟩ := run_ok limit before xs (start before) s [] h (inv_start before) (by simp [start]) (by simp [start]) (by simpa using hn) hp
  rw [← hi.sum, ← ha]
  simp [onDisk, Function.comp_def]

/-- A rotation between two writes, the second split by a rotation that finds no file. -/
def exRun : List Step :=
  [.loop 1, .call [1, 2], .fire, .rename 7 true, .write 2, .list true, .store, .count true, .call [3], .purge [], .close, .loop 1, .fire,
   .rename 8 true, .open_ true, .store, .create true, .write 1, .count true]

example : (run 1024 (start [0]) exRun).map (fun s => (onDisk s, s.written, s.archives.map Prod.fst)) = some ([0, 1, 2, 3], [1, 2, 3], [7]) := by
  decide +kernel

example : (names exRun).Nodup ∧ purgesNothing exRun := by
  refine ⟨by decide, ?_⟩
  intro l hl
  simp [exRun] at hl
  exact hl

/-- Without different names C39 fails: the second archive replaces the first. -/
theorem same_name_loses : ∃ xs s, run 1024 (start []) xs = some s ∧ purgesNothing xs ∧ onDisk s ≠ s.written := by
  have h : (run 1024 (start []) [.call [1], .write 1, .count true, .loop 1, .fire, .rename 7 true, .list true, .store, .purge [], .call [2], .close,
      .open_ true, .create true, .write 1, .count true, .loop 1, .fire, .rename 7 true]).map (fun s => (onDisk s, s.written)) = some ([2], [1, 2]) := by
    decide +kernel
  obtain ⟨s, hs, he⟩ := Option.map_eq_some_iff.mp h
  refine ⟨_, s, hs, ?_, ?_⟩
  · intro l hl
    simp at hl
    exact hl
  · injection he with h1 h2
    rw [h1, h2]
    decide

/-- A purge may also take what is written after it: the writer still holds the purged file. -/
theorem written_after_purge_lost : ∃ xs s, run 1024 (start []) xs = some s ∧ (names xs).Nodup ∧
    (∃ pre post, xs = pre ++ [Step.purge [7]] ++ post ∧ Step.write 1 ∈ post ∧ ∀ n, Step.write n ∉ pre) ∧ onDisk s ≠ s.written := by
  have h : (run 1024 (start []) [.call [1], .loop 1, .fire, .rename 7 true, .list true, .store, .purge [7], .write 1]).map (fun s => (onDisk s, s.written)) =
      some ([], [1]) := by decide +kernel
  obtain ⟨s, hs, he⟩ := Option.map_eq_some_iff.mp h
  refine ⟨_, s, hs, by decide, ⟨[.call [1], .loop 1, .fire, .rename 7 true, .list true, .store], [.write 1], rfl, by simp, by simp⟩, ?_⟩
  injection he with h1 h2
  rw [h1, h2]
  decide

end Verif.Rotation
