import Verif.Output.Rotation
import Mathlib.Data.List.Nodup
import Mathlib.Data.List.Perm.Subperm

/-!
# C40-C42: when the writer rotates and what it keeps
-/

namespace Verif.Rotation

/-! ### C40: the size trigger -/

/-- What a run does to the size count while no rotation has completed: `fd` is the file of the start or closed, and the count is its size. -/
structure Counted (limit : Nat) (s : St) : Prop where
  notArchived : s.status ≠ .archived
  pc : ∀ buf, s.wpc ≠ .close buf ∧ s.wpc ≠ .open_ buf ∧ s.wpc ≠ .create buf
  fd0 : ∀ i, s.fd = some i → i = 0
  reached : s.status = .triggered → limit ≤ (s.content 0).length
  exact_ : ∀ z, s.status = .normal → s.stat = some z →
    z < limit ∧ ((∀ buf, s.wpc ≠ .stat buf) → z = (s.content 0).length) ∧ (∀ buf, s.wpc = .stat buf → z + buf.length = (s.content 0).length)

theorem counted_start (limit : Nat) (before : Bytes) : Counted limit (start before) := by
  refine ⟨by simp [start], by simp [start], ?_, by simp [start], ?_⟩
  · intro i h
    simp only [start, Option.some.injEq] at h
    exact h.symm
  · intro z _ h
    simp [start] at h

theorem counted_step (limit : Nat) (s : St) (x : Step) (s' : St) (h : step limit s x = some s') (hc : Counted limit s) (hx : x ≠ .store) :
    Counted limit s' := by
  obtain ⟨h1, h2, h3, h4, h5⟩ := hc
  cases x with
  | call buf =>
    simp only [step] at h
    split at h
    · rename_i hw
      injection h with h; subst h
      refine ⟨h1, (by intro b; simp), h3, h4, ?_⟩
      intro z hn hz
      have := h5 z hn hz
      refine ⟨this.1, fun _ => this.2.1 (by rw [hw]; simp), by simp⟩
    · cases h
  | close =>
    simp only [step] at h
    split at h
    · rename_i buf hw
      exact absurd hw (h2 buf).1
    · cases h
  | open_ ok =>
    simp only [step] at h
    split at h
    · rename_i buf hw
      exact absurd hw (h2 buf).2.1
    · cases h
  | create ok =>
    simp only [step] at h
    split at h
    · rename_i buf hw
      exact absurd hw (h2 buf).2.2
    · cases h
  | write n =>
    simp only [step] at h
    split at h
    · rename_i buf hw
      split at h
      · rename_i i hfd
        have hi0 := h3 i hfd
        subst hi0
        injection h with h; subst h
        refine ⟨h1, (by intro b; simp), h3, ?_, ?_⟩
        · intro ht
          have := h4 ht
          simp only [if_true, List.length_append]
          omega
        · intro z hn hz
          have := h5 z hn hz
          refine ⟨this.1, by simp, ?_⟩
          intro b hb
          simp only [WPc.stat.injEq] at hb
          subst hb
          have he := this.2.1 (by rw [hw]; simp)
          simp only [if_true, List.length_append]
          omega
      · injection h with h; subst h
        refine ⟨h1, (by intro b; simp), h3, h4, ?_⟩
        intro z hn hz
        have := h5 z hn hz
        refine ⟨this.1, by simp, ?_⟩
        intro b hb
        simp only [WPc.stat.injEq] at hb
        subst hb
        have he := this.2.1 (by rw [hw]; simp)
        simpa using he
    · cases h
  | count ok =>
    simp only [step] at h
    split at h
    · rename_i buf hw
      split at h
      · rename_i hnorm
        split at h
        · split at h
          · rename_i i hfd
            have hi0 : i = 0 := by
              cases ok with
              | true => exact h3 i (by simpa using hfd)
              | false => simp at hfd
            subst hi0
            injection h with h; subst h
            refine ⟨?_, (by intro b; simp), h3, ?_, ?_⟩
            · simp only
              split
              · exact fun h => by cases h
              · exact h1
            · simp only
              intro ht
              split at ht
              · assumption
              · rw [hnorm] at ht; cases ht
            · intro z hn hz
              simp only at hn hz
              split at hn
              · cases hn
              · rename_i hlt
                simp only [Option.some.injEq] at hz
                subst hz
                exact ⟨Nat.lt_of_not_le hlt, fun _ => rfl, by simp⟩
          · injection h with h; subst h
            refine ⟨h1, (by intro b; simp), h3, h4, ?_⟩
            intro z _ hz
            cases hz
        · rename_i z hz
          have hzz := h5 z hnorm hz
          have hsum := hzz.2.2 buf hw
          injection h with h; subst h
          refine ⟨?_, (by intro b; simp), h3, ?_, ?_⟩
          · simp only
            split
            · exact fun h => by cases h
            · exact h1
          · simp only
            intro ht
            split at ht
            · omega
            · rw [hnorm] at ht; cases ht
          · intro z' hn hz'
            simp only at hn hz'
            split at hn
            · cases hn
            · rename_i hlt
              simp only [Option.some.injEq] at hz'
              subst hz'
              exact ⟨Nat.lt_of_not_le hlt, fun _ => hsum, by simp⟩
      · rename_i hnn
        injection h with h; subst h
        refine ⟨h1, (by intro b; simp), h3, h4, ?_⟩
        intro z hn _
        exact absurd hn hnn
    · cases h
  | shut =>
    simp only [step] at h
    split at h
    · injection h with h; subst h
      exact ⟨h1, h2, (by intro i hi; cases hi), h4, h5⟩
    · cases h
  | loop d =>
    simp only [step] at h
    split at h
    · injection h with h; subst h; exact ⟨h1, h2, h3, h4, h5⟩
    · cases h
  | fire =>
    simp only [step] at h
    split at h
    · injection h with h; subst h; exact ⟨h1, h2, h3, h4, h5⟩
    · cases h
  | rename name ok =>
    simp only [step] at h
    split at h
    · split at h
      · injection h with h; subst h; exact ⟨h1, h2, h3, h4, h5⟩
      · split at h <;> (injection h with h; subst h; exact ⟨h1, h2, h3, h4, h5⟩)
    · cases h
  | list ok =>
    simp only [step] at h
    split at h
    · split at h <;> (injection h with h; subst h; exact ⟨h1, h2, h3, h4, h5⟩)
    · cases h
  | store => exact absurd rfl hx
  | purge l =>
    simp only [step] at h
    split at h
    · injection h with h; subst h; exact ⟨h1, h2, h3, h4, h5⟩
    · cases h

theorem counted_run (limit : Nat) (xs : List Step) (s s' : St) (h : run limit s xs = some s') (hc : Counted limit s) (hx : Step.store ∉ xs) :
    Counted limit s' := by
  induction xs generalizing s with
  | nil =>
    simp only [run, Option.some.injEq] at h
    subst h
    exact hc
  | cons x xs ih =>
    simp only [run, Option.bind_eq_some_iff] at h
    obtain ⟨t, ht, h⟩ := h
    rw [List.mem_cons, not_or] at hx
    exact ih t h (counted_step limit s x t ht hc (fun h => hx.1 h.symm)) hx.2

/-- C40 (partly): until the first rotation completes, the trigger is raised exactly when the file has reached the configured size:
if raised, the file is at least that large; if it is not and a size was taken at all, the count is the size of the file, below the limit. -/
theorem size_counted_partial (limit : Nat) (before : Bytes) (xs : List Step) (s : St) (h : run limit (start before) xs = some s)
    (hx : Step.store ∉ xs) (hidle : s.wpc = .idle) :
    (s.status = .triggered → limit ≤ (s.content 0).length) ∧
    (s.status = .normal → ∀ z, s.stat = some z → z = (s.content 0).length ∧ z < limit) := by
  have hc := counted_run limit xs _ s h (counted_start limit before) hx
  refine ⟨hc.reached, ?_⟩
  intro hn z hz
  have := hc.exact_ z hn hz
  exact ⟨this.2.1 (by rw [hidle]; simp), this.1⟩

/-- 3 bytes in the file, limit 4: the second byte raises the trigger. -/
example : (run 4 (start [1, 2]) [.call [3], .write 1, .count true]).map (fun s => (s.status, s.stat)) = some (.normal, some 3) ∧
    (run 4 (start [1, 2]) [.call [3], .write 1, .count true, .call [4], .write 1, .count true]).map (fun s => (s.status, s.stat)) =
      some (.triggered, some 4) := by decide +kernel

/-- No timer is ever set. -/
def noTimer (xs : List Step) : Prop := ∀ d, Step.loop d ∈ xs → d ≤ 0

/-- What holds without a timer. -/
def Asleep (s : St) : Prop := s.armed = false ∧ (s.rpc = .top ∨ s.rpc = .wait) ∧ s.archives = [] ∧ s.status ≠ .archived ∧ s.live = some 0

theorem asleep_step (limit : Nat) (s : St) (x : Step) (s' : St) (h : step limit s x = some s') (ha : Asleep s) (hd : ∀ d, x = .loop d → d ≤ 0)
    (hpc : ∀ buf, s.wpc ≠ .close buf ∧ s.wpc ≠ .open_ buf ∧ s.wpc ≠ .create buf) : Asleep s' := by
  obtain ⟨h1, h2, h3, h4, h5⟩ := ha
  have hr : s.rpc ≠ .archive ∧ s.rpc ≠ .list ∧ s.rpc ≠ .store ∧ s.rpc ≠ .purge := by
    rcases h2 with h2 | h2 <;> rw [h2] <;> simp
  cases x with
  | call buf =>
    simp only [step] at h
    split at h
    · injection h with h; subst h; exact ⟨h1, h2, h3, h4, h5⟩
    · cases h
  | close =>
    simp only [step] at h
    split at h
    · rename_i buf hw; exact absurd hw (hpc buf).1
    · cases h
  | open_ ok =>
    simp only [step] at h
    split at h
    · rename_i buf hw; exact absurd hw (hpc buf).2.1
    · cases h
  | create ok =>
    simp only [step] at h
    split at h
    · rename_i buf hw; exact absurd hw (hpc buf).2.2
    · cases h
  | write n =>
    simp only [step] at h
    split at h
    · split at h <;> (injection h with h; subst h; exact ⟨h1, h2, h3, h4, h5⟩)
    · cases h
  | count ok =>
    simp only [step] at h
    split at h
    · split at h
      · split at h
        · split at h
          · injection h with h; subst h
            refine ⟨h1, h2, h3, ?_, h5⟩
            simp only
            split
            · exact fun h => by cases h
            · exact h4
          · injection h with h; subst h; exact ⟨h1, h2, h3, h4, h5⟩
        · injection h with h; subst h
          refine ⟨h1, h2, h3, ?_, h5⟩
          simp only
          split
          · exact fun h => by cases h
          · exact h4
      · injection h with h; subst h; exact ⟨h1, h2, h3, h4, h5⟩
    · cases h
  | shut =>
    simp only [step] at h
    split at h
    · injection h with h; subst h; exact ⟨h1, h2, h3, h4, h5⟩
    · cases h
  | loop d =>
    have hd := hd d rfl
    simp only [step] at h
    split at h
    · injection h with h; subst h
      refine ⟨?_, Or.inr rfl, h3, h4, h5⟩
      simp only
      rw [if_neg (by omega)]
      exact h1
    · cases h
  | fire =>
    simp only [step, h1] at h
    simp at h
  | rename name ok =>
    simp only [step] at h
    rw [if_neg hr.1] at h
    cases h
  | list ok =>
    simp only [step] at h
    rw [if_neg hr.2.1] at h
    cases h
  | store =>
    simp only [step] at h
    rw [if_neg hr.2.2.1] at h
    cases h
  | purge l =>
    simp only [step] at h
    rw [if_neg hr.2.2.2] at h
    cases h

/-- C40 is false: with a trigger that only watches the size (it asks for no timer), however much is written and whatever is triggered, nothing is
ever archived. -/
theorem size_trigger_never_archives (limit : Nat) (before : Bytes) (xs : List Step) (s : St) (h : run limit (start before) xs = some s)
    (hd : noTimer xs) : s.archives = [] ∧ s.live = some 0 ∧ s.status ≠ .archived := by
  have hmain : ∀ (xs : List Step) (s s' : St), run limit s xs = some s' → noTimer xs → Asleep s → Counted limit s → Asleep s' := by
    intro xs
    induction xs with
    | nil =>
      intro s s' h _ ha _
      simp only [run, Option.some.injEq] at h
      subst h
      exact ha
    | cons x xs ih =>
      intro s s' h hd ha hc
      simp only [run, Option.bind_eq_some_iff] at h
      obtain ⟨t, ht, h⟩ := h
      have hxs : x ≠ .store := by
        rintro rfl
        simp only [step] at ht
        split at ht
        · rename_i hs
          rcases ha.2.1 with h | h <;> rw [h] at hs <;> cases hs
        · cases ht
      exact ih t s' h (fun d hm => hd d (List.mem_cons_of_mem _ hm))
        (asleep_step limit s x t ht ha (by rintro d rfl; exact hd d (List.mem_cons_self ..)) hc.pc) (counted_step limit s x t ht hc hxs)
  have := hmain xs (start before) s h hd (by simp [Asleep, start]) (counted_start limit before)
  exact ⟨this.2.2.1, this.2.2.2.2, this.2.2.2.1⟩

/-- The limit is 1, three bytes are written, the trigger is up. -/
example : (run 1 (start []) [.loop 0, .call [1, 2, 3], .write 3, .count true]).map (fun s => (s.status, s.archives)) = some (.triggered, []) := by
  decide +kernel

/-- C40 is false of size accounting too: once triggered or archived, the status never returns to normal and the size is never counted again. -/
theorem never_counted_again (limit : Nat) (xs : List Step) (s s' : St) (h : run limit s xs = some s') (hs : s.status ≠ .normal) :
    s'.status ≠ .normal ∧ s'.stat = s.stat := by
  induction xs generalizing s with
  | nil =>
    simp only [run, Option.some.injEq] at h
    subst h
    exact ⟨hs, rfl⟩
  | cons x xs ih =>
    simp only [run, Option.bind_eq_some_iff] at h
    obtain ⟨t, ht, h⟩ := h
    have key : t.status ≠ .normal ∧ t.stat = s.stat := by
      cases x with
      | call buf =>
        simp only [step] at ht
        split at ht
        · injection ht with ht; subst ht; exact ⟨hs, rfl⟩
        · cases ht
      | close =>
        simp only [step] at ht
        split at ht
        · injection ht with ht; subst ht; exact ⟨hs, rfl⟩
        · cases ht
      | open_ ok =>
        simp only [step] at ht
        split at ht
        · split at ht
          · injection ht with ht; subst ht; exact ⟨hs, rfl⟩
          · split at ht <;> (injection ht with ht; subst ht; exact ⟨hs, rfl⟩)
        · cases ht
      | create ok =>
        simp only [step] at ht
        split at ht
        · split at ht
          · injection ht with ht; subst ht; exact ⟨hs, rfl⟩
          · split at ht <;> (injection ht with ht; subst ht; exact ⟨hs, rfl⟩)
        · cases ht
      | write n =>
        simp only [step] at ht
        split at ht
        · split at ht <;> (injection ht with ht; subst ht; exact ⟨hs, rfl⟩)
        · cases ht
      | count ok =>
        simp only [step] at ht
        split at ht
        · rw [if_neg hs] at ht
          injection ht with ht; subst ht; exact ⟨hs, rfl⟩
        · cases ht
      | shut =>
        simp only [step] at ht
        split at ht
        · injection ht with ht; subst ht; exact ⟨hs, rfl⟩
        · cases ht
      | loop d =>
        simp only [step] at ht
        split at ht
        · injection ht with ht; subst ht; exact ⟨hs, rfl⟩
        · cases ht
      | fire =>
        simp only [step] at ht
        split at ht
        · injection ht with ht; subst ht; exact ⟨hs, rfl⟩
        · cases ht
      | rename name ok =>
        simp only [step] at ht
        split at ht
        · split at ht
          · injection ht with ht; subst ht; exact ⟨hs, rfl⟩
          · split at ht <;> (injection ht with ht; subst ht; exact ⟨hs, rfl⟩)
        · cases ht
      | list ok =>
        simp only [step] at ht
        split at ht
        · split at ht <;> (injection ht with ht; subst ht; exact ⟨hs, rfl⟩)
        · cases ht
      | store =>
        simp only [step] at ht
        split at ht
        · injection ht with ht; subst ht; exact ⟨(by intro h; cases h), rfl⟩
        · cases ht
      | purge l =>
        simp only [step] at ht
        split at ht
        · injection ht with ht; subst ht; exact ⟨hs, rfl⟩
        · cases ht
    obtain ⟨h1, h2⟩ := ih t h key.1
    exact ⟨h1, h2.trans key.2⟩

/-- C40 (partly): after a rotation by the timer, the next write goes to a fresh live file. -/
theorem fresh_after_rotation_partial (limit : Nat) (s : St) (buf : Bytes) (ha : s.status = .archived) (hw : s.wpc = .idle) (hl : s.live = none) :
    ∃ s', run limit s [.call buf, .close, .open_ true, .create true, .write buf.length, .count true] = some s' ∧
      s'.live = some s.next ∧ s'.content s.next = buf ∧ s'.wpc = .idle ∧ s'.archives = s.archives := by
  have hr : run limit s [.call buf, .close, .open_ true, .create true, .write buf.length, .count true] =
      some { s with content := fun j => if j = s.next then (if j = s.next then [] else s.content j) ++ buf.take buf.length else (if j = s.next then [] else s.content j),
                    next := s.next + 1, live := some s.next, fd := some s.next, wpc := .idle, written := s.written ++ buf.take buf.length } := by
    simp [run, step, hw, ha, hl]
  refine ⟨_, hr, rfl, ?_, rfl, rfl⟩
  simp

example : ∃ s, run 1 (start [1]) [.loop 1, .fire, .rename 7 true, .list true, .store] = some s ∧ s.status = .archived ∧ s.wpc = .idle ∧ s.live = none := by
  refine ⟨_, rfl, rfl, rfl, rfl⟩

/-! ### C41: retention -/

/-- An archive: its path and time, rotation.go 52-56. -/
structure Archive where
  path : Bytes
  time : Int
  deriving DecidableEq, Repr

/-- `PurgeSet`, retain_by_count.go 7-13; `none` is a panic (the slice has no spare capacity, name_by_time.go 42). -/
def purgeSet (max : Int) (archives : List Archive) : Option (List Archive) :=
  if (archives.length : Int) ≤ max then some []
  else
    let purgeCount := (archives.length : Int) - max
    if purgeCount > archives.length then none else some (archives.take purgeCount.toNat)

/-- `ListFiles`, name_by_time.go 21-55, for the names in a directory: those the pattern parses.  Sorting leaves open the order of equal times. -/
structure Listed (parse : Bytes → Option Int) (dir : List Bytes) (archives : List Archive) : Prop where
  exact_ : archives.Perm (dir.filterMap fun n => (parse n).map fun t => ⟨n, t⟩)
  sorted : archives.Pairwise fun a b => a.time ≤ b.time

/-- `Purge`, purge_by_delete.go 11-20: what is left of a directory; `fails` are the files that cannot be removed. -/
def purge (fails : Bytes → Bool) (dir : List Bytes) (set : List Archive) : List Bytes :=
  set.foldl (fun d a => if fails a.path then d else d.filter (· != a.path)) dir

theorem purge_spec (fails : Bytes → Bool) (set : List Archive) (dir : List Bytes) (n : Bytes) :
    n ∈ purge fails dir set ↔ n ∈ dir ∧ ¬ (∃ a ∈ set, a.path = n ∧ fails n = false) := by
  induction set generalizing dir with
  | nil => simp [purge]
  | cons a set ih =>
    have hs : purge fails dir (a :: set) = purge fails (if fails a.path then dir else dir.filter (· != a.path)) set := rfl
    rw [hs, ih]
    cases hf : fails a.path with
    | true =>
      simp only [if_true]
      constructor
      · rintro ⟨h1, h2⟩
        refine ⟨h1, ?_⟩
        rintro ⟨b, hb, rfl, hbf⟩
        rcases List.mem_cons.mp hb with rfl | hb
        · rw [hf] at hbf; cases hbf
        · exact h2 ⟨b, hb, rfl, hbf⟩
      · rintro ⟨h1, h2⟩
        refine ⟨h1, ?_⟩
        rintro ⟨b, hb, rfl, hbf⟩
        exact h2 ⟨b, List.mem_cons_of_mem _ hb, rfl, hbf⟩
    | false =>
      simp only [Bool.false_eq_true, if_false, List.mem_filter, bne_iff_ne]
      constructor
      · rintro ⟨⟨h1, h0⟩, h2⟩
        refine ⟨h1, ?_⟩
        rintro ⟨b, hb, rfl, hbf⟩
        rcases List.mem_cons.mp hb with rfl | hb
        · exact h0 rfl
        · exact h2 ⟨b, hb, rfl, hbf⟩
      · rintro ⟨h1, h2⟩
        refine ⟨⟨h1, ?_⟩, ?_⟩
        · rintro rfl
          exact h2 ⟨a, List.mem_cons_self .., rfl, hf⟩
        · rintro ⟨b, hb, rfl, hbf⟩
          exact h2 ⟨b, List.mem_cons_of_mem _ hb, rfl, hbf⟩

/-- C41: with a limit of at least zero, the archives are split into purged ones and kept ones; the kept are as many as the limit allows, and none is older
than any purged one; up to the limit nothing is purged. -/
theorem keeps_newest_partial (max : Nat) (parse : Bytes → Option Int) (dir : List Bytes) (archives : List Archive) (hl : Listed parse dir archives) :
    ∃ purged kept, purgeSet max archives = some purged ∧ archives = purged ++ kept ∧ kept.length = min max archives.length ∧
      (∀ p ∈ purged, ∀ k ∈ kept, p.time ≤ k.time) ∧ (archives.length ≤ max → purged = []) := by
  unfold purgeSet
  by_cases hle : archives.length ≤ max
  · rw [if_pos (by omega)]
    exact ⟨[], archives, rfl, rfl, by omega, by simp, fun _ => rfl⟩
  · rw [if_neg (by omega)]
    simp only
    rw [if_neg (by omega)]
    have hn : ((archives.length : Int) - max).toNat = archives.length - max := by omega
    rw [hn]
    refine ⟨_, archives.drop (archives.length - max), rfl, (List.take_append_drop _ _).symm, by rw [List.length_drop]; omega, ?_, fun h => absurd h hle⟩
    have hs := hl.sorted
    rw [← List.take_append_drop (archives.length - max) archives] at hs
    exact (List.pairwise_append.mp hs).2.2

/-- C41: after purging, the directory has lost exactly the purged archives, so that at most `max` archives remain; other files stay.
File names in a directory differ. -/
theorem purged_exactly_partial (max : Nat) (parse : Bytes → Option Int) (dir : List Bytes) (archives purged : List Archive) (hd : dir.Nodup)
    (hl : Listed parse dir archives) (hp : purgeSet max archives = some purged) :
    (∀ n ∈ dir, parse n = none → n ∈ purge (fun _ => false) dir purged) ∧
    (∀ a ∈ archives, a.path ∈ purge (fun _ => false) dir purged ↔ a ∉ purged) ∧
    ((purge (fun _ => false) dir purged).filter (fun n => (parse n).isSome)).length ≤ max := by
  obtain ⟨purged', kept, hp', hsplit, hlen, hord, hnone⟩ := keeps_newest_partial max parse dir archives hl
  rw [hp] at hp'
  simp only [Option.some.injEq] at hp'
  subst hp'
  have hmem : ∀ a : Archive, a ∈ archives ↔ a.path ∈ dir ∧ parse a.path = some a.time := by
    intro a
    rw [hl.exact_.mem_iff, List.mem_filterMap]
    constructor
    · rintro ⟨n, hn, he⟩
      cases hpn : parse n with
      | none => rw [hpn] at he; cases he
      | some t =>
        rw [hpn] at he
        simp only [Option.map_some, Option.some.injEq] at he
        subst he
        exact ⟨hn, hpn⟩
    · rintro ⟨hn, hpn⟩
      exact ⟨a.path, hn, by rw [hpn]; rfl⟩
  have hsame : ∀ a ∈ archives, ∀ b ∈ archives, a.path = b.path → a = b := by
    intro a ha b hb he
    have h1 := ((hmem a).mp ha).2
    have h2 := ((hmem b).mp hb).2
    rw [he, h2] at h1
    obtain ⟨pa, ta⟩ := a
    obtain ⟨pb, tb⟩ := b
    simp only [Option.some.injEq] at h1 he
    rw [he, h1]
  have hpa : ∀ a ∈ purged, a ∈ archives := by
    intro a ha; rw [hsplit]; exact List.mem_append_left _ ha
  refine ⟨?_, ?_, ?_⟩
  · intro n hn hpn
    rw [purge_spec]
    refine ⟨hn, ?_⟩
    rintro ⟨a, ha, rfl, _⟩
    have := ((hmem a).mp (hpa a ha)).2
    rw [hpn] at this
    cases this
  · intro a ha
    rw [purge_spec]
    constructor
    · rintro ⟨_, h⟩ hap
      exact h ⟨a, hap, rfl, rfl⟩
    · intro hna
      refine ⟨((hmem a).mp ha).1, ?_⟩
      rintro ⟨b, hb, he, _⟩
      exact hna (hsame b (hpa b hb) a ha he ▸ hb)
  · -- the names left over are those of the kept archives
    have hnd : ((purge (fun _ => false) dir purged).filter (fun n => (parse n).isSome)).Nodup := by
      apply List.Nodup.filter
      have : ∀ (set : List Archive) (d : List Bytes), d.Nodup → (purge (fun _ => false) d set).Nodup := by
        intro set
        induction set with
        | nil => intro d h; exact h
        | cons a set ih =>
          intro d h
          exact ih _ (h.filter _)
      exact this purged dir hd
    have hsub : (purge (fun _ => false) dir purged).filter (fun n => (parse n).isSome) ⊆ kept.map Archive.path := by
      intro n hn
      obtain ⟨h1, h2⟩ := List.mem_filter.mp hn
      rw [purge_spec] at h1
      obtain ⟨t, ht⟩ := Option.isSome_iff_exists.mp h2
      have ha : (⟨n, t⟩ : Archive) ∈ archives := (hmem _).mpr ⟨h1.1, ht⟩
      rw [hsplit] at ha
      rcases List.mem_append.mp ha with ha | ha
      · exact absurd ⟨_, ha, rfl, rfl⟩ h1.2
      · exact List.mem_map.mpr ⟨_, ha, rfl⟩
    have hle := List.Subperm.length_le (List.subperm_of_subset hnd hsub)
    rw [List.length_map] at hle
    omega

/-- Three archives, limit 2. -/
example : purgeSet 2 [⟨[1], 10⟩, ⟨[2], 20⟩, ⟨[3], 30⟩] = some [⟨[1], 10⟩] := by decide

/-- A listing meeting the hypotheses. -/
example : Listed (fun n => if n = [9] then none else some (n.length : Int)) [[1, 1], [9], [1]] [⟨[1], 1⟩, ⟨[1, 1], 2⟩] := by
  constructor
  · exact List.Perm.swap _ _ _
  · decide

/-- A negative limit is not refused: if there is anything to purge, `PurgeSet` panics. -/
theorem negative_limit_panics (max : Int) (archives : List Archive) (h : max < 0) : purgeSet max archives = none := by
  unfold purgeSet
  rw [if_neg (by omega)]
  simp only
  rw [if_pos (by omega)]

/-! ### C42: the interval trigger -/

/-- `TimeToTrigger`, trigger_by_interval.go 17-20, in nanoseconds: 64-bit product and remainder; `epoch` is the time in whole seconds. -/
def timeToTrigger (interval epoch : Int) : Int := interval - (Int.bmod (epoch * 1000000000) (2 ^ 64)).tmod interval

/-- C42 (partly): from 1970 until 2262 the wait is positive, at most one interval, and counted from the whole second it ends at a multiple of the interval. -/
theorem wait_partial (interval epoch : Int) (hi : 0 < interval) (h0 : 0 ≤ epoch) (h1 : epoch ≤ 9223372036) :
    0 < timeToTrigger interval epoch ∧ timeToTrigger interval epoch ≤ interval ∧
      interval ∣ epoch * 1000000000 + timeToTrigger interval epoch := by
  have hb : Int.bmod (epoch * 1000000000) (2 ^ 64) = epoch * 1000000000 := by
    apply Int.bmod_eq_of_le <;> omega
  unfold timeToTrigger
  rw [hb]
  have hnn : 0 ≤ epoch * 1000000000 := by omega
  rw [Int.tmod_eq_emod_of_nonneg hnn]
  have hm1 := Int.emod_nonneg (epoch * 1000000000) (by omega : interval ≠ 0)
  have hm2 := Int.emod_lt_of_pos (epoch * 1000000000) hi
  refine ⟨by omega, by omega, ?_⟩
  have hd := Int.mul_ediv_add_emod (epoch * 1000000000) interval
  refine ⟨(epoch * 1000000000) / interval + 1, ?_⟩
  rw [Int.mul_add, Int.mul_one]
  omega

example : timeToTrigger 3600000000000 1479254400 = 3600000000000 ∧ timeToTrigger 3600000000000 1479254401 = 3599000000000 := by decide

/-- C42 is false for clock readings before 1970: the wait exceeds the interval. -/
theorem before_epoch : timeToTrigger 10000000000 (-1) = 11000000000 := by decide

/-- C42 is false from 2262 on, where the product overflows: the wait exceeds the interval. -/
theorem after_2262 : ¬ timeToTrigger 10000000000 9223372037 ≤ 10000000000 := by decide

/-- C42 is false within a second: at half a second past, the wait ends half a second past a multiple of the interval. -/
theorem fraction_ignored : ∃ now : Int, ∃ interval : Int, 0 < interval ∧ ¬ interval ∣ now + timeToTrigger interval (now / 1000000000) :=
  ⟨1500000000, 10000000000, by decide, by decide⟩

/-- What the background goroutine actually waits, rotation.go 155-157: a random part `r` below the duration is added. -/
def actualWait (interval epoch r : Int) : Int := timeToTrigger interval epoch + r

/-- C42: the goroutine waits at least until the file is due, and less than two intervals. -/
theorem actual_wait (interval epoch r : Int) (hi : 0 < interval) (h0 : 0 ≤ epoch) (h1 : epoch ≤ 9223372036) (hr : 0 ≤ r)
    (hr2 : r < timeToTrigger interval epoch) : 0 < actualWait interval epoch r ∧
      timeToTrigger interval epoch ≤ actualWait interval epoch r ∧ actualWait interval epoch r < 2 * interval := by
  have := wait_partial interval epoch hi h0 h1
  unfold actualWait
  omega

end Verif.Rotation
