import Verif.Output.BackupName
import Mathlib.Data.Finset.Card
import Mathlib.Data.Finset.Image
import Mathlib.Data.List.Chain

/-!
# C33: removing and compressing old backups

Model of `millRunOnce`, `oldLogFiles` and `compressLogFile` of countlog/output/lumberjack/lumberjack.go.
Files only: directories are skipped by the code (416-418).  Removing and compressing are taken to
succeed.
-/

namespace Verif.Lumberjack

/-! ### Model -/

/-- A backup as listed: its time in nanoseconds and its name, lumberjack.go 531-534. -/
structure LogInfo where
  time : Int
  name : Bytes
  deriving DecidableEq, Repr

/-- `strings.HasSuffix(fn, compressSuffix)`, lumberjack.go 328 and 365. -/
def isGz (n : Bytes) : Bool := (asc ".gz").isSuffixOf n

/-- lumberjack.go 327-330. -/
def baseOf (n : Bytes) : Bytes := if isGz n then n.take (n.length - 3) else n

/-- The configuration, lumberjack.go 82-110. -/
structure Config where
  maxBackups : Int
  maxAge : Int
  compress : Bool

/-- The loop at lumberjack.go 324-338: what is removed and what remains. -/
def countLoop (max : Int) : List Bytes → List LogInfo → List LogInfo × List LogInfo
  | _, [] => ([], [])
  | seen, f :: fs =>
    let seen' := if baseOf f.name ∈ seen then seen else baseOf f.name :: seen
    let r := countLoop max seen' fs
    if (seen'.length : Int) > max then (f :: r.1, r.2) else (r.1, f :: r.2)

/-- lumberjack.go 321-340. -/
def byCount (cfg : Config) (files : List LogInfo) : List LogInfo × List LogInfo :=
  if cfg.maxBackups > 0 ∧ cfg.maxBackups < files.length then countLoop cfg.maxBackups [] files else ([], files)

/-- lumberjack.go 342-343, with the wrap-around of 64-bit integers. -/
def cutoff (cfg : Config) (now : Int) : Int :=
  now + Int.bmod (-(Int.bmod (86400000000000 * cfg.maxAge) (2 ^ 64))) (2 ^ 64)

/-- lumberjack.go 341-354. -/
def byAge (cfg : Config) (now : Int) (files : List LogInfo) : List LogInfo × List LogInfo :=
  if cfg.maxAge > 0 then
    (files.filter fun f => decide (f.time < cutoff cfg now), files.filter fun f => decide (¬ f.time < cutoff cfg now))
  else ([], files)

/-- lumberjack.go 309-362: what is to be removed and what compressed. -/
def plan (cfg : Config) (now : Int) (files : List LogInfo) : List LogInfo × List LogInfo :=
  if cfg.maxBackups = 0 ∧ cfg.maxAge = 0 ∧ cfg.compress = false then ([], [])
  else
    let c := byCount cfg files
    let a := byAge cfg now c.2
    (c.1 ++ a.1, if cfg.compress then a.2.filter (fun f => !isGz f.name) else [])

/-- A directory: names and contents. -/
abbrev Dir := List (Bytes × Bytes)

/-- The content of a file (for lumberjack.go 476-527). -/
def lookup (d : Dir) (n : Bytes) : Option Bytes := (d.find? fun x => x.1 == n).map Prod.snd

/-- `os.Remove`, lumberjack.go 366. -/
def removeFile (d : Dir) (n : Bytes) : Dir := d.filter fun x => x.1 != n

/-- `compressLogFile`, lumberjack.go 476-527; `gz` stands for what gzip makes of a content. -/
def compressFile (gz : Bytes → Bytes) (d : Dir) (n : Bytes) : Dir :=
  match lookup d n with
  | none => d
  | some c => (n ++ asc ".gz", gz c) :: removeFile (removeFile d (n ++ asc ".gz")) n

/-- `millRunOnce`, lumberjack.go 309-379, with the files as listed by `oldLogFiles`. -/
def millRunOnce (cfg : Config) (gz : Bytes → Bytes) (now : Int) (files : List LogInfo) (d : Dir) : Dir :=
  let p := plan cfg now files
  (p.2.map LogInfo.name).foldl (compressFile gz) ((p.1.map LogInfo.name).foldl removeFile d)

/-- What `oldLogFiles` (lumberjack.go 405-433) may return for the log `name`: the backups in any order with the newest first
(`sort.Sort` leaves open how equal times are ordered). -/
structure Listing (name : Bytes) (d : Dir) (files : List LogInfo) : Prop where
  exact_ : ∀ f : LogInfo, f ∈ files ↔ ∃ c, (∃ x ∈ d, x.1 = f.name) ∧ backupTime name f.name = .time c ∧ f.time = c.millis * 1000000
  sorted : files.Pairwise fun f g => g.time ≤ f.time

/-! ### Specification -/

/-- The number of newer backups, a compressed backup and its original counted once. -/
def newer (files : List LogInfo) (f : LogInfo) : Nat := ((files.map LogInfo.time).toFinset.filter (f.time < ·)).card

/-- A backup is to go: too many newer ones, or too old. -/
def Expired (cfg : Config) (now : Int) (files : List LogInfo) (f : LogInfo) : Prop :=
  (0 < cfg.maxBackups ∧ cfg.maxBackups ≤ newer files f) ∨ (0 < cfg.maxAge ∧ f.time < now - 86400000000000 * cfg.maxAge)

/-- Backups are the same up to compression exactly if they have the same time. -/
def OneEach (files : List LogInfo) : Prop :=
  ∀ f ∈ files, ∀ g ∈ files, baseOf f.name = baseOf g.name ↔ f.time = g.time

/-! ### Counting -/

theorem card_eq_of_iff {α β γ : Type} [DecidableEq β] [DecidableEq γ] (u : α → β) (v : α → γ) (l : List α)
    (h : ∀ a ∈ l, ∀ b ∈ l, u a = u b ↔ v a = v b) : (l.map u).toFinset.card = (l.map v).toFinset.card := by
  induction l with
  | nil => rfl
  | cons a l ih =>
    have ih := ih fun x hx y hy => h x (List.mem_cons_of_mem _ hx) y (List.mem_cons_of_mem _ hy)
    simp only [List.map_cons, List.toFinset_cons]
    have hiff : u a ∈ (l.map u).toFinset ↔ v a ∈ (l.map v).toFinset := by
      simp only [List.mem_toFinset, List.mem_map]
      constructor
      · rintro ⟨b, hb, he⟩
        exact ⟨b, hb, (h b (List.mem_cons_of_mem _ hb) a (List.mem_cons_self ..)).mp he⟩
      · rintro ⟨b, hb, he⟩
        exact ⟨b, hb, (h b (List.mem_cons_of_mem _ hb) a (List.mem_cons_self ..)).mpr he⟩
    by_cases hm : u a ∈ (l.map u).toFinset
    · rw [Finset.insert_eq_of_mem hm, Finset.insert_eq_of_mem (hiff.mp hm), ih]
    · rw [Finset.card_insert_of_notMem hm, Finset.card_insert_of_notMem (fun h => hm (hiff.mpr h)), ih]

/-- The bases seen up to and including a file are one more than there are newer backups. -/
theorem seen_count (pre post : List LogInfo) (f : LogInfo) (hs : (pre ++ f :: post).Pairwise fun f g => g.time ≤ f.time)
    (h1 : OneEach (pre ++ f :: post)) :
    ((pre ++ [f]).map fun g => baseOf g.name).toFinset.card = newer (pre ++ f :: post) f + 1 := by
  have hsub : ∀ g ∈ pre ++ [f], g ∈ pre ++ f :: post := by
    intro g hg
    rcases List.mem_append.mp hg with hg | hg
    · exact List.mem_append_left _ hg
    · simp only [List.mem_singleton] at hg; subst hg; simp
  rw [card_eq_of_iff (fun g : LogInfo => baseOf g.name) LogInfo.time (pre ++ [f])
    (fun a ha b hb => h1 a (hsub a ha) b (hsub b hb))]
  unfold newer
  have hset : ((pre ++ [f]).map LogInfo.time).toFinset =
      insert f.time (((pre ++ f :: post).map LogInfo.time).toFinset.filter (f.time < ·)) := by
    have hpre : ∀ g ∈ pre, f.time ≤ g.time := by
      intro g hg
      exact (List.pairwise_append.mp hs).2.2 g hg f (List.mem_cons_self ..)
    have hpost : ∀ g ∈ post, g.time ≤ f.time := by
      intro g hg
      exact (List.pairwise_cons.mp (List.pairwise_append.mp hs).2.1).1 g hg
    ext t
    simp only [List.mem_toFinset, List.mem_map, Finset.mem_insert, Finset.mem_filter, List.mem_append, List.mem_cons, List.not_mem_nil, or_false]
    constructor
    · rintro ⟨g, hg | rfl, rfl⟩
      · have := hpre g hg
        by_cases he : g.time = f.time
        · exact Or.inl he
        · exact Or.inr ⟨⟨g, Or.inl hg, rfl⟩, by omega⟩
      · exact Or.inl rfl
    · rintro (rfl | ⟨⟨g, hg, rfl⟩, hlt⟩)
      · exact ⟨f, Or.inr rfl, rfl⟩
      · rcases hg with hg | rfl | hg
        · exact ⟨g, Or.inl hg, rfl⟩
        · exact ⟨g, Or.inr rfl, rfl⟩
        · have := hpost g hg
          omega
  rw [hset, Finset.card_insert_of_notMem]
  simp

theorem countLoop_spec (max : Int) (all : List LogInfo) (hs : all.Pairwise fun f g => g.time ≤ f.time) (h1 : OneEach all) :
    ∀ (suf pre : List LogInfo) (seen : List Bytes), all = pre ++ suf → seen.Nodup →
      (∀ b, b ∈ seen ↔ ∃ g ∈ pre, baseOf g.name = b) →
      (∀ f, f ∈ (countLoop max seen suf).1 ↔ f ∈ suf ∧ max ≤ newer all f) ∧
      (∀ f, f ∈ (countLoop max seen suf).2 ↔ f ∈ suf ∧ ¬ max ≤ newer all f) := by
  intro suf
  induction suf with
  | nil => intro pre seen _ _ _; simp [countLoop]
  | cons f suf ih =>
    intro pre seen hall hnd hseen
    rw [countLoop]
    have hnd' : (if baseOf f.name ∈ seen then seen else baseOf f.name :: seen).Nodup := by
      split
      · exact hnd
      · rename_i h; exact List.nodup_cons.mpr ⟨h, hnd⟩
    have hseen' : ∀ b, b ∈ (if baseOf f.name ∈ seen then seen else baseOf f.name :: seen) ↔ ∃ g ∈ pre ++ [f], baseOf g.name = b := by
      intro b
      have hr : (∃ g ∈ pre ++ [f], baseOf g.name = b) ↔ (∃ g ∈ pre, baseOf g.name = b) ∨ baseOf f.name = b := by
        constructor
        · rintro ⟨g, hg, he⟩
          rcases List.mem_append.mp hg with hg | hg
          · exact Or.inl ⟨g, hg, he⟩
          · simp only [List.mem_singleton] at hg; subst hg; exact Or.inr he
        · rintro (⟨g, hg, he⟩ | he)
          · exact ⟨g, List.mem_append_left _ hg, he⟩
          · exact ⟨f, by simp, he⟩
      rw [hr, ← hseen b]
      split
      · rename_i h
        constructor
        · exact Or.inl
        · rintro (h' | rfl)
          · exact h'
          · exact h
      · rw [List.mem_cons]
        constructor
        · rintro (rfl | h')
          · exact Or.inr rfl
          · exact Or.inl h'
        · rintro (h' | rfl)
          · exact Or.inr h'
          · exact Or.inl rfl
    generalize hgen : (if baseOf f.name ∈ seen then seen else baseOf f.name :: seen) = seen' at *
    have hlen : seen'.length = newer all f + 1 := by
      rw [hall] at hs h1 ⊢
      rw [← seen_count pre suf f hs h1, ← List.toFinset_card_of_nodup hnd']
      congr 1
      ext b
      rw [List.mem_toFinset, hseen' b, List.mem_toFinset, List.mem_map]
    have hih := ih (pre ++ [f]) seen' (by rw [hall]; simp) hnd' hseen'
    have hcond : (seen'.length : Int) > max ↔ max ≤ newer all f := by rw [hlen]; omega
    by_cases hc : max ≤ newer all f
    · rw [if_pos (hcond.mpr hc)]
      constructor
      · intro g
        simp only [List.mem_cons, hih.1 g]
        constructor
        · rintro (rfl | h)
          · exact ⟨Or.inl rfl, hc⟩
          · exact ⟨Or.inr h.1, h.2⟩
        · rintro ⟨rfl | h, h'⟩
          · exact Or.inl rfl
          · exact Or.inr ⟨h, h'⟩
      · intro g
        simp only [List.mem_cons, hih.2 g]
        constructor
        · rintro h; exact ⟨Or.inr h.1, h.2⟩
        · rintro ⟨rfl | h, h'⟩
          · exact absurd hc h'
          · exact ⟨h, h'⟩
    · rw [if_neg (fun h => hc (hcond.mp h))]
      constructor
      · intro g
        simp only [List.mem_cons, hih.1 g]
        constructor
        · rintro h; exact ⟨Or.inr h.1, h.2⟩
        · rintro ⟨rfl | h, h'⟩
          · exact absurd h' hc
          · exact ⟨h, h'⟩
      · intro g
        simp only [List.mem_cons, hih.2 g]
        constructor
        · rintro (rfl | h)
          · exact ⟨Or.inl rfl, hc⟩
          · exact ⟨Or.inr h.1, h.2⟩
        · rintro ⟨rfl | h, h'⟩
          · exact Or.inl rfl
          · exact Or.inr ⟨h, h'⟩

theorem newer_lt (files : List LogInfo) (f : LogInfo) (h : f ∈ files) : newer files f < files.length := by
  unfold newer
  have h1 : ((files.map LogInfo.time).toFinset.filter (f.time < ·)).card < (files.map LogInfo.time).toFinset.card := by
    apply Finset.card_lt_card
    rw [Finset.ssubset_iff_of_subset (Finset.filter_subset _ _)]
    refine ⟨f.time, ?_, ?_⟩
    · rw [List.mem_toFinset]; exact List.mem_map_of_mem h
    · simp
  have h2 := List.toFinset_card_le (files.map LogInfo.time)
  rw [List.length_map] at h2
  omega

theorem byCount_spec (cfg : Config) (files : List LogInfo) (hs : files.Pairwise fun f g => g.time ≤ f.time) (h1 : OneEach files) :
    (∀ f, f ∈ (byCount cfg files).1 ↔ f ∈ files ∧ (0 < cfg.maxBackups ∧ cfg.maxBackups ≤ newer files f)) ∧
    (∀ f, f ∈ (byCount cfg files).2 ↔ f ∈ files ∧ ¬ (0 < cfg.maxBackups ∧ cfg.maxBackups ≤ newer files f)) := by
  unfold byCount
  by_cases hc : cfg.maxBackups > 0 ∧ cfg.maxBackups < files.length
  · rw [if_pos hc]
    have := countLoop_spec cfg.maxBackups files hs h1 files [] [] rfl List.nodup_nil (by simp)
    constructor
    · intro f
      rw [this.1 f]
      constructor
      · rintro ⟨h, h'⟩; exact ⟨h, hc.1, h'⟩
      · rintro ⟨h, h'⟩; exact ⟨h, h'.2⟩
    · intro f
      rw [this.2 f]
      constructor
      · rintro ⟨h, h'⟩; exact ⟨h, fun h2 => h' h2.2⟩
      · rintro ⟨h, h'⟩; exact ⟨h, fun h2 => h' ⟨hc.1, h2⟩⟩
  · rw [if_neg hc]
    have hno : ∀ f ∈ files, ¬ (0 < cfg.maxBackups ∧ cfg.maxBackups ≤ newer files f) := by
      intro f hf h
      have := newer_lt files f hf
      exact hc ⟨h.1, by omega⟩
    constructor
    · intro f
      simp only [List.not_mem_nil, false_iff]
      rintro ⟨h, h'⟩
      exact hno f h h'
    · intro f
      constructor
      · intro h; exact ⟨h, hno f h⟩
      · exact fun h => h.1

theorem cutoff_exact (cfg : Config) (now : Int) (h0 : 0 < cfg.maxAge) (h : cfg.maxAge ≤ 106751) :
    cutoff cfg now = now - 86400000000000 * cfg.maxAge := by
  unfold cutoff
  have h1 : Int.bmod (86400000000000 * cfg.maxAge) (2 ^ 64) = 86400000000000 * cfg.maxAge := by
    apply Int.bmod_eq_of_le <;> omega
  rw [h1]
  have h2 : Int.bmod (-(86400000000000 * cfg.maxAge)) (2 ^ 64) = -(86400000000000 * cfg.maxAge) := by
    apply Int.bmod_eq_of_le <;> omega
  rw [h2]
  omega

theorem plan_spec (cfg : Config) (now : Int) (files : List LogInfo) (hs : files.Pairwise fun f g => g.time ≤ f.time) (h1 : OneEach files)
    (hage : cfg.maxAge ≤ 106751) :
    (∀ f, f ∈ (plan cfg now files).1 ↔ f ∈ files ∧ Expired cfg now files f) ∧
    (∀ f, f ∈ (plan cfg now files).2 ↔ f ∈ files ∧ ¬ Expired cfg now files f ∧ cfg.compress = true ∧ isGz f.name = false) := by
  unfold plan
  by_cases h0 : cfg.maxBackups = 0 ∧ cfg.maxAge = 0 ∧ cfg.compress = false
  · rw [if_pos h0]
    have hne : ∀ f, ¬ Expired cfg now files f := by
      rintro f (h | h) <;> omega
    constructor
    · intro f
      simp only [List.not_mem_nil, false_iff]
      rintro ⟨_, h⟩
      exact hne f h
    · intro f
      simp only [List.not_mem_nil, false_iff]
      rintro ⟨_, _, h, _⟩
      rw [h0.2.2] at h
      cases h
  · rw [if_neg h0]
    simp only
    obtain ⟨hc1, hc2⟩ := byCount_spec cfg files hs h1
    have ha1 : ∀ f, f ∈ (byAge cfg now (byCount cfg files).2).1 ↔
        f ∈ (byCount cfg files).2 ∧ (0 < cfg.maxAge ∧ f.time < now - 86400000000000 * cfg.maxAge) := by
      intro f
      unfold byAge
      by_cases hp : cfg.maxAge > 0
      · rw [if_pos hp, cutoff_exact cfg now hp hage]
        simp only [List.mem_filter, decide_eq_true_eq]
        constructor
        · rintro ⟨h, h'⟩; exact ⟨h, hp, h'⟩
        · rintro ⟨h, _, h'⟩; exact ⟨h, h'⟩
      · rw [if_neg hp]
        simp only [List.not_mem_nil, false_iff]
        rintro ⟨_, h, _⟩
        exact hp h
    have ha2 : ∀ f, f ∈ (byAge cfg now (byCount cfg files).2).2 ↔
        f ∈ (byCount cfg files).2 ∧ ¬ (0 < cfg.maxAge ∧ f.time < now - 86400000000000 * cfg.maxAge) := by
      intro f
      unfold byAge
      by_cases hp : cfg.maxAge > 0
      · rw [if_pos hp, cutoff_exact cfg now hp hage]
        simp only [List.mem_filter, decide_eq_true_eq]
        constructor
        · rintro ⟨h, h'⟩; exact ⟨h, fun h2 => h' h2.2⟩
        · rintro ⟨h, h'⟩; exact ⟨h, fun h2 => h' ⟨hp, h2⟩⟩
      · rw [if_neg hp]
        constructor
        · intro h; exact ⟨h, fun h2 => hp h2.1⟩
        · exact fun h => h.1
    constructor
    · intro f
      rw [List.mem_append, hc1 f, ha1 f, hc2 f]
      unfold Expired
      constructor
      · rintro (⟨h, h'⟩ | ⟨⟨h, _⟩, h'⟩)
        · exact ⟨h, Or.inl h'⟩
        · exact ⟨h, Or.inr h'⟩
      · rintro ⟨h, h'⟩
        by_cases hcnt : 0 < cfg.maxBackups ∧ cfg.maxBackups ≤ newer files f
        · exact Or.inl ⟨h, hcnt⟩
        · rcases h' with h' | h'
          · exact absurd h' hcnt
          · exact Or.inr ⟨⟨h, hcnt⟩, h'⟩
    · intro f
      by_cases hcomp : cfg.compress = true
      · rw [if_pos hcomp, List.mem_filter, ha2 f, hc2 f]
        unfold Expired
        simp only [Bool.not_eq_true', hcomp, true_and]
        constructor
        · rintro ⟨⟨⟨h, h2⟩, h3⟩, h4⟩
          exact ⟨h, fun h => h.elim h2 h3, h4⟩
        · rintro ⟨h, h2, h4⟩
          exact ⟨⟨⟨h, fun h => h2 (Or.inl h)⟩, fun h => h2 (Or.inr h)⟩, h4⟩
      · rw [if_neg hcomp]
        simp only [List.not_mem_nil, false_iff]
        rintro ⟨_, _, h, _⟩
        exact hcomp h

/-! ### Files -/

theorem lookup_remove (d : Dir) (n m : Bytes) : lookup (removeFile d n) m = if m = n then none else lookup d m := by
  unfold lookup removeFile
  induction d with
  | nil => simp
  | cons x d ih =>
    by_cases hx : x.1 = n
    · rw [List.filter_cons_of_neg (by simp [hx])]
      rw [ih]
      by_cases hm : m = n
      · rw [if_pos hm, if_pos hm]
      · rw [if_neg hm, if_neg hm, List.find?_cons_of_neg]
        simp only [beq_iff_eq]
        exact fun h => hm (h.symm.trans hx)
    · rw [List.filter_cons_of_pos (by simp [hx])]
      by_cases hxm : x.1 = m
      · rw [List.find?_cons_of_pos (by simp [hxm]), List.find?_cons_of_pos (by simp [hxm])]
        rw [if_neg (fun h => hx (hxm.trans h))]
      · rw [List.find?_cons_of_neg (by simp [hxm]), List.find?_cons_of_neg (by simp [hxm])]
        exact ih

theorem lookup_removeAll (ns : List Bytes) (d : Dir) (m : Bytes) :
    lookup (ns.foldl removeFile d) m = if m ∈ ns then none else lookup d m := by
  induction ns generalizing d with
  | nil => simp
  | cons n ns ih =>
    rw [List.foldl_cons, ih, lookup_remove]
    by_cases h1 : m ∈ ns
    · rw [if_pos h1, if_pos (List.mem_cons_of_mem _ h1)]
    · rw [if_neg h1]
      by_cases h2 : m = n
      · rw [if_pos h2, if_pos (by simp [h2])]
      · rw [if_neg h2, if_neg (by simp [h1, h2])]

theorem gz_ne (n : Bytes) : n ++ asc ".gz" ≠ n := by
  intro h
  have := congrArg List.length h
  have hg : (asc ".gz").length = 3 := by decide
  simp only [List.length_append, hg] at this
  omega

theorem lookup_compress (gz : Bytes → Bytes) (d : Dir) (n m : Bytes) :
    lookup (compressFile gz d n) m =
      if lookup d n = none then lookup d m
      else if m = n ++ asc ".gz" then (lookup d n).map gz
      else if m = n then none
      else lookup d m := by
  unfold compressFile
  cases hc : lookup d n with
  | none => simp
  | some c =>
    simp only [reduceCtorEq, if_false, Option.map_some]
    by_cases h1 : m = n ++ asc ".gz"
    · rw [if_pos h1]
      unfold lookup
      rw [List.find?_cons_of_pos (by simp [h1])]
      rfl
    · rw [if_neg h1]
      have hstep : lookup ((n ++ asc ".gz", gz c) :: removeFile (removeFile d (n ++ asc ".gz")) n) m =
          lookup (removeFile (removeFile d (n ++ asc ".gz")) n) m := by
        unfold lookup
        rw [List.find?_cons_of_neg (by simp [Ne.symm h1])]
      rw [hstep, lookup_remove, lookup_remove, if_neg h1]

theorem gz_inj (a b : Bytes) (h : a ++ asc ".gz" = b ++ asc ".gz") : a = b := List.append_cancel_right h

theorem isGz_gz (n : Bytes) : isGz (n ++ asc ".gz") = true := by
  unfold isGz
  rw [List.isSuffixOf_iff_suffix]
  exact ⟨n, rfl⟩

/-- Compressing files, none of which is itself the compressed form of another. -/
theorem lookup_compressAll (gz : Bytes → Bytes) (ns : List Bytes) (d : Dir) (hz : ∀ n ∈ ns, isGz n = false) (m : Bytes) :
    (m ∈ ns → lookup (ns.foldl (compressFile gz) d) m = none) ∧
    (∀ n ∈ ns, m = n ++ asc ".gz" → lookup d n ≠ none → lookup (ns.foldl (compressFile gz) d) m = (lookup d n).map gz) ∧
    (m ∉ ns → (∀ n ∈ ns, m ≠ n ++ asc ".gz") → lookup (ns.foldl (compressFile gz) d) m = lookup d m) := by
  induction ns generalizing d with
  | nil => simp
  | cons n ns ih =>
    rw [List.foldl_cons]
    have hzn := hz n (List.mem_cons_self ..)
    have hz' : ∀ n ∈ ns, isGz n = false := fun n h => hz n (List.mem_cons_of_mem _ h)
    have ih := ih (compressFile gz d n) hz'
    have hngz : ∀ k, isGz k = false → ∀ l, k ≠ l ++ asc ".gz" := by
      intro k hk l he
      rw [he, isGz_gz] at hk
      cases hk
    refine ⟨?_, ?_, ?_⟩
    · intro hm
      by_cases hms : m ∈ ns
      · exact ih.1 hms
      · have hmn : m = n := by
          rcases List.mem_cons.mp hm with h | h
          · exact h
          · exact absurd h hms
        subst hmn
        rw [ih.2.2 hms (fun k hk => hngz m hzn k), lookup_compress]
        by_cases hl : lookup d m = none
        · rw [if_pos hl, hl]
        · rw [if_neg hl, if_neg (hngz m hzn m), if_pos rfl]
    · intro k hk he hl
      by_cases hkn : k = n
      · subst hkn
        by_cases hks : k ∈ ns
        · -- compressed already; a second attempt finds nothing
          have hgone : lookup (compressFile gz d k) k = none := by
            rw [lookup_compress, if_neg hl, if_neg (hngz k hzn k), if_pos rfl]
          have hmem : lookup (compressFile gz d k) m = (lookup d k).map gz := by
            rw [lookup_compress, if_neg hl, if_pos he]
          -- m is not touched any more
          have hrest : ∀ (ns : List Bytes) (d' : Dir), (∀ n ∈ ns, isGz n = false) → lookup d' k = none →
              lookup (ns.foldl (compressFile gz) d') m = lookup d' m := by
            intro ns
            induction ns with
            | nil => intro d' _ _; rfl
            | cons q ns ihq =>
              intro d' hzq hk'
              rw [List.foldl_cons]
              have hzq0 := hzq q (List.mem_cons_self ..)
              have hmq : m ≠ q := by rw [he]; exact fun h => hngz q hzq0 k h.symm
              have hkq : k ≠ q ++ asc ".gz" := hngz k hzn q
              rw [ihq (compressFile gz d' q) (fun n h => hzq n (List.mem_cons_of_mem _ h))]
              · rw [lookup_compress]
                by_cases hlq : lookup d' q = none
                · rw [if_pos hlq]
                · rw [if_neg hlq, if_neg, if_neg hmq]
                  rw [he]
                  intro h
                  have := gz_inj _ _ h
                  subst this
                  exact hlq hk'
              · rw [lookup_compress]
                by_cases hlq : lookup d' q = none
                · rw [if_pos hlq]; exact hk'
                · rw [if_neg hlq, if_neg hkq]
                  split
                  · rfl
                  · exact hk'
          rw [hrest ns (compressFile gz d k) hz' hgone, hmem]
        · have hmns : m ∉ ns := by
            intro h
            exact hngz m (hz' m h) k he
          rw [ih.2.2 hmns, lookup_compress, if_neg hl, if_pos he]
          intro q hq h
          rw [he] at h
          exact hks (gz_inj _ _ h ▸ hq)
      · have hks : k ∈ ns := by
          rcases List.mem_cons.mp hk with h | h
          · exact absurd h hkn
          · exact h
        have hk1 : lookup (compressFile gz d n) k = lookup d k := by
          rw [lookup_compress]
          by_cases hln : lookup d n = none
          · rw [if_pos hln]
          · rw [if_neg hln, if_neg (hngz k (hz' k hks) n), if_neg hkn]
        rw [ih.2.1 k hks he (by rw [hk1]; exact hl), hk1]
    · intro hm hg
      rw [List.mem_cons, not_or] at hm
      rw [ih.2.2 hm.2 (fun k hk => hg k (List.mem_cons_of_mem _ hk)), lookup_compress]
      by_cases hl : lookup d n = none
      · rw [if_pos hl]
      · rw [if_neg hl, if_neg (hg n (List.mem_cons_self ..)), if_neg hm.1]

theorem baseOf_gz (n : Bytes) : baseOf (n ++ asc ".gz") = n := by
  have hg : (asc ".gz").length = 3 := by decide
  unfold baseOf
  rw [if_pos (isGz_gz n)]
  simp [hg]

/-- C33 (partly): after cleaning, exactly the backups with at least `MaxBackups` newer ones, and those older than `MaxAge` days,
are gone; of the others, with compression, those not yet compressed are replaced by their compressed form, and
nothing else in the directory has changed except that an existing compressed form is replaced with its original.
Proved for `MaxAge` up to 106751 days and if backups have the same time exactly when they are the same up to
compression, which `one_each` shows for names that the logger generated. -/
theorem cleaned_exactly_partial (cfg : Config) (gz : Bytes → Bytes) (now : Int) (name : Bytes) (d : Dir) (files : List LogInfo)
    (hlist : Listing name d files) (h1 : OneEach files) (hage : cfg.maxAge ≤ 106751) (f : LogInfo) (hf : f ∈ files) :
    (Expired cfg now files f → lookup (millRunOnce cfg gz now files d) f.name = none) ∧
    (¬ Expired cfg now files f → cfg.compress = true → isGz f.name = false →
      lookup (millRunOnce cfg gz now files d) f.name = none ∧
      lookup (millRunOnce cfg gz now files d) (f.name ++ asc ".gz") = (lookup d f.name).map gz ∧ lookup d f.name ≠ none) ∧
    (¬ Expired cfg now files f → (cfg.compress = false ∨ (isGz f.name = true ∧ ∀ g ∈ files, f.name ≠ g.name ++ asc ".gz")) →
      lookup (millRunOnce cfg gz now files d) f.name = lookup d f.name) := by
  obtain ⟨hp1, hp2⟩ := plan_spec cfg now files hlist.sorted h1 hage
  have hexp : ∀ g ∈ files, g.time = f.time → (Expired cfg now files g ↔ Expired cfg now files f) := by
    intro g _ ht
    unfold Expired newer
    rw [ht]
  have hname : ∀ g ∈ files, g.name = f.name → (Expired cfg now files g ↔ Expired cfg now files f) := by
    intro g hg hn
    exact hexp g hg ((h1 g hg f hf).mp (by rw [hn]))
  have hzs : ∀ n ∈ (plan cfg now files).2.map LogInfo.name, isGz n = false := by
    intro n hn
    obtain ⟨g, hg, rfl⟩ := List.mem_map.mp hn
    exact ((hp2 g).mp hg).2.2.2
  have hrem : ∀ m, lookup (((plan cfg now files).1.map LogInfo.name).foldl removeFile d) m =
      if m ∈ (plan cfg now files).1.map LogInfo.name then none else lookup d m := lookup_removeAll _ d
  have hin1 : f.name ∈ (plan cfg now files).1.map LogInfo.name ↔ Expired cfg now files f := by
    constructor
    · intro h
      obtain ⟨g, hg, hn⟩ := List.mem_map.mp h
      obtain ⟨hg1, hg2⟩ := (hp1 g).mp hg
      exact (hname g hg1 hn).mp hg2
    · intro h
      exact List.mem_map.mpr ⟨f, (hp1 f).mpr ⟨hf, h⟩, rfl⟩
  have hin2 : f.name ∈ (plan cfg now files).2.map LogInfo.name ↔
      ¬ Expired cfg now files f ∧ cfg.compress = true ∧ isGz f.name = false := by
    constructor
    · intro h
      obtain ⟨g, hg, hn⟩ := List.mem_map.mp h
      obtain ⟨hg1, hg2, hg3, hg4⟩ := (hp2 g).mp hg
      exact ⟨fun h => hg2 ((hname g hg1 hn).mpr h), hg3, by rw [← hn]; exact hg4⟩
    · intro h
      exact List.mem_map.mpr ⟨f, (hp2 f).mpr ⟨hf, h⟩, rfl⟩
  have hall := lookup_compressAll gz ((plan cfg now files).2.map LogInfo.name)
    (((plan cfg now files).1.map LogInfo.name).foldl removeFile d) hzs
  have hthere : lookup d f.name ≠ none := by
    obtain ⟨c, ⟨x, hx, hxn⟩, _⟩ := (hlist.exact_ f).mp hf
    unfold lookup
    cases hfd : d.find? (fun y => y.1 == f.name) with
    | none =>
      rw [List.find?_eq_none] at hfd
      exact absurd (by simp [hxn]) (hfd x hx)
    | some y => simp
  refine ⟨?_, ?_, ?_⟩
  · intro he
    unfold millRunOnce
    simp only
    rw [(hall f.name).2.2 (fun h => (hin2.mp h).1 he), hrem, if_pos (hin1.mpr he)]
    intro n hn hfn
    obtain ⟨g, hg, rfl⟩ := List.mem_map.mp hn
    obtain ⟨hg1, hg2, _, hg4⟩ := (hp2 g).mp hg
    apply hg2
    apply (hexp g hg1 ?_).mpr he
    apply (h1 g hg1 f hf).mp
    rw [hfn, baseOf_gz]
    unfold baseOf
    simp [hg4]
  · intro he hc hz
    unfold millRunOnce
    simp only
    have hm := hin2.mpr ⟨he, hc, hz⟩
    refine ⟨(hall f.name).1 hm, ?_, hthere⟩
    have hr : lookup (((plan cfg now files).1.map LogInfo.name).foldl removeFile d) f.name = lookup d f.name := by
      rw [hrem, if_neg (fun h => he (hin1.mp h))]
    rw [(hall _).2.1 f.name hm rfl (by rw [hr]; exact hthere), hr]
  · intro he hor
    unfold millRunOnce
    simp only
    rw [(hall f.name).2.2, hrem, if_neg (fun h => he (hin1.mp h))]
    · intro h
      obtain ⟨_, hc, hz⟩ := hin2.mp h
      rcases hor with h' | h'
      · rw [h'] at hc; cases hc
      · rw [h'.1] at hz; cases hz
    · intro n hn hfn
      obtain ⟨g, hg, rfl⟩ := List.mem_map.mp hn
      obtain ⟨hg1, _, hg3, _⟩ := (hp2 g).mp hg
      rcases hor with h' | h'
      · rw [h'] at hg3; cases hg3
      · exact h'.2 g hg1 hfn

/-- C33 (partly): at most `MaxBackups` backups remain, a compressed one and its original counted once. -/
theorem at_most_max_partial (cfg : Config) (now : Int) (files : List LogInfo) (h0 : 0 < cfg.maxBackups) (h1 : OneEach files)
    (kept : List LogInfo) (hk : ∀ f ∈ kept, f ∈ files ∧ ¬ Expired cfg now files f) :
    ((kept.map fun f => baseOf f.name).toFinset.card : Int) ≤ cfg.maxBackups := by
  rw [card_eq_of_iff (fun f : LogInfo => baseOf f.name) LogInfo.time kept (fun a ha b hb => h1 a (hk a ha).1 b (hk b hb).1)]
  have hmin : kept = [] ∨ ∃ f ∈ kept, ∀ g ∈ kept, f.time ≤ g.time := by
    clear hk
    induction kept with
    | nil => exact Or.inl rfl
    | cons a l ih =>
      right
      rcases ih with rfl | ⟨f, hf, hmin⟩
      · exact ⟨a, by simp, by simp⟩
      · by_cases h : a.time ≤ f.time
        · refine ⟨a, by simp, ?_⟩
          intro g hg
          rcases List.mem_cons.mp hg with rfl | hg
          · omega
          · have := hmin g hg; omega
        · refine ⟨f, List.mem_cons_of_mem _ hf, ?_⟩
          intro g hg
          rcases List.mem_cons.mp hg with rfl | hg
          · omega
          · exact hmin g hg
  rcases hmin with rfl | ⟨f, hf, hmin⟩
  · simp; omega
  · have hle : (kept.map LogInfo.time).toFinset.card ≤ newer files f + 1 := by
      unfold newer
      have hsub : (kept.map LogInfo.time).toFinset ⊆ insert f.time ((files.map LogInfo.time).toFinset.filter (f.time < ·)) := by
        intro t ht
        rw [List.mem_toFinset] at ht
        obtain ⟨g, hg, rfl⟩ := List.mem_map.mp ht
        rw [Finset.mem_insert, Finset.mem_filter, List.mem_toFinset]
        by_cases h : g.time = f.time
        · exact Or.inl h
        · refine Or.inr ⟨List.mem_map_of_mem (hk g hg).1, ?_⟩
          have := hmin g hg
          omega
      have := Finset.card_le_card hsub
      have h2 := Finset.card_insert_le f.time ((files.map LogInfo.time).toFinset.filter (f.time < ·))
      omega
    have hne := (hk f hf).2
    unfold Expired at hne
    rw [not_or] at hne
    have : ¬ cfg.maxBackups ≤ newer files f := fun h => hne.1 ⟨h0, h⟩
    omega

/-- C33: whatever does not start with the log's prefix - in particular the live file - is left alone. -/
theorem others_untouched (cfg : Config) (gz : Bytes → Bytes) (now : Int) (name : Bytes) (d : Dir) (files : List LogInfo)
    (hlist : Listing name d files) (n : Bytes) (hn : ¬ prefixOf name <+: n) :
    lookup (millRunOnce cfg gz now files d) n = lookup d n := by
  have hsub1 : ∀ (max : Int) (seen : List Bytes) (fs : List LogInfo), (∀ g ∈ (countLoop max seen fs).1, g ∈ fs) ∧ (∀ g ∈ (countLoop max seen fs).2, g ∈ fs) := by
    intro max seen fs
    induction fs generalizing seen with
    | nil => simp [countLoop]
    | cons f fs ih =>
      rw [countLoop]
      generalize (if baseOf f.name ∈ seen then seen else baseOf f.name :: seen) = seen'
      have ih := ih seen'
      split
      · exact ⟨fun g hg => (List.mem_cons.mp hg).elim (fun h => by simp [h]) (fun h => List.mem_cons_of_mem _ (ih.1 g h)),
          fun g hg => List.mem_cons_of_mem _ (ih.2 g hg)⟩
      · exact ⟨fun g hg => List.mem_cons_of_mem _ (ih.1 g hg),
          fun g hg => (List.mem_cons.mp hg).elim (fun h => by simp [h]) (fun h => List.mem_cons_of_mem _ (ih.2 g h))⟩
  have hbc : (∀ g ∈ (byCount cfg files).1, g ∈ files) ∧ (∀ g ∈ (byCount cfg files).2, g ∈ files) := by
    unfold byCount
    split
    · exact hsub1 _ _ _
    · exact ⟨by simp, fun g h => h⟩
  have hba : (∀ g ∈ (byAge cfg now (byCount cfg files).2).1, g ∈ files) ∧ (∀ g ∈ (byAge cfg now (byCount cfg files).2).2, g ∈ files) := by
    unfold byAge
    split
    · exact ⟨fun g h => hbc.2 g (List.mem_filter.mp h).1, fun g h => hbc.2 g (List.mem_filter.mp h).1⟩
    · exact ⟨by simp, hbc.2⟩
  have hpl : (∀ g ∈ (plan cfg now files).1, g ∈ files) ∧ (∀ g ∈ (plan cfg now files).2, g ∈ files ∧ isGz g.name = false) := by
    unfold plan
    split
    · simp
    · simp only
      refine ⟨fun g h => (List.mem_append.mp h).elim (hbc.1 g) (hba.1 g), ?_⟩
      intro g h
      split at h
      · have := List.mem_filter.mp h
        exact ⟨hba.2 g this.1, by simpa using this.2⟩
      · simp at h
  have hpre : ∀ g ∈ files, prefixOf name <+: g.name := by
    intro g hg
    obtain ⟨c, _, hc, _⟩ := (hlist.exact_ g).mp hg
    obtain ⟨ts, _, h | h⟩ := backup_names_only name g.name c hc
    · exact ⟨ts ++ extOf name, by rw [h]; simp⟩
    · exact ⟨ts ++ (extOf name ++ asc ".gz"), by rw [h]; simp⟩
  unfold millRunOnce
  simp only
  rw [(lookup_compressAll gz _ _ ?_ n).2.2, lookup_removeAll, if_neg]
  · intro h
    obtain ⟨g, hg, rfl⟩ := List.mem_map.mp h
    exact hn (hpre g (hpl.1 g hg))
  · intro h
    obtain ⟨g, hg, rfl⟩ := List.mem_map.mp h
    exact hn (hpre g (hpl.2 g hg).1)
  · intro m hm he
    obtain ⟨g, hg, rfl⟩ := List.mem_map.mp hm
    obtain ⟨u, hu⟩ := hpre g (hpl.2 g hg).1
    exact hn ⟨u ++ asc ".gz", by rw [he, ← hu]; simp⟩
  · intro m hm
    obtain ⟨g, hg, rfl⟩ := List.mem_map.mp hm
    exact (hpl.2 g hg).2

/-- C33: the live file is left alone. -/
theorem live_untouched (cfg : Config) (gz : Bytes → Bytes) (now : Int) (name : Bytes) (d : Dir) (files : List LogInfo)
    (hlist : Listing name d files) : lookup (millRunOnce cfg gz now files d) name = lookup d name := by
  apply others_untouched cfg gz now name d files hlist
  rintro ⟨u, hu⟩
  obtain ⟨hse, hext⟩ := stem_ext name
  unfold prefixOf at hu
  have : [45] ++ u = extOf name := by
    have h2 : stemOf name ++ ([45] ++ u) = stemOf name ++ extOf name := by rw [hse]; simpa using hu
    exact List.append_cancel_left h2
  rcases hext with h | ⟨r, h⟩
  · rw [h] at this; cases this
  · rw [h] at this
    injection this with h1 _
    exact absurd h1 (by decide)

/-- C33 is false for a `MaxAge` above 106751 days: the product overflows and every backup from before the year 2300 is removed. -/
theorem huge_age_removes_all (now t : Int) (f : LogInfo) (h : f.time = t) (ht : t ≤ now) :
    f ∈ (plan ⟨0, 106752, false⟩ now [f]).1 := by
  have hc : cutoff ⟨0, 106752, false⟩ now = now + 9223371273709551616 := by
    unfold cutoff
    have h1 : Int.bmod (-(Int.bmod (86400000000000 * (106752 : Int)) (2 ^ 64))) (2 ^ 64) = 9223371273709551616 := by decide
    rw [h1]
  have hlt : f.time < cutoff ⟨0, 106752, false⟩ now := by rw [hc, h]; omega
  have hcnt : byCount ⟨0, 106752, false⟩ [f] = ([], [f]) := by simp [byCount]
  simp [plan, hcnt, byAge, hlt]

/-! ### Generated names -/

theorem ceil_div (y n : Nat) (h : 0 < n) : (y + 1 + (n - 1)) / n = (y + (n - 1)) / n + if y % n = 0 then 1 else 0 := by
  have e1 : y + 1 + (n - 1) = y + n := by omega
  rw [e1, Nat.add_div_right _ h]
  have hd := Nat.div_add_mod y n
  have hr := Nat.mod_lt y h
  by_cases h0 : y % n = 0
  · rw [if_pos h0]
    have : (y + (n - 1)) / n = y / n := by
      have e2 : y + (n - 1) = n * (y / n) + (n - 1) := by omega
      have e3 : (n - 1) / n = 0 := Nat.div_eq_of_lt (by omega)
      rw [e2, Nat.mul_add_div h, e3, Nat.add_zero]
    omega
  · rw [if_neg h0]
    have e2 : y + (n - 1) = (y - 1) + n := by omega
    rw [e2, Nat.add_div_right _ h]
    have : (y - 1) / n = y / n := by
      have e3 : y - 1 = n * (y / n) + (y % n - 1) := by omega
      have e4 : (y % n - 1) / n = 0 := Nat.div_eq_of_lt (by omega)
      rw [e3, Nat.mul_add_div h, e4, Nat.add_zero]
    omega

theorem leap_step (y : Nat) : daysBeforeYear (y + 1) = daysBeforeYear y + (if isLeap y then 366 else 365) := by
  unfold daysBeforeYear
  have h4 := ceil_div y 4 (by omega)
  have h100 := ceil_div y 100 (by omega)
  have h400 := ceil_div y 400 (by omega)
  simp only [show (4 - 1 : Nat) = 3 from rfl, show (100 - 1 : Nat) = 99 from rfl, show (400 - 1 : Nat) = 399 from rfl] at h4 h100 h400
  have hle : (y + 99) / 100 ≤ 365 * y := by omega
  have hl : isLeap y = true ↔ (y % 4 = 0 ∧ y % 100 ≠ 0) ∨ y % 400 = 0 := by
    unfold isLeap
    simp only [Bool.or_eq_true, Bool.and_eq_true, beq_iff_eq, bne_iff_ne]
  have m1 : y % 400 = 0 → y % 100 = 0 := by omega
  have m2 : y % 100 = 0 → y % 4 = 0 := by omega
  rw [h4, h100, h400]
  generalize (y + 3) / 4 = a at *
  generalize (y + 99) / 100 = b at *
  generalize (y + 399) / 400 = c at *
  by_cases h1 : y % 4 = 0
  · by_cases h2 : y % 100 = 0
    · by_cases h3 : y % 400 = 0
      · rw [if_pos h1, if_pos h2, if_pos h3, if_pos (hl.mpr (Or.inr h3))]; omega
      · rw [if_pos h1, if_pos h2, if_neg h3, if_neg (fun h => by rcases hl.mp h with h | h <;> omega)]; omega
    · have h3 : ¬ y % 400 = 0 := fun h => h2 (m1 h)
      rw [if_pos h1, if_neg h2, if_neg h3, if_pos (hl.mpr (Or.inl ⟨h1, h2⟩))]; omega
  · have h2 : ¬ y % 100 = 0 := fun h => h1 (m2 h)
    have h3 : ¬ y % 400 = 0 := fun h => h2 (m1 h)
    rw [if_neg h1, if_neg h2, if_neg h3, if_neg (fun h => by rcases hl.mp h with h | h <;> omega)]; omega

theorem year_mono (y k : Nat) : daysBeforeYear y ≤ daysBeforeYear (y + k) := by
  induction k with
  | zero => exact Nat.le_refl _
  | succ k ih =>
    have := leap_step (y + k)
    rw [Nat.add_assoc] at this
    rw [this]
    omega

theorem month_step (m y : Nat) (h : 1 ≤ m) : daysBeforeMonth (m + 1) y = daysBeforeMonth m y + daysIn m y := by
  obtain ⟨k, rfl⟩ : ∃ k, m = k + 1 := ⟨m - 1, by omega⟩
  rfl

theorem month_mono (m k y : Nat) (h : 1 ≤ m) : daysBeforeMonth m y ≤ daysBeforeMonth (m + k) y := by
  induction k with
  | zero => exact Nat.le_refl _
  | succ k ih =>
    have := month_step (m + k) y (by omega)
    rw [Nat.add_assoc] at this
    rw [this]
    omega

theorem months_of_year (y : Nat) : daysBeforeMonth 13 y = if isLeap y then 366 else 365 := by
  by_cases h : isLeap y = true <;> simp [daysBeforeMonth, daysIn, h]

/-- The day within the year. -/
theorem day_of_year (m d y : Nat) (h1 : 1 ≤ m) (h2 : m ≤ 12) (h3 : 1 ≤ d) (h4 : d ≤ daysIn m y) :
    daysBeforeMonth m y + (d - 1) < if isLeap y then 366 else 365 := by
  have hs := month_step m y h1
  have hm := month_mono (m + 1) (12 - m) y (by omega)
  rw [show m + 1 + (12 - m) = 13 by omega, months_of_year] at hm
  omega

/-- Different dates have different times. -/
theorem millis_inj (a b : Civil) (ha : a.Valid) (hb : b.Valid) (h : a.millis = b.millis) : a = b := by
  obtain ⟨y, m, d, hh, mi, se, ms⟩ := a
  obtain ⟨y', m', d', hh', mi', se', ms'⟩ := b
  obtain ⟨a1, a2, a3, a4, a5, a6, a7, a8⟩ := ha
  obtain ⟨b1, b2, b3, b4, b5, b6, b7, b8⟩ := hb
  simp only at a1 a2 a3 a4 a5 a6 a7 a8 b1 b2 b3 b4 b5 b6 b7 b8
  unfold Civil.millis at h
  simp only at h
  have hd1 := day_of_year m d y a1 a2 a3 a4
  have hd2 := day_of_year m' d' y' b1 b2 b3 b4
  obtain ⟨hD, e1, e2, e3, e4⟩ : daysBeforeYear y + daysBeforeMonth m y + (d - 1) = daysBeforeYear y' + daysBeforeMonth m' y' + (d' - 1) ∧
      hh = hh' ∧ mi = mi' ∧ se = se' ∧ ms = ms' := by omega
  have hy : y = y' := by
    have key : ∀ (y y' r r' : Nat), (r < if isLeap y then 366 else 365) → daysBeforeYear y + r = daysBeforeYear y' + r' → ¬ y < y' := by
      intro y y' r r' hr he hlt
      have h1 := leap_step y
      have h2 := year_mono (y + 1) (y' - (y + 1))
      rw [show y + 1 + (y' - (y + 1)) = y' by omega] at h2
      omega
    have k1 := key y y' _ (daysBeforeMonth m' y' + (d' - 1)) hd1 (by omega)
    have k2 := key y' y _ (daysBeforeMonth m y + (d - 1)) hd2 (by omega)
    omega
  subst hy
  have hm : m = m' := by
    have key : ∀ (m m' d d' : Nat), 1 ≤ m → 1 ≤ d → d ≤ daysIn m y → daysBeforeMonth m y + (d - 1) = daysBeforeMonth m' y + (d' - 1) → ¬ m < m' := by
      intro m m' d d' h1 h3 h4 he hlt
      have hs := month_step m y h1
      have hmm := month_mono (m + 1) (m' - (m + 1)) y (by omega)
      rw [show m + 1 + (m' - (m + 1)) = m' by omega] at hmm
      omega
    have k1 := key m m' d d' a1 a3 a4 (by omega)
    have k2 := key m' m d' d b1 b3 b4 (by omega)
    omega
  subst hm
  have : d = d' := by omega
  subst this e1 e2 e3 e4
  rfl

theorem ext_no_dot (name r : Bytes) (h : extOf name = 46 :: r) : 46 ∉ r := by
  unfold extOf at h
  split at h
  · injection h with _ h
    subst h
    intro hm
    have key : ∀ l : Bytes, (46 : UInt8) ∉ l.takeWhile (· ≠ 46) := by
      intro l
      induction l with
      | nil => simp
      | cons x l ih =>
        rw [List.takeWhile_cons]
        split
        · rename_i hx
          rw [List.mem_cons, not_or]
          exact ⟨fun h => by simp [← h] at hx, ih⟩
        · simp
    exact key _ (List.mem_reverse.mp hm)
  · cases h

/-- A generated name is not taken for a compressed one. -/
theorem backupName_not_gz (name : Bytes) (c : Civil) (h : extOf name ≠ asc ".gz") : isGz (backupName name c) = false := by
  cases hg : isGz (backupName name c) with
  | false => rfl
  | true =>
    exfalso
    unfold isGz at hg
    rw [List.isSuffixOf_iff_suffix] at hg
    obtain ⟨u, hu⟩ := hg
    have hgz : asc ".gz" = [46, 103, 122] := by decide
    rw [hgz] at hu h
    have hrev := congrArg List.reverse hu
    unfold backupName at hrev
    simp only [List.reverse_append, List.reverse_cons, List.reverse_nil, List.nil_append, List.cons_append] at hrev
    rcases (stem_ext name).2 with he | ⟨r, he⟩
    · rw [he] at hrev
      unfold formatTime pad3 at hrev
      simp only [List.reverse_nil, List.nil_append, List.reverse_append, List.reverse_cons, List.append_assoc, List.cons_append] at hrev
      injection hrev with h1 _
      have h3 := congrArg UInt8.toNat h1
      unfold digit at h3
      have hk : (48 + c.ms % 10) % 256 = 48 + c.ms % 10 := by omega
      have h122 : (122 : UInt8).toNat = 122 := by decide
      rw [UInt8.toNat_ofNat', hk, h122] at h3
      omega
    · have hnd := ext_no_dot name r he
      rw [he] at hrev h
      -- the last bytes of `46 :: r`
      rcases hr : r.reverse with _ | ⟨x, t⟩
      · have : r = [] := by simpa using hr
        subst this
        simp only [List.reverse_cons, List.reverse_nil, List.nil_append, List.cons_append] at hrev
        injection hrev with h1 _
        exact absurd h1 (by decide)
      · simp only [List.reverse_cons, hr, List.cons_append, List.append_assoc] at hrev
        injection hrev with h1 h2
        subst h1
        rcases t with _ | ⟨x2, t⟩
        · simp only [List.nil_append] at h2
          injection h2 with h1 _
          exact absurd h1 (by decide)
        · simp only [List.cons_append] at h2
          injection h2 with h1 h3
          subst h1
          rcases t with _ | ⟨x3, t⟩
          · apply h
            have := congrArg List.reverse hr
            simp only [List.reverse_reverse, List.reverse_cons, List.reverse_nil, List.nil_append, List.cons_append] at this
            rw [this]
          · simp only [List.cons_append] at h3
            injection h3 with h1 _
            subst h1
            apply hnd
            have : (46 : UInt8) ∈ r.reverse := by rw [hr]; simp
            simpa using this

/-- C33: for backups named by the logger itself, compressed or not, the condition of `cleaned_exactly_partial` holds. -/
theorem one_each (name : Bytes) (hext : extOf name ≠ asc ".gz") (d : Dir) (files : List LogInfo) (hlist : Listing name d files)
    (hgen : ∀ f ∈ files, ∃ c : Civil, c.Valid ∧ c.year ≤ 9999 ∧ (f.name = backupName name c ∨ f.name = backupName name c ++ asc ".gz")) :
    OneEach files := by
  have hbt : ∀ f ∈ files, ∃ c : Civil, c.Valid ∧ c.year ≤ 9999 ∧ baseOf f.name = backupName name c ∧ f.time = c.millis * 1000000 := by
    intro f hf
    obtain ⟨c, hv, hy, hn⟩ := hgen f hf
    obtain ⟨c', _, hb, ht⟩ := (hlist.exact_ f).mp hf
    refine ⟨c, hv, hy, ?_, ?_⟩
    · rcases hn with hn | hn
      · rw [hn]
        unfold baseOf
        simp [backupName_not_gz name c hext]
      · rw [hn, baseOf_gz]
    · rcases hn with hn | hn
      · rw [hn, backup_time_partial name c hv hy] at hb
        injection hb with hb
        rw [ht, hb]
      · rw [hn, gz_backup_time_partial name c hv hy] at hb
        injection hb with hb
        rw [ht, hb]
  intro f hf g hg
  obtain ⟨c, hv, hy, hb, ht⟩ := hbt f hf
  obtain ⟨c', hv', hy', hb', ht'⟩ := hbt g hg
  rw [hb, hb', ht, ht']
  constructor
  · intro h
    unfold backupName at h
    have h2 : formatTime c = formatTime c' := by simpa using h
    have h3 := parse_format c hv hy
    rw [h2, parse_format c' hv' hy'] at h3
    injection h3 with h3
    rw [h3]
  · intro h
    rw [millis_inj c c' hv hv' (by omega)]

/-! ### A concrete case -/

/-- A log with three backups, the middle one compressed, and the live file. -/
def exDir : Dir :=
  [(asc "a.log", asc "live"), (asc "a-2016-11-04T18-30-00.000.log", asc "1"), (asc "a-2016-11-05T18-30-00.000.log.gz", asc "2"),
   (asc "a-2016-11-06T18-30-00.000.log", asc "3")]

/-- Its backups, newest first. -/
def exFiles : List LogInfo :=
  [⟨1478457000000000000, asc "a-2016-11-06T18-30-00.000.log"⟩, ⟨1478370600000000000, asc "a-2016-11-05T18-30-00.000.log.gz"⟩,
   ⟨1478284200000000000, asc "a-2016-11-04T18-30-00.000.log"⟩]

example : (millRunOnce ⟨2, 0, true⟩ (fun c => 0 :: c) 1478460000000000000 exFiles exDir).map Prod.fst =
    [asc "a-2016-11-06T18-30-00.000.log.gz", asc "a.log", asc "a-2016-11-05T18-30-00.000.log.gz"] := by decide +kernel

/-- The hypotheses of `cleaned_exactly_partial` hold for it. -/
example : OneEach exFiles := by
  intro f hf g hg
  simp only [exFiles, List.mem_cons, List.not_mem_nil, or_false] at hf hg
  rcases hf with rfl | rfl | rfl <;> rcases hg with rfl | rfl | rfl <;> decide +kernel

/-- The hypothesis `Listing` holds for it. -/
theorem exFiles_listed : Listing (asc "a.log") exDir exFiles := by
  refine ⟨?_, ?_⟩
  · intro f
    constructor
    · intro hf
      simp only [exFiles, List.mem_cons, List.not_mem_nil, or_false] at hf
      rcases hf with rfl | rfl | rfl
      · exact ⟨⟨2016, 11, 6, 18, 30, 0, 0⟩, ⟨(asc "a-2016-11-06T18-30-00.000.log", asc "3"), by simp [exDir], rfl⟩, by decide +kernel, by decide +kernel⟩
      · exact ⟨⟨2016, 11, 5, 18, 30, 0, 0⟩, ⟨(asc "a-2016-11-05T18-30-00.000.log.gz", asc "2"), by simp [exDir], rfl⟩, by decide +kernel, by decide +kernel⟩
      · exact ⟨⟨2016, 11, 4, 18, 30, 0, 0⟩, ⟨(asc "a-2016-11-04T18-30-00.000.log", asc "1"), by simp [exDir], rfl⟩, by decide +kernel, by decide +kernel⟩
    · rintro ⟨c, ⟨x, hx, hxn⟩, hb, ht⟩
      obtain ⟨t, n⟩ := f
      simp only at hxn hb ht
      subst hxn
      simp only [exDir, List.mem_cons, List.not_mem_nil, or_false] at hx
      rcases hx with rfl | rfl | rfl | rfl
      · exact absurd hb (by rw [live_not_backup]; exact fun h => by cases h)
      · have h2 : backupTime (asc "a.log") (asc "a-2016-11-04T18-30-00.000.log") = .time ⟨2016, 11, 4, 18, 30, 0, 0⟩ := by decide +kernel
        rw [h2] at hb
        injection hb with hb
        subst hb
        have h3 : (Civil.mk 2016 11 4 18 30 0 0).millis * 1000000 = 1478284200000000000 := by decide +kernel
        rw [ht, h3]
        simp [exFiles]
      · have h2 : backupTime (asc "a.log") (asc "a-2016-11-05T18-30-00.000.log.gz") = .time ⟨2016, 11, 5, 18, 30, 0, 0⟩ := by decide +kernel
        rw [h2] at hb
        injection hb with hb
        subst hb
        have h3 : (Civil.mk 2016 11 5 18 30 0 0).millis * 1000000 = 1478370600000000000 := by decide +kernel
        rw [ht, h3]
        simp [exFiles]
      · have h2 : backupTime (asc "a.log") (asc "a-2016-11-06T18-30-00.000.log") = .time ⟨2016, 11, 6, 18, 30, 0, 0⟩ := by decide +kernel
        rw [h2] at hb
        injection hb with hb
        subst hb
        have h3 : (Civil.mk 2016 11 6 18 30 0 0).millis * 1000000 = 1478457000000000000 := by decide +kernel
        rw [ht, h3]
        simp [exFiles]
  · decide +kernel

end Verif.Lumberjack
