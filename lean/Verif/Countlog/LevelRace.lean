import Verif.Countlog.Props

/-!
# C163: changing the minimum level while goroutines log

In `Model` the minimum level is changed between calls.  Here any number of goroutines log and change it at the same time; their accesses
to `spi.MinLevel` and `spi.MinCallLevel` are single steps, which may come in any order.
-/

namespace Verif.Countlog.LevelRace

/-! ### Model -/

/-- A call of a log function (countlog/countlog.go:37-127, context.go:37-130): `failed` is `err != nil`, `suppressed` the level set with
`SuppressLevelsBelow`, and `both` whether the handler of the event is a `statsAndOutput` (countlog/root.go:22-27). -/
structure Call where
  api : Api
  failed : Bool
  suppressed : Int
  both : Bool
  deriving DecidableEq

/-- What goroutines do: `SetMinLevel` (countlog/countlog.go:28-31) or a log function. -/
inductive Item where
  | set (level : Int)
  | log (c : Call)
  deriving DecidableEq

/-- Where a goroutine is: between two items, between the two assignments of `SetMinLevel` (countlog/countlog.go:29 and 30), or after the
check of `MinLevel` (countlog.go:38 etc.), read in state `t`, and before that of `MinCallLevel` (countlog/root.go:64). -/
inductive Pc where
  | idle
  | half (level : Int)
  | passed (c : Call) (level : Int) (t : Nat)
  deriving DecidableEq

/-- A goroutine: what it has still to do, and where it is (countlog/countlog.go:28-127). -/
structure Gor where
  todo : List Item
  pc : Pc

/-- What becomes of an event: nothing, counted by the stats handler only, or given to the output handler (and counted, if there is a
stats handler); countlog/root.go:36-67, where the handlers are taken not to panic (for panics see C27 and C161). -/
inductive Outcome where
  | nothing
  | counted
  | full
  deriving DecidableEq

/-- A call of `SetMinLevel` (countlog/countlog.go:28-31) for the record: whose, to which level, and whether it has finished. -/
structure SetRec where
  by_ : Nat
  level : Int
  ended : Bool
  deriving DecidableEq

/-- A finished call of a log function (countlog/countlog.go:37-127) for the record: whose, its first and last check of levels by the number
of the state they read, and what became of the event. -/
structure Done where
  by_ : Nat
  call : Call
  first : Nat
  last : Nat
  outcome : Outcome
  deriving DecidableEq

/-- The two variables (countlog/spi/spi.go:10-13), the goroutines by number, the number of steps done, and the records. -/
structure Run where
  minLevel : Int
  minCallLevel : Int
  gor : Nat → Gor
  time : Nat
  sets : List SetRec
  done : List Done

/-- The last call of `SetMinLevel` of goroutine `i` has finished (countlog/countlog.go:30-31). -/
def finish (i : Nat) : List SetRec → List SetRec
  | [] => []
  | r :: rs => if r.by_ = i then { r with ended := true } :: rs else r :: finish i rs

/-- Goroutine `i` goes on as `g` (countlog/countlog.go:28-127). -/
def Run.put (s : Run) (i : Nat) (g : Gor) : Nat → Gor := fun j => if j = i then g else s.gor j

/-- Goroutine `i` does its next access: `MinLevel = level` (countlog/countlog.go:29), `MinCallLevel = level + 5` (30), the check of `MinLevel`
(countlog.go:38 etc., context.go:38 etc.; functions without a check do nothing here), or the check of `MinCallLevel` (countlog/root.go:64)
with the handlers after it.  Reads and writes of an `int` are taken as atomic, as they are on the machines Go runs on, though the language
does not promise it. -/
def Run.step (s : Run) (i : Nat) : Run :=
  match (s.gor i).pc, (s.gor i).todo with
  | .idle, [] => { s with time := s.time + 1 }
  | .idle, .set level :: rest =>
    { s with minLevel := level, gor := s.put i ⟨rest, .half level⟩, sets := ⟨i, level, false⟩ :: s.sets, time := s.time + 1 }
  | .half level, todo =>
    { s with minCallLevel := level + 5, gor := s.put i ⟨todo, .idle⟩, sets := finish i s.sets, time := s.time + 1 }
  | .idle, .log c :: rest =>
    match entry ⟨s.minLevel, s.minCallLevel⟩ c.suppressed c.failed c.api with
    | none => { s with gor := s.put i ⟨rest, .idle⟩, done := s.done ++ [⟨i, c, s.time, s.time, .nothing⟩], time := s.time + 1 }
    | some (level, _) => { s with gor := s.put i ⟨rest, .passed c level s.time⟩, time := s.time + 1 }
  | .passed c level t, todo =>
    { s with
      gor := s.put i ⟨todo, .idle⟩
      done := s.done ++ [⟨i, c, t, s.time, if c.both ∧ ¬ s.minCallLevel ≤ level then .counted else .full⟩]
      time := s.time + 1 }

/-- Before anything is done, with the levels of countlog/spi/spi.go:10-13. -/
def Run.start (job : Nat → List Item) : Run := ⟨Levels.init.minLevel, Levels.init.minCallLevel, fun i => ⟨job i, .idle⟩, 0, [], []⟩

/-- After `n` steps, `sched k` being the goroutine that does step `k`. -/
def Run.after (sched : Nat → Nat) (job : Nat → List Item) : Nat → Run
  | 0 => Run.start job
  | n + 1 => (Run.after sched job n).step (sched n)

/-! ### Specification -/

/-- What the event of a call should come to with minimum level `m`: with a stats handler it is only counted within half a level. -/
def Treat (m : Int) (c : Call) : Outcome → Prop
  | .nothing => ¬ wanted m c.suppressed c.failed c.api
  | .counted => wanted m c.suppressed c.failed c.api ∧ c.both = true ∧ c.api.levelOf c.failed < m + 5
  | .full => wanted m c.suppressed c.failed c.api ∧ (c.both = true → m + 5 ≤ c.api.levelOf c.failed)

/-- The level of the newest of these calls, or Trace. -/
def top : List SetRec → Int
  | [] => 10
  | r :: _ => r.level

/-- `m` may be taken as the minimum level: it was set by a call that has begun, and no call begun after it has finished (or it is the
level at the start, and no call has finished). -/
def InForce (s : Run) (m : Int) : Prop :=
  ∃ pre post, s.sets = pre ++ post ∧ (∀ r ∈ pre, r.ended = false) ∧ m = top post

/-- No two goroutines are in `SetMinLevel`. -/
def OneAtATime (s : Run) : Prop := ∀ i j l l', (s.gor i).pc = .half l → (s.gor j).pc = .half l' → i = j

/-! ### The levels, if set one at a time -/

structure Inv (s : Run) : Prop where
  half : ∀ i l, (s.gor i).pc = .half l → ∃ rs, s.sets = ⟨i, l, false⟩ :: rs ∧ (∀ r ∈ rs, r.ended = true) ∧ s.minLevel = l ∧
    s.minCallLevel = top rs + 5
  none : (∀ i l, (s.gor i).pc ≠ .half l) → (∀ r ∈ s.sets, r.ended = true) ∧ s.minLevel = top s.sets ∧ s.minCallLevel = top s.sets + 5

theorem put_self (s : Run) (i : Nat) (g : Gor) : s.put i g i = g := if_pos rfl
theorem put_ne (s : Run) {i j : Nat} (g : Gor) (h : j ≠ i) : s.put i g j = s.gor j := if_neg h

/-- A step that leaves the levels and the calls of `SetMinLevel` alone. -/
theorem Inv.keep {s t : Run} (h : Inv s) (h1 : t.minLevel = s.minLevel) (h2 : t.minCallLevel = s.minCallLevel) (h3 : t.sets = s.sets)
    (h4 : ∀ i l, (t.gor i).pc = .half l ↔ (s.gor i).pc = .half l) : Inv t := by
  refine ⟨fun i l hi => ?_, fun hn => ?_⟩
  · rw [h1, h2, h3]
    exact h.half i l ((h4 i l).mp hi)
  · rw [h1, h2, h3]
    exact h.none fun i l hi => hn i l ((h4 i l).mpr hi)

theorem put_half (s : Run) (i : Nat) (g : Gor) (hs : ∀ l, (s.gor i).pc ≠ .half l) (hg : ∀ l, g.pc ≠ .half l) (j : Nat) (l : Int) :
    (s.put i g j).pc = .half l ↔ (s.gor j).pc = .half l := by
  by_cases hj : j = i
  · subst hj
    rw [put_self]
    exact ⟨fun h => absurd h (hg l), fun h => absurd h (hs l)⟩
  · rw [put_ne _ _ hj]

theorem step_inv (s : Run) (i : Nat) (h : Inv s) (h1 : OneAtATime s) (h2 : OneAtATime (s.step i)) : Inv (s.step i) := by
  unfold Run.step at h2 ⊢
  cases hp : (s.gor i).pc with
  | idle =>
    cases ht : (s.gor i).todo with
    | nil => exact h.keep rfl rfl rfl fun _ _ => Iff.rfl
    | cons x rest =>
      cases x with
      | set level =>
        rw [hp, ht] at h2
        simp only at h2 ⊢
        have hi : (s.put i ⟨rest, .half level⟩ i).pc = .half level := by rw [put_self]
        have hn : ∀ j l, (s.gor j).pc ≠ .half l := by
          intro j l hj
          by_cases hji : j = i
          · subst hji; rw [hp] at hj; cases hj
          · exact hji (h2 j i l level (by show (s.put i _ j).pc = _; rw [put_ne _ _ hji]; exact hj) hi)
        obtain ⟨g1, g2, g3⟩ := h.none hn
        refine ⟨fun j l hj => ?_, fun hnone => absurd hi (hnone i level)⟩
        have hji := h2 j i l level hj hi
        subst hji
        have hl : l = level := by
          have := hj.symm.trans hi
          injection this
        subst hl
        exact ⟨s.sets, rfl, g1, rfl, g3⟩
      | log c =>
        simp only
        cases entry ⟨s.minLevel, s.minCallLevel⟩ c.suppressed c.failed c.api with
        | none => exact h.keep rfl rfl rfl (put_half s i _ (by rw [hp]; simp) (by simp))
        | some p => exact h.keep rfl rfl rfl (put_half s i _ (by rw [hp]; simp) (by simp))
  | half level =>
    simp only
    obtain ⟨rs, g1, g2, g3, g4⟩ := h.half i level hp
    have hn : ∀ j l, (s.put i ⟨(s.gor i).todo, .idle⟩ j).pc ≠ .half l := by
      intro j l hj
      by_cases hji : j = i
      · subst hji; rw [put_self] at hj; cases hj
      · rw [put_ne _ _ hji] at hj
        exact hji (h1 j i l level hj hp)
    have hf : finish i s.sets = ⟨i, level, true⟩ :: rs := by rw [g1, finish, if_pos rfl]
    refine ⟨fun j l hj => absurd hj (hn j l), fun _ => ?_⟩
    simp only [hf]
    refine ⟨fun r hr => ?_, g3, rfl⟩
    rcases List.mem_cons.mp hr with rfl | hr
    · rfl
    · exact g2 r hr
  | passed c level t => exact h.keep rfl rfl rfl (put_half s i _ (by rw [hp]; simp) (by simp))

theorem after_inv (sched : Nat → Nat) (job : Nat → List Item) (n : Nat) (h : ∀ k, k ≤ n → OneAtATime (Run.after sched job k)) :
    Inv (Run.after sched job n) := by
  induction n with
  | zero =>
    refine ⟨fun i l hi => ?_, fun _ => ⟨?_, rfl, rfl⟩⟩
    · cases hi
    · simp [Run.after, Run.start]
  | succ n ih => exact step_inv _ _ (ih fun k hk => h k (by omega)) (h n (by omega)) (h (n + 1) (Nat.le_refl _))

theorem Inv.inForce {s : Run} (h : Inv s) : InForce s s.minLevel ∧ InForce s (s.minCallLevel - 5) := by
  by_cases hn : ∀ i l, (s.gor i).pc ≠ .half l
  · obtain ⟨-, g2, g3⟩ := h.none hn
    exact ⟨⟨[], s.sets, rfl, by simp, g2⟩, ⟨[], s.sets, rfl, by simp, by omega⟩⟩
  · simp only [ne_eq, Classical.not_forall, Classical.not_not] at hn
    obtain ⟨i, l, hi⟩ := hn
    obtain ⟨rs, g1, g2, g3, g4⟩ := h.half i l hi
    exact ⟨⟨[], s.sets, rfl, by simp, by rw [g1]; exact g3⟩, ⟨[⟨i, l, false⟩], rs, g1, by simp, by omega⟩⟩

/-! ### The calls -/

/-- A call decided by the levels read in two states. -/
structure Decided (sched : Nat → Nat) (job : Nat → List Item) (n : Nat) (d : Done) : Prop where
  order : d.first ≤ d.last
  past : d.last < n
  nothing : d.outcome = .nothing ↔ ¬ wanted (Run.after sched job d.first).minLevel d.call.suppressed d.call.failed d.call.api
  counted : d.outcome = .counted → d.call.both = true ∧ d.call.api.levelOf d.call.failed < (Run.after sched job d.last).minCallLevel
  full : d.outcome = .full → d.call.both = true → (Run.after sched job d.last).minCallLevel ≤ d.call.api.levelOf d.call.failed

/-- The calls of log functions among items. -/
def logsOf : List Item → List Call
  | [] => []
  | .set _ :: rest => logsOf rest
  | .log c :: rest => c :: logsOf rest

/-- The calls a goroutine has still to finish. -/
def Gor.pending (g : Gor) : List Call :=
  (match g.pc with
    | .passed c _ _ => [c]
    | _ => []) ++ logsOf g.todo

/-- The finished calls of a goroutine, in order. -/
def Run.callsOf (s : Run) (i : Nat) : List Call := (s.done.filter fun d => d.by_ = i).map Done.call

structure Calls (sched : Nat → Nat) (job : Nat → List Item) (n : Nat) (s : Run) : Prop where
  time : s.time = n
  done : ∀ d ∈ s.done, Decided sched job n d
  passed : ∀ i c level t, (s.gor i).pc = .passed c level t → t < n ∧ level = c.api.levelOf c.failed ∧
    wanted (Run.after sched job t).minLevel c.suppressed c.failed c.api
  all : ∀ i, s.callsOf i ++ (s.gor i).pending = logsOf (job i)

theorem Decided.later {sched : Nat → Nat} {job : Nat → List Item} {n m : Nat} {d : Done} (h : Decided sched job n d) (hm : n ≤ m) :
    Decided sched job m d := ⟨h.order, by have := h.past; omega, h.nothing, h.counted, h.full⟩

theorem callsOf_add (s : List Done) (d : Done) (i : Nat) : (((s ++ [d]).filter fun d => d.by_ = i).map Done.call) =
    ((s.filter fun d => d.by_ = i).map Done.call) ++ if d.by_ = i then [d.call] else [] := by
  rw [List.filter_append, List.map_append]
  by_cases h : d.by_ = i <;> simp [h]

theorem step_calls (sched : Nat → Nat) (job : Nat → List Item) (n : Nat) (h : Calls sched job n (Run.after sched job n)) :
    Calls sched job (n + 1) (Run.after sched job (n + 1)) := by
  rw [show Run.after sched job (n + 1) = (Run.after sched job n).step (sched n) from rfl]
  generalize hs : Run.after sched job n = s at h ⊢
  generalize sched n = i
  have hdone : ∀ d ∈ s.done, Decided sched job (n + 1) d := fun d hd => (h.done d hd).later (by omega)
  have hpass : ∀ g : Gor, (∀ c level t, g.pc ≠ .passed c level t) → ∀ j c level t, (s.put i g j).pc = .passed c level t →
      t < n + 1 ∧ level = c.api.levelOf c.failed ∧ wanted (Run.after sched job t).minLevel c.suppressed c.failed c.api := by
    intro g hg j c level t hj
    by_cases hji : j = i
    · subst hji; rw [put_self] at hj; exact absurd hj (hg c level t)
    · rw [put_ne _ _ hji] at hj
      obtain ⟨a, b⟩ := h.passed j c level t hj
      exact ⟨by omega, b⟩
  have hall : ∀ g : Gor, g.pending = (s.gor i).pending → ∀ j, s.callsOf j ++ (s.put i g j).pending = logsOf (job j) := by
    intro g hg j
    by_cases hji : j = i
    · subst hji; rw [put_self, hg]; exact h.all j
    · rw [put_ne _ _ hji]; exact h.all j
  have hfin : ∀ (g : Gor) (d : Done), d.by_ = i → d.call :: g.pending = (s.gor i).pending → ∀ j,
      (((s.done ++ [d]).filter fun d => d.by_ = j).map Done.call) ++ (s.put i g j).pending = logsOf (job j) := by
    intro g d hd hg j
    rw [callsOf_add]
    by_cases hji : j = i
    · subst hji
      rw [put_self, if_pos hd, List.append_assoc, List.singleton_append, hg]
      exact h.all j
    · rw [put_ne _ _ hji, if_neg (by rw [hd]; exact fun e => hji e.symm), List.append_nil]
      exact h.all j
  have htime := h.time
  unfold Run.step
  cases hp : (s.gor i).pc with
  | idle =>
    cases ht : (s.gor i).todo with
    | nil =>
      refine ⟨by simp [htime], hdone, fun j c level t hj => ?_, h.all⟩
      obtain ⟨a, b⟩ := h.passed j c level t hj
      exact ⟨by omega, b⟩
    | cons x rest =>
      cases x with
      | set level => exact ⟨by simp [htime], hdone, hpass _ (by simp), hall _ (by simp [Gor.pending, hp, ht, logsOf])⟩
      | log c =>
        simp only
        have he := entry_iff ⟨s.minLevel, s.minCallLevel⟩ c.suppressed c.failed c.api
        cases hen : entry ⟨s.minLevel, s.minCallLevel⟩ c.suppressed c.failed c.api with
        | none =>
          refine ⟨by simp [htime], fun d hd => ?_, hpass _ (by simp), hfin _ _ rfl (by simp [Gor.pending, hp, ht, logsOf])⟩
          rcases List.mem_append.mp hd with hd | hd
          · exact hdone d hd
          · rw [List.mem_singleton.mp hd]
            refine ⟨Nat.le_refl _, by simp [htime], ?_, by simp, by simp⟩
            simp only [htime, hs, true_iff]
            intro hw
            rw [he.1 hw] at hen
            cases hen
        | some p =>
          obtain ⟨level, call⟩ := p
          refine ⟨by simp [htime], hdone, fun j c' level' t hj => ?_, hall _ (by simp [Gor.pending, hp, ht, logsOf])⟩
          by_cases hji : j = i
          · subst hji
            simp only [put_self, Pc.passed.injEq] at hj
            obtain ⟨rfl, rfl, rfl⟩ := hj
            have hw : wanted s.minLevel c.suppressed c.failed c.api := by
              apply Classical.byContradiction
              intro hw
              rw [he.2 hw] at hen
              cases hen
            rw [he.1 hw] at hen
            simp only [Option.some.injEq, Prod.mk.injEq] at hen
            exact ⟨by omega, hen.1.symm, by rw [htime, hs]; exact hw⟩
          · simp only [put_ne _ _ hji] at hj
            obtain ⟨a, b⟩ := h.passed j c' level' t hj
            exact ⟨by omega, b⟩
  | half level => exact ⟨by simp [htime], hdone, hpass _ (by simp), hall _ (by simp [Gor.pending, hp])⟩
  | passed c level t =>
    obtain ⟨a, rfl, hw⟩ := h.passed i c level t hp
    refine ⟨by simp [htime], fun d hd => ?_, hpass _ (by simp), hfin _ _ rfl (by simp [Gor.pending, hp])⟩
    rcases List.mem_append.mp hd with hd | hd
    · exact hdone d hd
    · rw [List.mem_singleton.mp hd]
      refine ⟨by simp only [htime]; omega, by simp [htime], ?_, ?_, ?_⟩
      · simp only
        refine ⟨fun ho => ?_, fun hn => absurd hw hn⟩
        split at ho <;> cases ho
      · simp only [htime, hs]
        intro ho
        split at ho
        · rename_i hc; exact ⟨hc.1, by omega⟩
        · cases ho
      · simp only [htime, hs]
        intro ho hb
        split at ho
        · cases ho
        · rename_i hc
          apply Classical.byContradiction
          exact fun hle => hc ⟨hb, hle⟩

theorem after_calls (sched : Nat → Nat) (job : Nat → List Item) (n : Nat) : Calls sched job n (Run.after sched job n) := by
  induction n with
  | zero =>
    refine ⟨rfl, by simp [Run.after, Run.start], fun i c level t hi => ?_, fun i => ?_⟩
    · cases hi
    · simp [Run.after, Run.start, Run.callsOf, Gor.pending]
  | succ n ih => exact step_calls sched job n ih

/-! ### C163 -/

/-- If one goroutine makes all calls of `SetMinLevel`, no two are in it. -/
theorem one_setter (sched : Nat → Nat) (job : Nat → List Item) (w : Nat) (hj : ∀ i, i ≠ w → ∀ l, .set l ∉ job i) (n : Nat) :
    OneAtATime (Run.after sched job n) := by
  have hpc : ∀ k i, i ≠ w → ∀ l, ((Run.after sched job k).gor i).pc ≠ .half l ∧ .set l ∉ ((Run.after sched job k).gor i).todo := by
    intro k
    induction k with
    | zero =>
      intro i hi l
      exact ⟨by simp [Run.after, Run.start], hj i hi l⟩
    | succ k ih =>
      rw [show Run.after sched job (k + 1) = (Run.after sched job k).step (sched k) from rfl]
      generalize Run.after sched job k = s at ih ⊢
      generalize sched k = j
      intro i hi l
      have hself := ih i hi l
      have hput : ∀ g : Gor, (j = i → g.pc ≠ .half l ∧ .set l ∉ g.todo) → (s.put j g i).pc ≠ .half l ∧ .set l ∉ (s.put j g i).todo := by
        intro g hg
        by_cases hij : i = j
        · subst hij; rw [put_self]; exact hg rfl
        · rw [put_ne _ _ hij]; exact hself
      unfold Run.step
      cases hp : (s.gor j).pc with
      | idle =>
        cases ht : (s.gor j).todo with
        | nil => exact hself
        | cons x rest =>
          cases x with
          | set level =>
            refine hput _ fun e => ?_
            subst e
            exact absurd (by rw [ht]; simp) (ih j hi level).2
          | log c =>
            simp only
            cases entry ⟨s.minLevel, s.minCallLevel⟩ c.suppressed c.failed c.api with
            | none =>
              refine hput _ fun e => ?_
              subst e
              refine ⟨by simp, fun hm => hself.2 (by rw [ht]; exact List.mem_cons_of_mem _ hm)⟩
            | some p =>
              refine hput _ fun e => ?_
              subst e
              refine ⟨by simp, fun hm => hself.2 (by rw [ht]; exact List.mem_cons_of_mem _ hm)⟩
      | half level =>
        refine hput _ fun e => ?_
        subst e
        exact ⟨by simp, hself.2⟩
      | passed c level t =>
        refine hput _ fun e => ?_
        subst e
        exact ⟨by simp, hself.2⟩
  intro i j l l' h1 h2
  by_cases hi : i = w
  · by_cases hj' : j = w
    · rw [hi, hj']
    · exact absurd h2 (hpc n j hj' l').1
  · exact absurd h1 (hpc n i hi l).1

/-- C163, partial: if the minimum level is set by one goroutine at a time, then in every interleaving every event is dropped, counted or
written as with a minimum level in force at some moment of the call; or it is only counted where it should have been written with one
in force first, and dropped with one in force later. -/
theorem together_partial (sched : Nat → Nat) (job : Nat → List Item) (n : Nat) (h : ∀ k, k ≤ n → OneAtATime (Run.after sched job k))
    (d : Done) (hd : d ∈ (Run.after sched job n).done) :
    (∃ t m, d.first ≤ t ∧ t ≤ d.last ∧ InForce (Run.after sched job t) m ∧ Treat m d.call d.outcome) ∨
    (d.outcome = .counted ∧ ∃ t m t' m', d.first ≤ t ∧ t ≤ t' ∧ t' ≤ d.last ∧ InForce (Run.after sched job t) m ∧
      InForce (Run.after sched job t') m' ∧ Treat m d.call .full ∧ Treat m' d.call .nothing) := by
  have hc := (after_calls sched job n).done d hd
  have ho := hc.order
  have hp := hc.past
  have f1 := (after_inv sched job d.first fun k hk => h k (by omega)).inForce.1
  have f2 := (after_inv sched job d.last fun k hk => h k (by omega)).inForce.2
  generalize hm1 : (Run.after sched job d.first).minLevel = m1 at f1 hc
  generalize hm2 : (Run.after sched job d.last).minCallLevel = c2 at f2 hc
  have hn := hc.nothing
  rw [hm1] at hn
  have hcnt := hc.counted
  have hful := hc.full
  rw [hm2] at hcnt hful
  cases hout : d.outcome with
  | nothing => exact .inl ⟨d.first, m1, Nat.le_refl _, ho, f1, hn.mp hout⟩
  | counted =>
    obtain ⟨hb, hl⟩ := hcnt hout
    have hw1 : wanted m1 d.call.suppressed d.call.failed d.call.api := by
      apply Classical.byContradiction
      intro hw
      rw [hn.mpr hw] at hout
      cases hout
    by_cases hw2 : wanted (c2 - 5) d.call.suppressed d.call.failed d.call.api
    · exact .inl ⟨d.last, c2 - 5, ho, Nat.le_refl _, f2, hw2, hb, by omega⟩
    · by_cases hl1 : d.call.api.levelOf d.call.failed < m1 + 5
      · exact .inl ⟨d.first, m1, Nat.le_refl _, ho, f1, hw1, hb, hl1⟩
      · exact .inr ⟨rfl, d.first, m1, d.last, c2 - 5, Nat.le_refl _, ho, Nat.le_refl _, f1, f2, ⟨hw1, fun _ => by omega⟩, hw2⟩
  | full =>
    have hw1 : wanted m1 d.call.suppressed d.call.failed d.call.api := by
      apply Classical.byContradiction
      intro hw
      rw [hn.mpr hw] at hout
      cases hout
    cases hb : d.call.both with
    | false => exact .inl ⟨d.first, m1, Nat.le_refl _, ho, f1, hw1, fun e => by rw [hb] at e; cases e⟩
    | true =>
      have hl := hful hout hb
      refine .inl ⟨d.last, c2 - 5, ho, Nat.le_refl _, f2, ?_, fun _ => by omega⟩
      generalize d.call.api = a at *
      cases a <;> simp only [wanted, Api.levelOf] at hw1 hl ⊢ <;> first | trivial | (try omega)
      all_goals first
        | exact ⟨by omega, hw1.2⟩
        | exact .inr (by omega)

/-- A call during which no `SetMinLevel` is going on is treated as the last level set says. -/
theorem undisturbed (sched : Nat → Nat) (job : Nat → List Item) (n : Nat) (h : ∀ k, k ≤ n → OneAtATime (Run.after sched job k))
    (d : Done) (hd : d ∈ (Run.after sched job n).done)
    (hq : ∀ t, d.first ≤ t → t ≤ d.last → (∀ i l, ((Run.after sched job t).gor i).pc ≠ .half l) ∧
      (Run.after sched job t).sets = (Run.after sched job d.first).sets) :
    Treat (top (Run.after sched job d.first).sets) d.call d.outcome := by
  have hc := (after_calls sched job n).done d hd
  have hpast := hc.past
  have key : ∀ t m, d.first ≤ t → t ≤ d.last → InForce (Run.after sched job t) m → m = top (Run.after sched job d.first).sets := by
    intro t m h1 h2 hm
    obtain ⟨g1, g2⟩ := hq t h1 h2
    obtain ⟨e, -, -⟩ := (after_inv sched job t fun k hk => h k (by omega)).none g1
    obtain ⟨pre, post, p1, p2, p3⟩ := hm
    cases pre with
    | nil => rw [p3, ← g2, p1]; rfl
    | cons r pre =>
      have a := p2 r (by simp)
      have b := e r (by rw [p1]; simp)
      rw [a] at b
      cases b
  rcases together_partial sched job n h d hd with ⟨t, m, h1, h2, h3, h4⟩ | ⟨-, t, m, t', m', h1, h2, h3, h4, h5, h6, h7⟩
  · rw [← key t m h1 h2 h3]; exact h4
  · have e := key t m h1 (by omega) h4
    have e' := key t' m' (by omega) h3 h5
    rw [e] at h6
    rw [e'] at h7
    exact absurd h6.1 h7

/-- Warnings, errors, fatal events and failed calls are never dropped, in any interleaving; without a stats handler they are written. -/
theorem important_kept (sched : Nat → Nat) (job : Nat → List Item) (n : Nat) (d : Done) (hd : d ∈ (Run.after sched job n).done)
    (hi : d.call.api = .warn ∨ d.call.api = .error ∨ d.call.api = .fatal ∨ (d.call.api.isCall = true ∧ d.call.failed = true)) :
    d.outcome ≠ .nothing ∧ (d.call.both = false → d.outcome = .full) := by
  have hc := (after_calls sched job n).done d hd
  have hw : ∀ m, wanted m d.call.suppressed d.call.failed d.call.api := by
    intro m
    rcases hi with e | e | e | ⟨e, hf⟩
    · rw [e]; trivial
    · rw [e]; trivial
    · rw [e]; trivial
    · generalize d.call.api = a at *
      cases a <;> first | cases e; done | simp [wanted, hf]
  have h1 : d.outcome ≠ .nothing := fun ho => (hc.nothing.mp ho) (hw _)
  refine ⟨h1, fun hb => ?_⟩
  cases ho : d.outcome with
  | nothing => exact absurd ho h1
  | counted =>
    have := (hc.counted ho).1
    rw [hb] at this
    cases this
  | full => rfl

/-- Every call is decided once, and in order: the calls of a goroutine that has nothing left to do are those it was to make. -/
theorem all_decided (sched : Nat → Nat) (job : Nat → List Item) (n i : Nat) (h1 : ((Run.after sched job n).gor i).todo = [])
    (h2 : ((Run.after sched job n).gor i).pc = .idle) : (Run.after sched job n).callsOf i = logsOf (job i) := by
  have := (after_calls sched job n).all i
  simpa [Gor.pending, h1, h2, logsOf] using this

/-! ### What is not so -/

/-- One goroutine sets the level to Error, the other makes a call that takes half a level more to be written. -/
def tornJob : Nat → List Item
  | 0 => [.set 50]
  | 1 => [.log ⟨.infoCall, false, 0, true⟩]
  | _ => []

/-- The check of `MinLevel`, both assignments, the check of `MinCallLevel`. -/
def tornSched : Nat → Nat
  | 0 => 1
  | 1 => 0
  | 2 => 0
  | 3 => 1
  | _ => 2

theorem tornJob_one : ∀ i, i ≠ 0 → ∀ l, .set l ∉ tornJob i
  | 0, hi, _ => absurd rfl hi
  | 1, _, _ => by simp [tornJob]
  | i + 2, _, _ => by simp [tornJob]

/-- The full statement of C163 is false: an event is counted but not written that should be written with the level before and dropped with
the level after. -/
theorem torn : (∀ k, OneAtATime (Run.after tornSched tornJob k)) ∧
    (Run.after tornSched tornJob 4).done = [⟨1, ⟨.infoCall, false, 0, true⟩, 0, 3, .counted⟩] ∧
    Treat 10 ⟨.infoCall, false, 0, true⟩ .full ∧ Treat 50 ⟨.infoCall, false, 0, true⟩ .nothing ∧
    ∀ t m, InForce (Run.after tornSched tornJob t) m → t ≤ 3 → m = 10 ∨ m = 50 := by
  refine ⟨fun k => one_setter _ _ 0 tornJob_one k, by decide, by simp [Treat, wanted, Api.levelOf], by simp [Treat, wanted, Api.levelOf], ?_⟩
  · intro t m hm ht
    have hsets : ∀ t, t ≤ 3 → ∀ r ∈ (Run.after tornSched tornJob t).sets, r.level = 50 := by decide
    obtain ⟨pre, post, p1, -, p3⟩ := hm
    cases post with
    | nil => exact .inl p3
    | cons r post => exact .inr (p3.trans (hsets t ht r (by rw [p1]; simp)))

/-- Two goroutines set the level, all others only log. -/
structure TwoSetters (low high : Int) (job : Nat → List Item) : Prop where
  first : job 0 = [.set high]
  second : job 1 = [.set low]
  rest : ∀ i, 2 ≤ i → ∀ l, .set l ∉ job i

/-- The full statement of C163 is false: two goroutines that set the level at the same time can leave one level for the one check and
the other level for the other, for good: from then on calls between the levels are only counted, though with the lower level they should be
written and with the higher one dropped. -/
theorem mixed_forever (low high : Int) (job : Nat → List Item) (hj : TwoSetters low high job) (sched : Nat → Nat)
    (h0 : sched 0 = 0) (h1 : sched 1 = 1) (h2 : sched 2 = 1) (h3 : sched 3 = 0) (n : Nat) (hn : 4 ≤ n) :
    (∀ r ∈ (Run.after sched job n).sets, r.ended = true) ∧ (Run.after sched job n).minLevel = low ∧
    (Run.after sched job n).minCallLevel = high + 5 ∧
    ∀ d ∈ (Run.after sched job n).done, 4 ≤ d.first → d.call.api.isCall = true → d.call.failed = false → d.call.both = true →
      low + 5 ≤ d.call.api.levelOf false → d.call.api.levelOf false < high →
      d.outcome = .counted ∧ Treat low d.call .full ∧ Treat high d.call .nothing := by
  have base : (Run.after sched job 4).minLevel = low ∧ (Run.after sched job 4).minCallLevel = high + 5 ∧
      (Run.after sched job 4).sets = [⟨1, low, true⟩, ⟨0, high, true⟩] ∧
      ∀ i, (∀ l, ((Run.after sched job 4).gor i).pc ≠ .half l) ∧ ∀ l, .set l ∉ ((Run.after sched job 4).gor i).todo := by
    simp only [Run.after, h0, h1, h2, h3]
    have e1 : (Run.start job).step 0 = { Run.start job with minLevel := high, gor := (Run.start job).put 0 ⟨[], .half high⟩, sets := [⟨0, high, false⟩], time := 1 } := by
      simp [Run.step, Run.start, hj.first]
    rw [e1]
    generalize hs1 : ({ Run.start job with minLevel := high, gor := (Run.start job).put 0 ⟨[], .half high⟩, sets := [⟨0, high, false⟩], time := 1 } : Run) = s1
    have g1 : s1.gor 1 = ⟨[.set low], .idle⟩ := by
      rw [← hs1]
      show (Run.start job).put 0 ⟨[], .half high⟩ 1 = _
      rw [put_ne _ _ (by decide)]
      simp [Run.start, hj.second]
    have e2 : s1.step 1 = { s1 with minLevel := low, gor := s1.put 1 ⟨[], .half low⟩, sets := ⟨1, low, false⟩ :: s1.sets, time := s1.time + 1 } := by
      simp [Run.step, g1]
    rw [e2]
    generalize hs2 : ({ s1 with minLevel := low, gor := s1.put 1 ⟨[], .half low⟩, sets := ⟨1, low, false⟩ :: s1.sets, time := s1.time + 1 } : Run) = s2
    have g2 : s2.gor 1 = ⟨[], .half low⟩ := by
      rw [← hs2]
      exact put_self s1 1 ⟨[], .half low⟩
    have e3 : s2.step 1 = { s2 with minCallLevel := low + 5, gor := s2.put 1 ⟨[], .idle⟩, sets := finish 1 s2.sets, time := s2.time + 1 } := by
      simp [Run.step, g2]
    rw [e3]
    generalize hs3 : ({ s2 with minCallLevel := low + 5, gor := s2.put 1 ⟨[], .idle⟩, sets := finish 1 s2.sets, time := s2.time + 1 } : Run) = s3
    have g3 : s3.gor 0 = ⟨[], .half high⟩ := by
      rw [← hs3]
      show s2.put 1 ⟨[], .idle⟩ 0 = _
      rw [put_ne _ _ (by decide), ← hs2]
      show s1.put 1 ⟨[], .half low⟩ 0 = _
      rw [put_ne _ _ (by decide), ← hs1]
      exact put_self (Run.start job) 0 ⟨[], .half high⟩
    have e4 : s3.step 0 = { s3 with minCallLevel := high + 5, gor := s3.put 0 ⟨[], .idle⟩, sets := finish 0 s3.sets, time := s3.time + 1 } := by
      simp [Run.step, g3]
    rw [e4]
    refine ⟨by rw [← hs3, ← hs2], rfl, by rw [← hs3, ← hs2, ← hs1]; rfl, fun i => ?_⟩
    show (∀ l, (s3.put 0 ⟨[], .idle⟩ i).pc ≠ .half l) ∧ ∀ l, .set l ∉ (s3.put 0 ⟨[], .idle⟩ i).todo
    by_cases hi0 : i = 0
    · subst hi0; rw [put_self]; simp
    · rw [put_ne _ _ hi0, ← hs3]
      show (∀ l, (s2.put 1 ⟨[], .idle⟩ i).pc ≠ .half l) ∧ ∀ l, .set l ∉ (s2.put 1 ⟨[], .idle⟩ i).todo
      by_cases hi1 : i = 1
      · subst hi1; rw [put_self]; simp
      · rw [put_ne _ _ hi1, ← hs2]
        show (∀ l, (s1.put 1 ⟨[], .half low⟩ i).pc ≠ .half l) ∧ ∀ l, .set l ∉ (s1.put 1 ⟨[], .half low⟩ i).todo
        rw [put_ne _ _ hi1, ← hs1]
        show (∀ l, ((Run.start job).put 0 ⟨[], .half high⟩ i).pc ≠ .half l) ∧ ∀ l, .set l ∉ ((Run.start job).put 0 ⟨[], .half high⟩ i).todo
        rw [put_ne _ _ hi0]
        exact ⟨by simp [Run.start], fun l => hj.rest i (by omega) l⟩
  have stay : ∀ k, (Run.after sched job (4 + k)).minLevel = low ∧ (Run.after sched job (4 + k)).minCallLevel = high + 5 ∧
      (Run.after sched job (4 + k)).sets = [⟨1, low, true⟩, ⟨0, high, true⟩] ∧
      ∀ i, (∀ l, ((Run.after sched job (4 + k)).gor i).pc ≠ .half l) ∧ ∀ l, .set l ∉ ((Run.after sched job (4 + k)).gor i).todo := by
    intro k
    induction k with
    | zero => exact base
    | succ k ih =>
      rw [show Run.after sched job (4 + (k + 1)) = (Run.after sched job (4 + k)).step (sched (4 + k)) from rfl]
      generalize Run.after sched job (4 + k) = s at ih ⊢
      generalize sched (4 + k) = j
      obtain ⟨a, b, c, hg⟩ := ih
      have hput : ∀ g : Gor, (∀ l, g.pc ≠ .half l) → (∀ l, .set l ∉ g.todo) → ∀ i, (∀ l, (s.put j g i).pc ≠ .half l) ∧ ∀ l, .set l ∉ (s.put j g i).todo := by
        intro g q1 q2 i
        by_cases hij : i = j
        · subst hij; rw [put_self]; exact ⟨q1, q2⟩
        · rw [put_ne _ _ hij]; exact hg i
      unfold Run.step
      cases hp : (s.gor j).pc with
      | idle =>
        cases ht : (s.gor j).todo with
        | nil => exact ⟨a, b, c, hg⟩
        | cons x rest =>
          have hrest : ∀ l, .set l ∉ rest := fun l hm => (hg j).2 l (by rw [ht]; exact List.mem_cons_of_mem _ hm)
          cases x with
          | set level => exact absurd (by rw [ht]; simp) ((hg j).2 level)
          | log c' =>
            simp only
            cases entry ⟨s.minLevel, s.minCallLevel⟩ c'.suppressed c'.failed c'.api with
            | none => exact ⟨a, b, c, hput _ (by simp) hrest⟩
            | some p => exact ⟨a, b, c, hput _ (by simp) hrest⟩
      | half level => exact absurd hp ((hg j).1 level)
      | passed c' level t => exact ⟨a, b, c, hput _ (by simp) (hg j).2⟩
  have at_ : ∀ m, 4 ≤ m → (Run.after sched job m).minLevel = low ∧ (Run.after sched job m).minCallLevel = high + 5 ∧
      (Run.after sched job m).sets = [⟨1, low, true⟩, ⟨0, high, true⟩] := by
    intro m hm
    have := stay (m - 4)
    rw [show 4 + (m - 4) = m by omega] at this
    exact ⟨this.1, this.2.1, this.2.2.1⟩
  refine ⟨by rw [(at_ n hn).2.2]; simp, (at_ n hn).1, (at_ n hn).2.1, fun d hd hf hcall hfail hb hlow hhigh => ?_⟩
  have hc := (after_calls sched job n).done d hd
  have hlast : 4 ≤ d.last := Nat.le_trans hf hc.order
  have hwant : ∀ m, wanted m d.call.suppressed d.call.failed d.call.api ↔ m ≤ d.call.api.levelOf false := by
    intro m
    rw [hfail]
    generalize d.call.api = a at *
    cases a <;> first | cases hcall; done | simp [wanted]
  refine ⟨?_, ⟨(hwant low).mpr (by omega), fun _ => by rw [hfail]; exact hlow⟩, fun hw => ?_⟩
  · cases ho : d.outcome with
    | nothing =>
      have := hc.nothing.mp ho
      rw [(at_ d.first hf).1] at this
      exact absurd ((hwant low).mpr (by omega)) this
    | counted => rfl
    | full =>
      have := hc.full ho hb
      rw [(at_ d.last hlast).2.1, hfail] at this
      omega
  · have := (hwant high).mp hw
    omega

/-! ### Cases -/

/-- Two setters at the same time, and then a call. -/
def mixedJob : Nat → List Item
  | 0 => [.set 50]
  | 1 => [.set 20]
  | 2 => [.log ⟨.infoCall, false, 0, true⟩]
  | _ => []

/-- Their interleaving. -/
def mixedSched : Nat → Nat
  | 0 => 0
  | 1 => 1
  | 2 => 1
  | 3 => 0
  | _ => 2

example : (Run.after mixedSched mixedJob 6).done = [⟨2, ⟨.infoCall, false, 0, true⟩, 4, 5, .counted⟩] := by decide

example : TwoSetters 20 50 mixedJob := ⟨rfl, rfl, fun i hi l => by
  match i, hi with
  | 2, _ => simp [mixedJob]
  | i + 3, _ => simp [mixedJob]⟩

/-- A call before, one in the middle of and one after a `SetMinLevel`. -/
def calmJob : Nat → List Item
  | 0 => [.set 30]
  | 1 => [.log ⟨.debug, false, 0, false⟩, .log ⟨.infoCall, false, 0, true⟩, .log ⟨.debug, false, 0, false⟩, .log ⟨.warn, false, 0, true⟩]
  | _ => []

/-- Their interleaving. -/
def calmSched : Nat → Nat
  | 2 => 0
  | 4 => 0
  | _ => 1

theorem calmJob_one : ∀ i, i ≠ 0 → ∀ l, .set l ∉ calmJob i
  | 0, hi, _ => absurd rfl hi
  | 1, _, _ => by simp [calmJob]
  | i + 2, _, _ => by simp [calmJob]

/-- The second call begins between the assignments and ends after them. -/
example : (∃ t m, 3 ≤ t ∧ t ≤ 5 ∧ InForce (Run.after calmSched calmJob t) m ∧ Treat m ⟨.infoCall, false, 0, true⟩ .counted) ∨
    (Outcome.counted = .counted ∧ ∃ t m t' m', 3 ≤ t ∧ t ≤ t' ∧ t' ≤ 5 ∧ InForce (Run.after calmSched calmJob t) m ∧
      InForce (Run.after calmSched calmJob t') m' ∧ Treat m ⟨.infoCall, false, 0, true⟩ .full ∧
      Treat m' ⟨.infoCall, false, 0, true⟩ .nothing) :=
  together_partial calmSched calmJob 9 (fun k _ => one_setter _ _ 0 calmJob_one k) ⟨1, ⟨.infoCall, false, 0, true⟩, 3, 5, .counted⟩
    (by decide)

/-- The third call comes after them. -/
example : Treat 30 ⟨.debug, false, 0, false⟩ .nothing :=
  undisturbed calmSched calmJob 9 (fun k _ => one_setter _ _ 0 calmJob_one k) ⟨1, ⟨.debug, false, 0, false⟩, 6, 6, .nothing⟩ (by decide)
    fun t h1 h2 => by
      obtain rfl : t = 6 := Nat.le_antisymm h2 h1
      refine ⟨fun i l => ?_, rfl⟩
      match i with
      | 0 => exact Pc.noConfusion
      | 1 => exact Pc.noConfusion
      | i + 2 => exact Pc.noConfusion

/-- The last is a warning. -/
example : Outcome.full ≠ .nothing ∧ (true = false → Outcome.full = .full) :=
  important_kept calmSched calmJob 9 ⟨1, ⟨.warn, false, 0, true⟩, 7, 8, .full⟩ (by decide) (.inl rfl)

example : (Run.after calmSched calmJob 9).callsOf 1 = logsOf (calmJob 1) := all_decided calmSched calmJob 9 1 (by decide) (by decide)

example : (Run.after calmSched calmJob 9).done.map Done.outcome = [.full, .counted, .nothing, .full] := by decide

end Verif.Countlog.LevelRace
