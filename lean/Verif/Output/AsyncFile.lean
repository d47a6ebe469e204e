import Verif.Output.Async
import Verif.Output.Lumberjack

/-!
# C149: the asynchronous writer in front of a rolling file

The composition of the two models: the writer that the worker of countlog/output/async/async.go writes to is the logger of
countlog/output/lumberjack/lumberjack.go.
-/

namespace Verif.AsyncFile

open Verif.Async (State Step init run step Blocking of)
open Verif.Lumberjack (Log Op Env start)

/-! ### Model -/

/-- The calls of `Write` on the logger that the worker makes (async.go 84-88 and 95-99, lumberjack.go 137-164), one for each
message received; the i-th element of the second list is what the clock says during the i-th call.  The file system takes
`w` bytes of the message. -/
def calls (w : Bytes → Nat) (ms : List Bytes) (ts : List (Nat × Nat)) : List Op :=
  List.zipWith (fun m t => .write m { time := t.1 } { time := t.2 } (w m)) ms ts

/-! ### Specification -/

/-- The contents of the backups in order of rotation, then that of the live file if there is one. -/
def files (l : Log) : List Bytes := l.backups.map Prod.snd ++ l.live.toList

/-- What whole messages, in groups, make of the live file: the first group is appended to it, every further group makes a
new file. -/
def appended : Option Bytes → List (List Bytes) → List Bytes
  | none, gs => gs.map List.flatten
  | some c, [] => [c]
  | some c, g :: gs => (c ++ g.flatten) :: gs.map List.flatten

/-! ### Proof -/

/-- The size of an open file is known. -/
def Sized (s : Log) : Prop := s.opened = true → ∃ c, s.live = some c ∧ s.size = c.length

/-- What one complete write does. -/
inductive Wrote (p : Bytes) : Log → Log → Prop where
  | first {s t : Log} : s.live = none → t.live = some p → t.backups = s.backups → Wrote p s t
  | same {s t : Log} (c : Bytes) : s.live = some c → t.live = some (c ++ p) → t.backups = s.backups → Wrote p s t
  | moved {s t : Log} (c : Bytes) (n : Nat) : s.live = some c → t.live = some p → t.backups.map Prod.snd = s.backups.map Prod.snd ++ [c] →
      t.times = s.times ++ [n] → Wrote p s t

theorem moveAside_fresh (n : Nat) (c : Bytes) (bs : List (Nat × Bytes)) (h : n ∉ bs.map Prod.fst) :
    Lumberjack.moveAside n c bs = bs ++ [(n, c)] := by
  unfold Lumberjack.moveAside
  congr 1
  rw [List.filter_eq_self]
  intro b hb
  simp only [decide_eq_true_eq]
  intro he
  exact h (he ▸ List.mem_map_of_mem hb)

theorem openNew_none (s : Log) (n : Nat) (h : s.live = none) :
    Lumberjack.openNew s { time := n } = ({ s with opened := true, size := 0, live := some [] }, true) := by
  simp [Lumberjack.openNew, Lumberjack.openTruncated, h]

theorem openNew_some (s : Log) (n : Nat) (c : Bytes) (h : s.live = some c) (hf : n ∉ s.times) :
    Lumberjack.openNew s { time := n } =
      ({ s with opened := true, size := 0, live := some [], backups := s.backups ++ [(n, c)] }, true) := by
  simp [Lumberjack.openNew, Lumberjack.openTruncated, h, moveAside_fresh n c s.backups hf]

theorem rotate_some (s : Log) (n : Nat) (c : Bytes) (h : s.live = some c) (hf : n ∉ s.times) :
    Lumberjack.rotate s { time := n } =
      ({ s with opened := true, size := 0, live := some [], backups := s.backups ++ [(n, c)] }, true) := by
  unfold Lumberjack.rotate Lumberjack.close
  split
  · have := openNew_some { s with opened := false } n c h hf
    simpa using this
  · have := openNew_some s n c h hf
    simpa using this

theorem open_none (s : Log) (n k : Nat) (h : s.live = none) :
    Lumberjack.openExistingOrNew s k { time := n } = ({ s with opened := true, size := 0, live := some [] }, true) := by
  rw [← openNew_none s n h]
  simp [Lumberjack.openExistingOrNew, h]

theorem open_big (s : Log) (n k : Nat) (c : Bytes) (h : s.live = some c) (hf : n ∉ s.times) (hb : (c.length : Int) + k ≥ s.max) :
    Lumberjack.openExistingOrNew s k { time := n } =
      ({ s with opened := true, size := 0, live := some [], backups := s.backups ++ [(n, c)] }, true) := by
  rw [← rotate_some s n c h hf]
  simp only [Lumberjack.openExistingOrNew, h]
  exact if_pos hb

theorem open_small (s : Log) (n k : Nat) (c : Bytes) (h : s.live = some c) (hb : ¬ (c.length : Int) + k ≥ s.max) :
    Lumberjack.openExistingOrNew s k { time := n } = ({ s with opened := true, size := c.length }, true) := by
  simp only [Lumberjack.openExistingOrNew, h]
  exact if_neg hb

/-- The end of `Write`. -/
theorem write_eq (s r1 r2 : Log) (p : Bytes) (e1 e2 : Env) (w : Nat) (hm : (p.length : Int) ≤ s.max)
    (h1 : (if s.opened then (s, true) else Lumberjack.openExistingOrNew s p.length e1) = (r1, true))
    (h2 : (if r1.size + p.length > r1.max then Lumberjack.rotate r1 e2 else (r1, true)) = (r2, true)) (hw : p.length ≤ w) :
    (Lumberjack.write s p e1 e2 w).1 = { r2 with live := r2.live.map (· ++ p), size := r2.size + p.length } := by
  unfold Lumberjack.write
  rw [if_neg (by omega)]
  simp only [h1, if_true]
  simp only [h2, if_true]
  have : min w p.length = p.length := by omega
  simp [this]

theorem write_wrote (s : Log) (p : Bytes) (a b w : Nat) (hs : Sized s) (hm : (p.length : Int) ≤ s.max) (hw : p.length ≤ w)
    (ha : a ∉ s.times) (hb : b ∉ s.times) :
    let t := (Lumberjack.write s p { time := a } { time := b } w).1
    Sized t ∧ t.max = s.max ∧ Wrote p s t ∧ ∃ ts, ts.Sublist [a, b] ∧ t.times = s.times ++ ts := by
  intro t
  by_cases ho : s.opened = true
  · obtain ⟨c, hc, hsz⟩ := hs ho
    have h1 : (if s.opened then (s, true) else Lumberjack.openExistingOrNew s p.length { time := a }) = (s, true) := if_pos ho
    by_cases hbig : s.size + p.length > s.max
    · have h2 := (if_pos hbig : (if s.size + p.length > s.max then Lumberjack.rotate s { time := b } else (s, true)) = _).trans
        (rotate_some s b c hc hb)
      have ht := write_eq s _ _ p _ _ w hm h1 h2 hw
      change t = _ at ht
      rw [ht]
      refine ⟨fun _ => ⟨p, rfl, by simp⟩, rfl, .moved c b hc rfl (by simp) (by simp [Lumberjack.Log.times]), [b], by simp,
        by simp [Lumberjack.Log.times]⟩
    · have ht := write_eq s _ _ p _ { time := b } w hm h1 (if_neg hbig) hw
      change t = _ at ht
      rw [ht]
      refine ⟨fun _ => ⟨c ++ p, by simp [hc], by simp [hsz]⟩, rfl, .same c hc (by simp [hc]) rfl, [], by simp,
        by simp [Lumberjack.Log.times]⟩
  · cases hl : s.live with
    | none =>
      have h1 := (if_neg ho : (if s.opened then (s, true) else Lumberjack.openExistingOrNew s p.length { time := a }) = _).trans
        (open_none s a p.length hl)
      have ht := write_eq s _ _ p _ { time := b } w hm h1 (if_neg (by simp; omega)) hw
      change t = _ at ht
      rw [ht]
      refine ⟨fun _ => ⟨p, rfl, by simp⟩, rfl, .first hl rfl rfl, [], by simp, by simp [Lumberjack.Log.times]⟩
    | some c =>
      by_cases hbig : (c.length : Int) + p.length ≥ s.max
      · have h1 := (if_neg ho : (if s.opened then (s, true) else Lumberjack.openExistingOrNew s p.length { time := a }) = _).trans
          (open_big s a p.length c hl ha hbig)
        have ht := write_eq s _ _ p _ { time := b } w hm h1 (if_neg (by simp; omega)) hw
        change t = _ at ht
        rw [ht]
        refine ⟨fun _ => ⟨p, rfl, by simp⟩, rfl, .moved c a hl rfl (by simp) (by simp [Lumberjack.Log.times]), [a], by simp,
          by simp [Lumberjack.Log.times]⟩
      · have h1 := (if_neg ho : (if s.opened then (s, true) else Lumberjack.openExistingOrNew s p.length { time := a }) = _).trans
          (open_small s a p.length c hl hbig)
        have ht := write_eq s _ _ p _ { time := b } w hm h1 (if_neg (by simp; omega)) hw
        change t = _ at ht
        rw [ht]
        refine ⟨fun _ => ⟨c ++ p, by simp [hl], by simp⟩, rfl, .same c hl (by simp [hl]) rfl, [], by simp,
          by simp [Lumberjack.Log.times]⟩

theorem appended_some (c : Bytes) (gs : List (List Bytes)) : ∃ (g : List Bytes) (gs' : List (List Bytes)),
    g ++ gs'.flatten = gs.flatten ∧ appended (some c) gs = (c ++ g.flatten) :: gs'.map List.flatten := by
  cases gs with
  | nil => exact ⟨[], [], by simp, by simp [appended]⟩
  | cons g gs => exact ⟨g, gs, by simp, rfl⟩

theorem ops_files (w : Bytes → Nat) : ∀ (ms : List Bytes) (ts : List (Nat × Nat)) (s : Log), Sized s → ts.length = ms.length →
    (∀ m ∈ ms, (m.length : Int) ≤ s.max ∧ m.length ≤ w m) → (s.times ++ ts.flatMap fun t => [t.1, t.2]).Nodup →
    ∃ gs, gs.flatten = ms ∧ files (s.ops (calls w ms ts)).1 = s.backups.map Prod.snd ++ appended s.live gs := by
  intro ms
  induction ms with
  | nil =>
    intro ts s _ _ _ _
    refine ⟨[], rfl, ?_⟩
    have : (s.ops (calls w [] ts)).1 = s := by simp [calls, Lumberjack.Log.ops]
    rw [this, files]
    cases s.live <;> rfl
  | cons m ms ih =>
    intro ts s hs hlen hok hf
    cases ts with
    | nil => simp at hlen
    | cons t ts =>
      rw [List.flatMap_cons, ← List.append_assoc] at hf
      have hf1 := (List.nodup_append.mp hf).1
      have ha : t.1 ∉ s.times := fun h => (List.nodup_append.mp hf1).2.2 _ h _ (by simp) rfl
      have hb : t.2 ∉ s.times := fun h => (List.nodup_append.mp hf1).2.2 _ h _ (by simp) rfl
      obtain ⟨h1, h2, h3, us, hus, h4⟩ := write_wrote s m t.1 t.2 (w m) hs (hok m (List.mem_cons_self ..)).1
        (hok m (List.mem_cons_self ..)).2 ha hb
      have hrun : (s.ops (calls w (m :: ms) (t :: ts))).1 =
          ((Lumberjack.write s m { time := t.1 } { time := t.2 } (w m)).1.ops (calls w ms ts)).1 := rfl
      rw [hrun]
      generalize (Lumberjack.write s m { time := t.1 } { time := t.2 } (w m)).1 = s' at *
      have hf' : (s'.times ++ ts.flatMap fun t => [t.1, t.2]).Nodup := by
        rw [h4]
        exact hf.sublist (((List.Sublist.refl _).append hus).append (List.Sublist.refl _))
      obtain ⟨gs, hgs, hfiles⟩ := ih ts s' h1 (by simpa using hlen)
        (fun m' hm' => h2 ▸ hok m' (List.mem_cons_of_mem _ hm')) hf'
      rw [hfiles]
      cases h3 with
      | first hl hl' hbk =>
        obtain ⟨g, gs', hg, he⟩ := appended_some m gs
        refine ⟨(m :: g) :: gs', by simp [hg, hgs], ?_⟩
        rw [hbk, hl', hl, he]
        rfl
      | same c hl hl' hbk =>
        obtain ⟨g, gs', hg, he⟩ := appended_some (c ++ m) gs
        refine ⟨(m :: g) :: gs', by simp [hg, hgs], ?_⟩
        rw [hbk, hl', hl, he]
        simp [appended]
      | moved c n hl hl' hbk ht =>
        obtain ⟨g, gs', hg, he⟩ := appended_some m gs
        refine ⟨[] :: (m :: g) :: gs', by simp [hg, hgs], ?_⟩
        rw [hbk, hl', hl, he]
        simp [appended]

theorem run_append (xs ys : List Step) (s : State) : run s (xs ++ ys) = (run s xs).bind fun t => run t ys := by
  induction xs generalizing s with
  | nil => rfl
  | cons x xs ih =>
    rw [List.cons_append, run, run]
    cases step s x with
    | none => rfl
    | some t => exact ih t

/-- `accepted` and `submitted` only grow. -/
theorem step_grow (s s' : State) (x : Step) (h : step s x = some s') :
    s.accepted <+: s'.accepted ∧ s.submitted <+: s'.submitted := by
  cases x <;> simp only [step] at h <;> (repeat' split at h) <;> cases h <;> simp [State.copyOf]

theorem run_grow (xs : List Step) : ∀ (s s' : State), run s xs = some s' → s.accepted <+: s'.accepted ∧ s.submitted <+: s'.submitted := by
  induction xs with
  | nil => intro s s' h; cases h; exact ⟨List.prefix_refl _, List.prefix_refl _⟩
  | cons x xs ih =>
    intro s s' h
    rw [run] at h
    cases hx : step s x with
    | none => rw [hx] at h; cases h
    | some t =>
      rw [hx] at h
      obtain ⟨a, b⟩ := step_grow s t x hx
      obtain ⟨c, d⟩ := ih t s' h
      exact ⟨a.trans c, b.trans d⟩

/-- `beforeClose` is only set by `Close`, which cannot be called again. -/
theorem run_beforeClose (xs : List Step) : ∀ (s s' : State), s.closing ≠ .no → run s xs = some s' → s'.beforeClose = s.beforeClose := by
  have hstep : ∀ (s s' : State) (x : Step), s.closing ≠ .no → step s x = some s' → s'.beforeClose = s.beforeClose ∧ s'.closing ≠ .no := by
    intro s s' x hc h
    cases x <;> simp only [step] at h <;> (repeat' split at h) <;> cases h <;> first | exact ⟨rfl, hc⟩ | contradiction | exact ⟨rfl, by simp⟩
  induction xs with
  | nil => intro s s' _ h; cases h; rfl
  | cons x xs ih =>
    intro s s' hc h
    rw [run] at h
    cases hx : step s x with
    | none => rw [hx] at h; cases h
    | some t =>
      rw [hx] at h
      obtain ⟨a, b⟩ := hstep s t x hc hx
      rw [ih t s' b h, a]

theorem of_prefix (p : Nat) {a b : List (Nat × Bytes)} (h : a <+: b) : of p a <+: of p b := by
  obtain ⟨c, rfl⟩ := h
  exact ⟨of p c, by simp [of]⟩

theorem order_exists (cap : Nat) (before after : List Step) (s0 s : State)
    (hrun0 : run (init cap) before = some s0) (hrun : run (init cap) (before ++ .close :: after) = some s)
    (hblock : Blocking (before ++ .close :: after))
    (hret : s.closing = .returned) (htime : s.timedOut = false) (hpanic : s.panicked = false) :
    ∃ order : List (Nat × Bytes), order.map Prod.snd = s.received ∧ (∀ p, of p order <+: of p s.submitted) ∧
      (∀ p, s0.sending p = none → of p s0.submitted <+: of p order) := by
  have hinv := Async.inv_run _ _ _ (Async.inv_init cap) hrun
  refine ⟨s.accepted.take s.received.length, ?_, ?_, ?_⟩
  · rw [List.map_take, hinv.flow, List.take_left']
    rfl
  · intro p
    have h := ((Async.blocking_loses_nothing cap _ s hrun hblock).2 p).1
    refine (of_prefix p (List.take_prefix _ _)).trans ?_
    rw [h]
    exact List.prefix_append _ _
  · intro p hp
    have hb0 : Blocking before := fun x hx => hblock x (List.mem_append_left _ hx)
    have h0 := ((Async.blocking_loses_nothing cap _ s0 hrun0 hb0).2 p).1
    have hpend : Async.pendingOf s0 p = [] := by simp [Async.pendingOf, hp]
    rw [hpend, List.append_nil] at h0
    rw [h0]
    rw [run_append, hrun0] at hrun
    change run s0 (.close :: after) = some s at hrun
    rw [run] at hrun
    cases hx : step s0 .close with
    | none => rw [hx] at hrun; cases hrun
    | some s1 =>
      rw [hx] at hrun
      change run s1 after = some s at hrun
      have hs1 : s1.closing ≠ .no ∧ s1.beforeClose = s0.accepted.length ∧ s1.accepted = s0.accepted := by
        simp only [step] at hx
        split at hx <;> cases hx
        exact ⟨by simp, rfl, rfl⟩
      have hgrow := (run_grow after s1 s hrun).1
      rw [hs1.2.2] at hgrow
      have hbc : s.beforeClose = s0.accepted.length := (run_beforeClose after s1 s hs1.1 hrun).trans hs1.2.1
      have hle := hinv.ended (hinv.returned hret) htime hpanic
      apply of_prefix
      obtain ⟨rest, hrest⟩ := hgrow
      rw [← hrest, List.take_append]
      rw [List.take_of_length_le (by omega)]
      exact List.prefix_append _ _

/-- C149 (partly): any number of goroutines log through an asynchronous writer with a blocking queue into a rolling file;
one calls `Close`, which returns before the second is over.  If the file system works, no message is longer than the
maximum size, and no two clock readings for backup names fall in one millisecond, then there is one order of messages such
that the backups, in order of rotation, and the live file are what was there before followed by the messages in that order -
each once, whole, and in one file.  The order has for each goroutine the messages it wrote in the order of its calls, with
the contents at that time, however it used its buffer later; and all of those for which `Write` had returned when `Close`
was called. -/
theorem in_the_files_partial (cap : Nat) (before after : List Step) (s0 s : State) (max : Int) (live : Option Bytes)
    (backups : List (Nat × Bytes)) (w : Bytes → Nat) (clock : List (Nat × Nat))
    (hrun0 : run (init cap) before = some s0) (hrun : run (init cap) (before ++ .close :: after) = some s)
    (hblock : Blocking (before ++ .close :: after))
    (hret : s.closing = .returned) (htime : s.timedOut = false) (hpanic : s.panicked = false)
    (hclock : clock.length = s.received.length) (hmax : ∀ m ∈ s.received, (m.length : Int) ≤ max)
    (hdisk : ∀ m ∈ s.received, m.length ≤ w m)
    (hfresh : (backups.map Prod.fst ++ clock.flatMap fun t => [t.1, t.2]).Nodup) :
    ∃ (order : List (Nat × Bytes)) (gs : List (List Bytes)),
      gs.flatten = order.map Prod.snd ∧
      files ((start max live backups).ops (calls w s.received clock)).1 = backups.map Prod.snd ++ appended live gs ∧
      (∀ p, of p order <+: of p s.submitted) ∧
      (∀ p, s0.sending p = none → of p s0.submitted <+: of p order) := by
  obtain ⟨gs, hgs, hfiles⟩ := ops_files w s.received clock (start max live backups) (by intro h; cases h) hclock
    (fun m hm => ⟨hmax m hm, hdisk m hm⟩) hfresh
  obtain ⟨order, h1, h2, h3⟩ := order_exists cap before after s0 s hrun0 hrun hblock hret htime hpanic
  exact ⟨order, gs, by rw [hgs, h1], hfiles, h2, h3⟩

/-- Two goroutines, one of which overwrites its buffer, a live file from before and a rotation. -/
example : ∃ s0 s, run (init 4) [.reuse 0 (asc "abc"), .write 0, .send 0, .reuse 0 (asc "xyz"), .reuse 1 (asc "de"), .write 1, .deliver false,
      .send 1, .write 0, .send 0] = some s0 ∧
    run (init 4) ([.reuse 0 (asc "abc"), .write 0, .send 0, .reuse 0 (asc "xyz"), .reuse 1 (asc "de"), .write 1, .deliver false,
      .send 1, .write 0, .send 0] ++ .close :: [.notice, .deliver false, .deliver false, .drained, .closeReturns]) = some s ∧
    s0.sending 0 = none ∧ s0.sending 1 = none ∧ s.closing = .returned ∧ s.timedOut = false ∧ s.panicked = false ∧
    s.received = [asc "abc", asc "de", asc "xyz"] ∧
    (([(1, asc "zero")] : List (Nat × Bytes)).map Prod.fst ++ ([(2, 3), (4, 5), (6, 7)] : List (Nat × Nat)).flatMap fun t => [t.1, t.2]).Nodup ∧
    files ((start 6 (some (asc "o")) [(1, asc "zero")]).ops (calls List.length s.received [(2, 3), (4, 5), (6, 7)])).1 =
      [asc "zero", asc "oabcde", asc "xyz"] :=
  ⟨_, _, rfl, rfl, rfl, rfl, rfl, rfl, rfl, rfl, by decide, by decide +kernel⟩

example : Blocking ([.write 0, .send 0] ++ .close :: [.notice, .deliver false, .drained, .closeReturns]) := by
  intro x hx p
  simp only [List.mem_append, List.mem_cons, List.not_mem_nil, or_false] at hx
  rcases hx with (rfl | rfl) | rfl | rfl | rfl | rfl | rfl <;> simp

/-- The calls with any failures: the i-th is a `Write` of the i-th message (async.go 84-88 and 95-99, lumberjack.go 137-164). -/
inductive Calls : List Bytes → List Op → Prop where
  | nil : Calls [] []
  | cons {ms : List Bytes} {os : List Op} (m : Bytes) (e1 e2 : Env) (w : Nat) : Calls ms os → Calls (m :: ms) (.write m e1 e2 w :: os)

/-- C149 (partly): whatever else fails in the file system while the logger writes, what each message becomes in the files is a
beginning of it - nothing if its write failed - and the order is as above; only `os.Stat` must work and the clock readings
differ. -/
theorem despite_failures_partial (cap : Nat) (before after : List Step) (s0 s : State) (max : Int) (live : Option Bytes)
    (backups : List (Nat × Bytes)) (os : List Op)
    (hrun0 : run (init cap) before = some s0) (hrun : run (init cap) (before ++ .close :: after) = some s)
    (hblock : Blocking (before ++ .close :: after))
    (hret : s.closing = .returned) (htime : s.timedOut = false) (hpanic : s.panicked = false)
    (hcalls : Calls s.received os) (hstat : ∀ o ∈ os, o.statWorks)
    (hfresh : (backups.map Prod.fst ++ os.flatMap Op.times).Nodup) :
    ∃ (order : List (Nat × Bytes)) (ns : List Nat),
      ns.length = order.length ∧
      (files ((start max live backups).ops os).1).flatten =
        (backups.map Prod.snd).flatten ++ live.getD [] ++ (List.zipWith List.take ns (order.map Prod.snd)).flatten ∧
      (∀ p, of p order <+: of p s.submitted) ∧
      (∀ p, s0.sending p = none → of p s0.submitted <+: of p order) := by
  obtain ⟨order, h1, h2, h3⟩ := order_exists cap before after s0 s hrun0 hrun hblock hret htime hpanic
  have hall : ∀ (ms : List Bytes) (os : List Op), Calls ms os → ∀ l : Log, ∃ ns : List Nat, ns.length = ms.length ∧
      (l.ops os).2 = (List.zipWith List.take ns ms).flatten := by
    intro ms os h
    induction h with
    | nil => intro l; exact ⟨[], rfl, rfl⟩
    | cons m e1 e2 w _ ih =>
      intro l
      obtain ⟨ns, hn, he⟩ := ih (l.op (.write m e1 e2 w)).1
      refine ⟨(Lumberjack.write l m e1 e2 w).2 :: ns, by simp [hn], ?_⟩
      simp only [Lumberjack.Log.ops, List.zipWith_cons_cons, List.flatten_cons]
      rw [he]
      rfl
  obtain ⟨ns, hn, he⟩ := hall s.received os hcalls (start max live backups)
  have hc := (Lumberjack.nothing_lost_partial max live backups os hstat hfresh).1
  refine ⟨order, ns, by rw [hn, ← h1, List.length_map], ?_, h2, h3⟩
  rw [h1, ← he, ← hc]
  unfold files Lumberjack.Log.contents
  cases ((start max live backups).ops os).1.live <;> simp

/-- A write fails half way, another one's rotation fails. -/
example : Calls [asc "abc", asc "de"] [.write (asc "abc") { time := 1 } { time := 2 } 1, .write (asc "de") { time := 3 } { time := 4, rename := true } 9] ∧
    (∀ o ∈ [Op.write (asc "abc") { time := 1 } { time := 2 } 1, .write (asc "de") { time := 3 } { time := 4, rename := true } 9], o.statWorks) ∧
    files ((start 3 (some (asc "old")) []).ops [.write (asc "abc") { time := 1 } { time := 2 } 1,
      .write (asc "de") { time := 3 } { time := 4, rename := true } 9]).1 = [asc "old", asc "ade"] := by
  refine ⟨.cons _ _ _ _ (.cons _ _ _ _ .nil), ?_, by decide +kernel⟩
  intro o ho
  simp only [List.mem_cons, List.not_mem_nil, or_false] at ho
  rcases ho with rfl | rfl <;> exact ⟨rfl, rfl⟩

/-- C149 is false of the code if the disk is full for a moment: the worker writes the error to the log of countlog itself
and goes on with the next message (async.go 85-88 and 96-99); `Write` had returned without an error, and so does `Close`. -/
theorem full_disk_loses : ∃ (xs : List Step) (s : State), run (init 4) xs = some s ∧ s.closing = .returned ∧ s.timedOut = false ∧
    s.panicked = false ∧ s.dropped = [] ∧ s.submitted = [(0, asc "abc"), (0, asc "de")] ∧
    files ((start 9 none []).ops (calls (fun m => if m = asc "abc" then 1 else m.length) s.received [(1, 2), (3, 4)])).1 = [asc "ade"] :=
  ⟨[.reuse 0 (asc "abc"), .write 0, .send 0, .reuse 0 (asc "de"), .write 0, .send 0, .close, .notice, .deliver false, .deliver false,
    .drained, .closeReturns], _, rfl, rfl, rfl, rfl, rfl, rfl, by decide +kernel⟩

/-- C149 is false of the code for a message longer than the maximum size: nobody hears of it. -/
theorem long_message_loses : ∃ (xs : List Step) (s : State), run (init 4) xs = some s ∧ s.closing = .returned ∧ s.timedOut = false ∧
    s.panicked = false ∧ s.dropped = [] ∧ s.submitted = [(0, asc "abcd"), (0, asc "de")] ∧
    files ((start 3 none []).ops (calls List.length s.received [(1, 2), (3, 4)])).1 = [asc "de"] :=
  ⟨[.reuse 0 (asc "abcd"), .write 0, .send 0, .reuse 0 (asc "de"), .write 0, .send 0, .close, .notice, .deliver false, .deliver false,
    .drained, .closeReturns], _, rfl, rfl, rfl, rfl, rfl, rfl, by decide +kernel⟩

end Verif.AsyncFile
