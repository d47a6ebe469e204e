import Verif.Output.Async
import Verif.Spec.JsonGrammar

/-!
# C37, C38 and C62: the event queue behind the web viewer

Model of witch/logger.go together with countlog/output/writer.go, whose pooled buffers end up in the
queue.  Loggers and readers are goroutines whose steps interleave freely.
-/

namespace Verif.Witch

open Verif.Async (Merge)
open Verif.Spec

/-! ### Model -/

/-- A queued event: a slice of `len` bytes of the array at `addr`.  `id` and `text` only record the
history: the number of the call of `Write`, and what was formatted (logger.go 16 and 28). -/
structure Entry where
  id : Nat
  addr : Nat
  len : Nat
  text : Bytes
  deriving DecidableEq, Repr

/-- Where a goroutine in `writeEvent.Handle` and `recylceWriter.Write` (writer.go 48-55, 71-75) is. -/
inductive Logger where
  | idle
  | holding (addr : Nat)
  | formatted (addr len : Nat) (text : Bytes)
  | written (addr : Nat)
  deriving DecidableEq, Repr

/-- Where a goroutine in `moreEvents` and `consume` (logger.go 40-83) is. -/
inductive Reader where
  | idle
  | waiting
  | collecting (events : List Entry)
  deriving DecidableEq, Repr

/-- The queue (logger.go 15-24), the pool (writer.go 61-65) and memory.  `responses` are the batches sent,
with the bytes sent for each event; the fields after it only record the history: all calls of `Write`, those
queued, those dropped, and those received from the queue with the reader. -/
structure State where
  heap : Nat → Bytes
  next : Nat
  pool : List Nat
  loggers : Nat → Logger
  queue : List Entry
  droppedEventsCount : UInt64
  readers : Nat → Reader
  responses : List (Nat × List (Entry × Bytes))
  written : List Entry
  accepted : List Entry
  dropped : List Entry
  handed : List (Nat × Entry)

/-- The start (logger.go 20-24). -/
def init : State where
  heap := fun _ => []
  next := 0
  pool := []
  loggers := fun _ => .idle
  queue := []
  droppedEventsCount := 0
  readers := fun _ => .idle
  responses := []
  written := []
  accepted := []
  dropped := []
  handed := []

/-- The steps (writer.go 48-75, logger.go 26-83). -/
inductive Step where
  /-- `bufPool.Get` gives a recycled buffer, writer.go 49. -/
  | getPooled (l a : Nat)
  /-- `bufPool.Get` makes a buffer, writer.go 49 and 62-64. -/
  | getNew (l : Nat)
  /-- `formatter.Format`, writer.go 50, appends `text` to the empty buffer.  If it does not fit, the formatter has
  appended some of it in place (`k` bytes) before `append` moved to a larger array with room for `extra` more.
  Formatting is one step, a simplification: other goroutines could see half of it. -/
  | format (l : Nat) (text : Bytes) (k extra : Nat)
  /-- `eventQueue.Write`, logger.go 26-38, called at writer.go 72. -/
  | write (l : Nat)
  /-- `bufPool.Put`, writer.go 73. -/
  | put (l : Nat)
  /-- The pool forgets a buffer, as sync.Pool may. -/
  | forget (a : Nat)
  /-- A reader calls `consume`, logger.go 73. -/
  | begin_ (r : Nat)
  /-- logger.go 44-45. -/
  | first (r : Nat)
  /-- logger.go 46-47. -/
  | timeout (r : Nat)
  /-- logger.go 52-53. -/
  | more (r : Nat)
  /-- `consume` returns (54-58) and the events are copied to the response (73-82).  One step, a simplification:
  loggers could run in between. -/
  | respond (r : Nat)
  deriving DecidableEq, Repr

/-- The capacity of the channel, logger.go 22. -/
def capacity : Nat := 10240

/-- Changing one entry of a table (for writer.go and logger.go). -/
def upd {α : Type} (f : Nat → α) (i : Nat) (x : α) : Nat → α := fun j => if j = i then x else f j

/-- The events a reader has received and not yet sent (logger.go 41-60). -/
def Reader.batch : Reader → List Entry
  | .collecting es => es
  | _ => []

/-- One step; `none` if it cannot take place (writer.go 48-75, logger.go 26-83). -/
def step (s : State) : Step → Option State
  | .getPooled l a =>
    if s.loggers l = .idle ∧ a ∈ s.pool then some { s with pool := s.pool.erase a, loggers := upd s.loggers l (.holding a) }
    else none
  | .getNew l =>
    if s.loggers l = .idle then
      some { s with heap := upd s.heap s.next (List.replicate 128 0), next := s.next + 1, loggers := upd s.loggers l (.holding s.next) }
    else none
  | .format l text k extra =>
    match s.loggers l with
    | .holding a =>
      if text.length ≤ (s.heap a).length then
        some { s with
          heap := upd s.heap a (text ++ (s.heap a).drop text.length)
          loggers := upd s.loggers l (.formatted a text.length text) }
      else if k ≤ (s.heap a).length then
        some { s with
          heap := upd (upd s.heap a (text.take k ++ (s.heap a).drop k)) s.next (text ++ List.replicate extra 0)
          next := s.next + 1
          loggers := upd s.loggers l (.formatted s.next text.length text) }
      else none
    | _ => none
  | .write l =>
    match s.loggers l with
    | .formatted a n text =>
      let e : Entry := ⟨s.written.length, a, n, text⟩
      let t := { s with loggers := upd s.loggers l (.written a), written := s.written ++ [e] }
      if s.queue.length < capacity then some { t with queue := s.queue ++ [e], accepted := s.accepted ++ [e] }
      else some { t with droppedEventsCount := s.droppedEventsCount + 1, dropped := s.dropped ++ [e] }
    | _ => none
  | .put l =>
    match s.loggers l with
    | .written a => some { s with pool := s.pool ++ [a], loggers := upd s.loggers l .idle }
    | _ => none
  | .forget a => some { s with pool := s.pool.erase a }
  | .begin_ r => if s.readers r = .idle then some { s with readers := upd s.readers r .waiting } else none
  | .first r =>
    match s.queue with
    | [] => none
    | e :: q =>
      if s.readers r = .waiting then
        some { s with queue := q, readers := upd s.readers r (.collecting [e]), handed := s.handed ++ [(r, e)] }
      else none
  | .timeout r => if s.readers r = .waiting then some { s with readers := upd s.readers r (.collecting []) } else none
  | .more r =>
    match s.queue, s.readers r with
    | e :: q, .collecting es =>
      if es.length ≤ 1000 then
        some { s with queue := q, readers := upd s.readers r (.collecting (es ++ [e])), handed := s.handed ++ [(r, e)] }
      else none
    | _, _ => none
  | .respond r =>
    match s.readers r with
    | .collecting es =>
      if 1000 < es.length ∨ s.queue = [] then
        some { s with
          readers := upd s.readers r .idle
          responses := s.responses ++ [(r, es.map fun e => (e, (s.heap e.addr).take e.len))] }
      else none
    | _ => none

/-- A sequence of steps (writer.go 48-75, logger.go 26-83). -/
def run (s : State) : List Step → Option State
  | [] => some s
  | x :: xs => (step s x).bind fun s => run s xs

/-! ### C37 -/

/-- What a reader got from the queue. -/
def gotBy (r : Nat) (s : State) : List Entry := (s.handed.filter fun x => x.1 == r).map Prod.snd

/-- What a reader has sent. -/
def sentBy (r : Nat) (s : State) : List Entry :=
  ((s.responses.filter fun x => x.1 == r).map fun x => x.2.map Prod.fst).flatten

structure Inv (s : State) : Prop where
  flow : s.accepted = s.handed.map Prod.snd ++ s.queue
  fate : Merge s.accepted s.dropped s.written
  count : s.droppedEventsCount.toNat = s.dropped.length % 2 ^ 64
  ids : s.written.map Entry.id = List.range s.written.length
  room : s.queue.length ≤ 10240
  reader : ∀ r, gotBy r s = sentBy r s ++ (s.readers r).batch
  size : ∀ x ∈ s.responses, x.2.length ≤ 1001
  batch : ∀ r, (s.readers r).batch.length ≤ 1001

theorem inv_init : Inv init :=
  ⟨rfl, .nil, rfl, rfl, by decide, fun _ => rfl, by simp [init], fun _ => by simp [init, Reader.batch]⟩

theorem upd_same {α : Type} (f : Nat → α) (i : Nat) (x : α) : upd f i x i = x := by simp [upd]
theorem upd_other {α : Type} (f : Nat → α) (i j : Nat) (x : α) (h : j ≠ i) : upd f i x j = f j := by simp [upd, h]

theorem filter_one (r q : Nat) (e : Entry) :
    (([(q, e)] : List (Nat × Entry)).filter fun x => x.1 == r).map Prod.snd = if q = r then [e] else [] := by
  by_cases h : q = r
  · subst h; simp
  · simp [h]

theorem inv_step (s s' : State) (x : Step) (h : Inv s) (hs : step s x = some s') : Inv s' := by
  obtain ⟨hf, hm, hc, hi, hr, hrd, hsz, hb⟩ := h
  cases x with
  | getPooled l a =>
    simp only [step] at hs
    split at hs <;> cases hs
    exact ⟨hf, hm, hc, hi, hr, hrd, hsz, hb⟩
  | getNew l =>
    simp only [step] at hs
    split at hs <;> cases hs
    exact ⟨hf, hm, hc, hi, hr, hrd, hsz, hb⟩
  | format l text k extra =>
    simp only [step] at hs
    split at hs
    · split at hs
      · cases hs; exact ⟨hf, hm, hc, hi, hr, hrd, hsz, hb⟩
      · split at hs <;> cases hs
        exact ⟨hf, hm, hc, hi, hr, hrd, hsz, hb⟩
    · cases hs
  | write l =>
    simp only [step] at hs
    split at hs
    · rename_i a n text hl
      have hids : (s.written ++ [(⟨s.written.length, a, n, text⟩ : Entry)]).map Entry.id =
          List.range (s.written ++ [(⟨s.written.length, a, n, text⟩ : Entry)]).length := by
        rw [List.map_append, hi]
        simp [List.range_succ]
      split at hs
      · rename_i hlt
        cases hs
        refine ⟨?_, .left _ hm, hc, hids, ?_, hrd, hsz, hb⟩
        · simp [hf]
        · have hlt : s.queue.length < 10240 := hlt
          simp only [List.length_append, List.length_singleton]; omega
      · cases hs
        refine ⟨hf, .right _ hm, ?_, hids, hr, hrd, hsz, hb⟩
        simp only [UInt64.toNat_add, hc, List.length_append, List.length_singleton, UInt64.toNat_one]
        omega
    · cases hs
  | put l =>
    simp only [step] at hs
    split at hs <;> cases hs
    exact ⟨hf, hm, hc, hi, hr, hrd, hsz, hb⟩
  | forget a =>
    simp only [step] at hs
    cases hs
    exact ⟨hf, hm, hc, hi, hr, hrd, hsz, hb⟩
  | begin_ r =>
    simp only [step] at hs
    split at hs <;> cases hs
    rename_i hidle
    refine ⟨hf, hm, hc, hi, hr, ?_, hsz, ?_⟩
    · intro r'
      have := hrd r'
      by_cases h : r' = r
      · subst h
        simpa [gotBy, sentBy, upd_same, hidle, Reader.batch] using this
      · simpa [gotBy, sentBy, upd_other _ _ _ _ h] using this
    · intro r'
      by_cases h : r' = r
      · subst h; simp [upd_same, Reader.batch]
      · simpa [upd_other _ _ _ _ h] using hb r'
  | first r =>
    simp only [step] at hs
    split at hs
    · cases hs
    · rename_i e q hq
      split at hs
      · rename_i hw
        cases hs
        refine ⟨?_, hm, hc, hi, ?_, ?_, hsz, ?_⟩
        · simp [hf, hq]
        · rw [hq, List.length_cons] at hr; simp only; omega
        · intro r'
          have := hrd r'
          simp only [gotBy, sentBy, List.filter_append, List.map_append, filter_one] at this ⊢
          rw [this]
          by_cases h : r = r'
          · subst h
            simp [upd_same, hw, Reader.batch]
          · simp [upd_other _ _ _ _ (fun h' => h h'.symm), h]
        · intro r'
          by_cases h : r' = r
          · subst h; simp [upd_same, Reader.batch]
          · simpa [upd_other _ _ _ _ h] using hb r'
      · cases hs
  | timeout r =>
    simp only [step] at hs
    split at hs <;> cases hs
    rename_i hw
    refine ⟨hf, hm, hc, hi, hr, ?_, hsz, ?_⟩
    · intro r'
      have := hrd r'
      by_cases h : r' = r
      · subst h
        simpa [gotBy, sentBy, upd_same, hw, Reader.batch] using this
      · simpa [gotBy, sentBy, upd_other _ _ _ _ h] using this
    · intro r'
      by_cases h : r' = r
      · subst h; simp [upd_same, Reader.batch]
      · simpa [upd_other _ _ _ _ h] using hb r'
  | more r =>
    simp only [step] at hs
    split at hs
    · rename_i e q es hq hw
      split at hs
      · rename_i hle
        cases hs
        refine ⟨?_, hm, hc, hi, ?_, ?_, hsz, ?_⟩
        · simp [hf, hq]
        · rw [hq, List.length_cons] at hr; simp only; omega
        · intro r'
          have := hrd r'
          simp only [gotBy, sentBy, List.filter_append, List.map_append, filter_one] at this ⊢
          rw [this]
          by_cases h : r = r'
          · subst h
            simp [upd_same, hw, Reader.batch]
          · simp [upd_other _ _ _ _ (fun h' => h h'.symm), h]
        · intro r'
          by_cases h : r' = r
          · subst h; simp [upd_same, Reader.batch]; omega
          · simpa [upd_other _ _ _ _ h] using hb r'
      · cases hs
    · cases hs
  | respond r =>
    simp only [step] at hs
    split at hs
    · rename_i es hw
      split at hs
      · cases hs
        refine ⟨hf, hm, hc, hi, hr, ?_, ?_, ?_⟩
        · intro r'
          have := hrd r'
          by_cases h : r = r'
          · subst h
            simp [gotBy, sentBy, upd_same, hw, Reader.batch, List.filter_append, Function.comp_def] at this ⊢
            rw [this]
          · have h' : r' ≠ r := fun h' => h h'.symm
            simpa [gotBy, sentBy, upd_other _ _ _ _ h', h, List.filter_append] using this
        · intro x hx
          rcases List.mem_append.mp hx with hx | hx
          · exact hsz x hx
          · simp only [List.mem_singleton] at hx
            subst hx
            have := hb r
            rw [hw] at this
            simpa [Reader.batch] using this
        · intro r'
          by_cases h : r' = r
          · subst h; simp [upd_same, Reader.batch]
          · simpa [upd_other _ _ _ _ h] using hb r'
      · cases hs
    · cases hs

theorem inv_run : ∀ (xs : List Step) (s s' : State), Inv s → run s xs = some s' → Inv s' := by
  intro xs
  induction xs with
  | nil => intro s s' h hr; simp only [run, Option.some.injEq] at hr; subst hr; exact h
  | cons x xs ih =>
    intro s s' h hr
    rw [run] at hr
    cases hx : step s x with
    | none => rw [hx] at hr; cases hr
    | some t => rw [hx] at hr; exact ih t s' (inv_step s t x h hx) hr

/-- C37: in every interleaving the calls of `Write` are numbered apart, each event was either queued or
dropped, in order, and the dropped ones are counted (modulo 2^64); those queued are, in order, the ones
received by readers and the ones still in the queue. -/
theorem events_accounted (xs : List Step) (s : State) (hrun : run init xs = some s) :
    (s.written.map Entry.id).Nodup ∧ Merge s.accepted s.dropped s.written ∧
      s.droppedEventsCount.toNat = s.dropped.length % 2 ^ 64 ∧ s.accepted = s.handed.map Prod.snd ++ s.queue := by
  have h := inv_run xs _ _ inv_init hrun
  refine ⟨?_, h.fate, h.count, h.flow⟩
  rw [h.ids]
  exact List.nodup_range

/-- C37: an event is dropped only while 10240 others wait, and no more ever do. -/
theorem dropped_only_full (xs : List Step) (s : State) (hrun : run init xs = some s) :
    s.queue.length ≤ 10240 ∧ ∀ l s', step s (.write l) = some s' →
      (s'.dropped = s.dropped ↔ s.queue.length < 10240) ∧ (s'.accepted = s.accepted ↔ s.queue.length = 10240) := by
  have h := inv_run xs _ _ inv_init hrun
  have hroom := h.room
  refine ⟨hroom, fun l s' hs => ?_⟩
  cases hl : s.loggers l with
  | formatted a n text =>
    by_cases hq : s.queue.length < capacity
    · have h10 : s.queue.length < 10240 := hq
      simp only [step, hl, if_pos hq, Option.some.injEq] at hs
      subst hs
      refine ⟨⟨fun _ => h10, fun _ => rfl⟩, ⟨fun he => ?_, fun he => by omega⟩⟩
      have := congrArg List.length he
      simp at this
    · have h10 : ¬ s.queue.length < 10240 := hq
      simp only [step, hl, if_neg hq, Option.some.injEq] at hs
      subst hs
      refine ⟨⟨fun he => ?_, fun he => absurd he h10⟩, ⟨fun _ => by omega, fun _ => rfl⟩⟩
      have := congrArg List.length he
      simp at this
  | idle => simp [step, hl] at hs
  | holding a => simp [step, hl] at hs
  | written a => simp [step, hl] at hs

/-- C37: what a reader received it has sent in its responses, in order, each once, except the batch it is
still collecting; a response holds at most 1001 events. -/
theorem readers_accounted (xs : List Step) (s : State) (hrun : run init xs = some s) (r : Nat) :
    gotBy r s = sentBy r s ++ (s.readers r).batch ∧ ∀ x ∈ s.responses, x.2.length ≤ 1001 := by
  have h := inv_run xs _ _ inv_init hrun
  exact ⟨h.reader r, h.size⟩

/-- C37: a request is never stuck: while it waits it may time out, and while it collects, it can take the next event or send
its batch, whatever the loggers and other readers do. -/
theorem reader_progress (s : State) (r : Nat) : (s.readers r = .waiting → ∃ s', step s (.timeout r) = some s') ∧
    ∀ es, s.readers r = .collecting es →
      (∃ s', step s (.more r) = some s' ∧ (s'.readers r).batch.length = es.length + 1) ∨
      (∃ s', step s (.respond r) = some s' ∧ s'.readers r = .idle ∧
        (s'.responses.map fun x => (x.1, x.2.map Prod.fst)) = (s.responses.map fun x => (x.1, x.2.map Prod.fst)) ++ [(r, es)]) := by
  constructor
  · intro h
    exact ⟨_, by simp only [step]; rw [if_pos h]⟩
  · intro es h
    by_cases hc : 1000 < es.length ∨ s.queue = []
    · right
      refine ⟨_, by simp only [step, h]; rw [if_pos hc], by simp [upd_same], ?_⟩
      simp [Function.comp_def]
    · left
      cases hq : s.queue with
      | nil => exact absurd (.inr hq) hc
      | cons e q =>
        refine ⟨_, by simp only [step, h, hq]; rw [if_pos (by omega)], ?_⟩
        simp [upd_same, Reader.batch]

example : (run init [.getNew 0, .format 0 (asc "{}") 0 0, .write 0, .begin_ 5, .first 5]).map (fun s => s.readers 5) =
    some (.collecting [⟨0, 0, 2, asc "{}"⟩]) := by decide +kernel

/-- C37: writing never blocks: whenever a logger has formatted its event the call of `Write` returns, whatever
the state of queue and readers. -/
theorem write_never_blocks (s : State) (l a n : Nat) (text : Bytes) (h : s.loggers l = .formatted a n text) :
    ∃ s', step s (.write l) = some s' ∧ s'.loggers l = .written a := by
  by_cases hq : s.queue.length < capacity
  · refine ⟨_, by simp only [step, h, if_pos hq]; rfl, ?_⟩
    simp [upd_same]
  · refine ⟨_, by simp only [step, h, if_neg hq]; rfl, ?_⟩
    simp [upd_same]

/-! ### C38 -/

/-- The events in the queue or in the hands of a reader. -/
def Pending (s : State) (e : Entry) : Prop := e ∈ s.queue ∨ ∃ r, e ∈ (s.readers r).batch

/-- A step at which the pool does not hand out the buffer of an event that is still pending. -/
def Safe (s : State) : Step → Prop
  | .getPooled _ a => ∀ e, Pending s e → e.addr ≠ a
  | _ => True

/-- All steps of a run are. -/
def SafeRun (s : State) : List Step → Prop
  | [] => True
  | x :: xs => Safe s x ∧ ∀ t, step s x = some t → SafeRun t xs

/-- The buffer a logger has. -/
def Logger.held : Logger → Option Nat
  | .idle => none
  | .holding a => some a
  | .formatted a _ _ => some a
  | .written a => some a

structure Mem (s : State) : Prop where
  pending : ∀ e, Pending s e → (s.heap e.addr).take e.len = e.text ∧ e.addr < s.next
  formatted : ∀ l a n text, s.loggers l = .formatted a n text → (s.heap a).take n = text
  apart : ∀ l l' a, (s.loggers l).held = some a → (s.loggers l').held = some a → l = l'
  taken : ∀ l a, (s.loggers l).held = some a → a ∉ s.pool ∧ a < s.next
  pool : s.pool.Nodup ∧ ∀ a ∈ s.pool, a < s.next
  private_ : ∀ l a, s.loggers l = .holding a → ∀ e, Pending s e → e.addr ≠ a
  sent : ∀ x ∈ s.responses, ∀ y ∈ x.2, y.2 = y.1.text

theorem mem_init : Mem init := by
  refine ⟨?_, ?_, ?_, ?_, ?_, ?_, ?_⟩ <;> simp [init, Pending, Reader.batch, Logger.held]

theorem take_text (text rest : Bytes) : (text ++ rest).take text.length = text := by
  simp

theorem mem_step (s s' : State) (x : Step) (h : Mem s) (hsafe : Safe s x) (hs : step s x = some s') : Mem s' := by
  obtain ⟨hp, hfm, hap, htk, hpl, hpr, hst⟩ := h
  cases x with
  | getPooled l a =>
    simp only [step] at hs
    split at hs <;> cases hs
    rename_i hc
    have hheld : ∀ l' b, ((upd s.loggers l (.holding a)) l').held = some b → (l' = l ∧ b = a) ∨ (l' ≠ l ∧ (s.loggers l').held = some b) := by
      intro l' b hb
      by_cases hl : l' = l
      · subst hl; rw [upd_same] at hb; simp only [Logger.held, Option.some.injEq] at hb; exact Or.inl ⟨rfl, hb.symm⟩
      · rw [upd_other _ _ _ _ hl] at hb; exact Or.inr ⟨hl, hb⟩
    refine ⟨hp, ?_, ?_, ?_, ?_, ?_, hst⟩
    · intro l' b n text hb
      simp only at hb
      by_cases hl : l' = l
      · subst hl; rw [upd_same] at hb; cases hb
      · rw [upd_other _ _ _ _ hl] at hb; exact hfm l' b n text hb
    · intro l1 l2 b h1 h2
      rcases hheld l1 b h1 with ⟨e1, rfl⟩ | ⟨n1, h1'⟩
      · rcases hheld l2 b h2 with ⟨e2, _⟩ | ⟨n2, h2'⟩
        · rw [e1, e2]
        · exact absurd hc.2 (htk l2 b h2').1
      · rcases hheld l2 b h2 with ⟨e2, rfl⟩ | ⟨n2, h2'⟩
        · exact absurd hc.2 (htk l1 b h1').1
        · exact hap l1 l2 b h1' h2'
    · intro l' b hb
      rcases hheld l' b hb with ⟨e1, rfl⟩ | ⟨n1, h1⟩
      · exact ⟨fun hm => (List.Nodup.not_mem_erase hpl.1) hm, hpl.2 _ hc.2⟩
      · exact ⟨fun hm => (htk l' b h1).1 (List.mem_of_mem_erase hm), (htk l' b h1).2⟩
    · exact ⟨hpl.1.erase a, fun b hb => hpl.2 b (List.mem_of_mem_erase hb)⟩
    · intro l' b hb e he
      simp only at hb
      by_cases hl : l' = l
      · subst hl; rw [upd_same] at hb; injection hb with hb; subst hb; exact hsafe e he
      · rw [upd_other _ _ _ _ hl] at hb; exact hpr l' b hb e he
  | getNew l =>
    simp only [step] at hs
    split at hs <;> cases hs
    rename_i hc
    have hheld : ∀ l' b, ((upd s.loggers l (.holding s.next)) l').held = some b →
        (l' = l ∧ b = s.next) ∨ (l' ≠ l ∧ (s.loggers l').held = some b) := by
      intro l' b hb
      by_cases hl : l' = l
      · subst hl; rw [upd_same] at hb; simp only [Logger.held, Option.some.injEq] at hb; exact Or.inl ⟨rfl, hb.symm⟩
      · rw [upd_other _ _ _ _ hl] at hb; exact Or.inr ⟨hl, hb⟩
    refine ⟨?_, ?_, ?_, ?_, ?_, ?_, hst⟩
    · intro e he
      obtain ⟨h1, h2⟩ := hp e he
      refine ⟨?_, by simp only; omega⟩
      simp only [upd_other _ _ _ _ (Nat.ne_of_lt h2)]
      exact h1
    · intro l' b n text hb
      simp only at hb
      by_cases hl : l' = l
      · subst hl; rw [upd_same] at hb; cases hb
      · rw [upd_other _ _ _ _ hl] at hb
        have hlt := (htk l' b (by rw [hb]; rfl)).2
        simp only [upd_other _ _ _ _ (Nat.ne_of_lt hlt)]
        exact hfm l' b n text hb
    · intro l1 l2 b h1 h2
      rcases hheld l1 b h1 with ⟨e1, rfl⟩ | ⟨n1, h1⟩
      · rcases hheld l2 _ h2 with ⟨e2, _⟩ | ⟨n2, h2⟩
        · rw [e1, e2]
        · have := (htk l2 _ h2).2; omega
      · rcases hheld l2 b h2 with ⟨e2, rfl⟩ | ⟨n2, h2⟩
        · have := (htk l1 _ h1).2; omega
        · exact hap l1 l2 b h1 h2
    · intro l' b hb
      rcases hheld l' b hb with ⟨e1, rfl⟩ | ⟨n1, h1⟩
      · refine ⟨fun hm => ?_, by simp⟩
        have := hpl.2 _ hm
        omega
      · have := htk l' b h1
        exact ⟨this.1, by simp only; omega⟩
    · exact ⟨hpl.1, fun b hb => by have := hpl.2 b hb; simp only; omega⟩
    · intro l' b hb e he
      simp only at hb
      by_cases hl : l' = l
      · subst hl; rw [upd_same] at hb; injection hb with hb; subst hb
        have := (hp e he).2
        omega
      · rw [upd_other _ _ _ _ hl] at hb; exact hpr l' b hb e he
  | format l text k extra =>
    simp only [step] at hs
    split at hs
    · rename_i a ha
      split at hs
      · rename_i hfit
        cases hs
        have hheld : ∀ l' b, ((upd s.loggers l (.formatted a text.length text)) l').held = some b → (s.loggers l').held = some b := by
          intro l' b hb
          by_cases hl : l' = l
          · subst hl; rw [upd_same] at hb; rw [ha]; exact hb
          · rw [upd_other _ _ _ _ hl] at hb; exact hb
        refine ⟨?_, ?_, fun l1 l2 b h1 h2 => hap l1 l2 b (hheld _ _ h1) (hheld _ _ h2), fun l' b hb => htk l' b (hheld _ _ hb), hpl, ?_, hst⟩
        · intro e he
          obtain ⟨h1, h2⟩ := hp e he
          refine ⟨?_, h2⟩
          simp only [upd_other _ _ _ _ (hpr l a ha e he)]
          exact h1
        · intro l' b n text' hb
          simp only at hb
          by_cases hl : l' = l
          · subst hl; rw [upd_same] at hb
            injection hb with hb1 hb2 hb3
            subst hb1 hb2 hb3
            simp only [upd_same]
            exact take_text _ _
          · rw [upd_other _ _ _ _ hl] at hb
            have hne : b ≠ a := by
              intro he
              subst he
              exact hl (hap l' l b (by rw [hb]; rfl) (by rw [ha]; rfl))
            simp only [upd_other _ _ _ _ hne]
            exact hfm l' b n text' hb
        · intro l' b hb e he
          simp only at hb
          by_cases hl : l' = l
          · subst hl; rw [upd_same] at hb; cases hb
          · rw [upd_other _ _ _ _ hl] at hb; exact hpr l' b hb e he
      · split at hs <;> cases hs
        have hheld : ∀ l' b, ((upd s.loggers l (.formatted s.next text.length text)) l').held = some b →
            (l' = l ∧ b = s.next) ∨ (l' ≠ l ∧ (s.loggers l').held = some b) := by
          intro l' b hb
          by_cases hl : l' = l
          · subst hl; rw [upd_same] at hb; simp only [Logger.held, Option.some.injEq] at hb; exact Or.inl ⟨rfl, hb.symm⟩
          · rw [upd_other _ _ _ _ hl] at hb; exact Or.inr ⟨hl, hb⟩
        refine ⟨?_, ?_, ?_, ?_, ?_, ?_, hst⟩
        · intro e he
          obtain ⟨h1, h2⟩ := hp e he
          refine ⟨?_, by simp only; omega⟩
          simp only [upd_other _ _ _ _ (Nat.ne_of_lt h2), upd_other _ _ _ _ (hpr l a ha e he)]
          exact h1
        · intro l' b n text' hb
          simp only at hb
          by_cases hl : l' = l
          · subst hl; rw [upd_same] at hb
            injection hb with hb1 hb2 hb3
            subst hb1 hb2 hb3
            simp only [upd_same]
            exact take_text _ _
          · rw [upd_other _ _ _ _ hl] at hb
            have hne : b ≠ a := by
              intro he
              subst he
              exact hl (hap l' l b (by rw [hb]; rfl) (by rw [ha]; rfl))
            have hlt := (htk l' b (by rw [hb]; rfl)).2
            simp only [upd_other _ _ _ _ (Nat.ne_of_lt hlt), upd_other _ _ _ _ hne]
            exact hfm l' b n text' hb
        · intro l1 l2 b h1 h2
          rcases hheld l1 b h1 with ⟨e1, rfl⟩ | ⟨n1, h1⟩
          · rcases hheld l2 _ h2 with ⟨e2, _⟩ | ⟨n2, h2⟩
            · rw [e1, e2]
            · have := (htk l2 _ h2).2; omega
          · rcases hheld l2 b h2 with ⟨e2, rfl⟩ | ⟨n2, h2⟩
            · have := (htk l1 _ h1).2; omega
            · exact hap l1 l2 b h1 h2
        · intro l' b hb
          rcases hheld l' b hb with ⟨e1, rfl⟩ | ⟨n1, h1⟩
          · refine ⟨fun hm => ?_, by simp⟩
            have := hpl.2 _ hm
            omega
          · have := htk l' b h1
            exact ⟨this.1, by simp only; omega⟩
        · exact ⟨hpl.1, fun b hb => by have := hpl.2 b hb; simp only; omega⟩
        · intro l' b hb e he
          simp only at hb
          by_cases hl : l' = l
          · subst hl; rw [upd_same] at hb; cases hb
          · rw [upd_other _ _ _ _ hl] at hb; exact hpr l' b hb e he
    · cases hs
  | write l =>
    simp only [step] at hs
    split at hs
    · rename_i a n text ha
      have hheld : ∀ l' b, ((upd s.loggers l (.written a)) l').held = some b → (s.loggers l').held = some b := by
        intro l' b hb
        by_cases hl : l' = l
        · subst hl; rw [upd_same] at hb; rw [ha]; exact hb
        · rw [upd_other _ _ _ _ hl] at hb; exact hb
      have hfm' : ∀ l' b m text', (upd s.loggers l (.written a)) l' = .formatted b m text' → (s.heap b).take m = text' := by
        intro l' b m text' hb
        by_cases hl : l' = l
        · subst hl; rw [upd_same] at hb; cases hb
        · rw [upd_other _ _ _ _ hl] at hb; exact hfm l' b m text' hb
      have hho : ∀ l' b, (upd s.loggers l (.written a)) l' = .holding b → s.loggers l' = .holding b ∧ l' ≠ l := by
        intro l' b hb
        by_cases hl : l' = l
        · subst hl; rw [upd_same] at hb; cases hb
        · rw [upd_other _ _ _ _ hl] at hb; exact ⟨hb, hl⟩
      split at hs
      · cases hs
        have hpend : ∀ e, (e ∈ s.queue ++ [(⟨s.written.length, a, n, text⟩ : Entry)] ∨ ∃ r, e ∈ (s.readers r).batch) →
            Pending s e ∨ e = ⟨s.written.length, a, n, text⟩ := by
          intro e he
          rcases he with he | he
          · rcases List.mem_append.mp he with he | he
            · exact Or.inl (Or.inl he)
            · exact Or.inr (by simpa using he)
          · exact Or.inl (Or.inr he)
        refine ⟨?_, hfm', fun l1 l2 b h1 h2 => hap l1 l2 b (hheld _ _ h1) (hheld _ _ h2), fun l' b hb => htk l' b (hheld _ _ hb), hpl, ?_, hst⟩
        · intro e he
          rcases hpend e he with he | rfl
          · exact hp e he
          · exact ⟨hfm l a n text ha, (htk l a (by rw [ha]; rfl)).2⟩
        · intro l' b hb e he
          obtain ⟨hb, hl⟩ := hho l' b hb
          rcases hpend e he with he | rfl
          · exact hpr l' b hb e he
          · intro he
            simp only at he
            subst he
            exact hl (hap l' l a (by rw [hb]; rfl) (by rw [ha]; rfl))
      · cases hs
        exact ⟨hp, hfm', fun l1 l2 b h1 h2 => hap l1 l2 b (hheld _ _ h1) (hheld _ _ h2), fun l' b hb => htk l' b (hheld _ _ hb), hpl,
          fun l' b hb => hpr l' b (hho l' b hb).1, hst⟩
    · cases hs
  | put l =>
    simp only [step] at hs
    split at hs <;> cases hs
    rename_i a ha
    have hheld : ∀ l' b, ((upd s.loggers l .idle) l').held = some b → l' ≠ l ∧ (s.loggers l').held = some b := by
      intro l' b hb
      by_cases hl : l' = l
      · subst hl; rw [upd_same] at hb; cases hb
      · rw [upd_other _ _ _ _ hl] at hb; exact ⟨hl, hb⟩
    have hla : (s.loggers l).held = some a := by rw [ha]; rfl
    refine ⟨hp, ?_, fun l1 l2 b h1 h2 => hap l1 l2 b (hheld _ _ h1).2 (hheld _ _ h2).2, ?_, ?_, ?_, hst⟩
    · intro l' b n text hb
      simp only at hb
      by_cases hl : l' = l
      · subst hl; rw [upd_same] at hb; cases hb
      · rw [upd_other _ _ _ _ hl] at hb; exact hfm l' b n text hb
    · intro l' b hb
      obtain ⟨hl, hb'⟩ := hheld l' b hb
      refine ⟨?_, (htk l' b hb').2⟩
      intro hm
      rcases List.mem_append.mp hm with hm | hm
      · exact (htk l' b hb').1 hm
      · simp only [List.mem_singleton] at hm
        subst hm
        exact hl (hap l' l b hb' hla)
    · refine ⟨?_, ?_⟩
      · simp only
        rw [List.nodup_append]
        refine ⟨hpl.1, by simp, ?_⟩
        intro b hb c hc hbc
        simp only [List.mem_singleton] at hc
        subst hbc
        subst hc
        exact (htk l b hla).1 hb
      · intro b hb
        rcases List.mem_append.mp hb with hb | hb
        · exact hpl.2 b hb
        · simp only [List.mem_singleton] at hb; subst hb; exact (htk l b hla).2
    · intro l' b hb e he
      simp only at hb
      by_cases hl : l' = l
      · subst hl; rw [upd_same] at hb; cases hb
      · rw [upd_other _ _ _ _ hl] at hb; exact hpr l' b hb e he
  | forget a =>
    simp only [step] at hs
    cases hs
    exact ⟨hp, hfm, hap, fun l b hb => ⟨fun hm => (htk l b hb).1 (List.mem_of_mem_erase hm), (htk l b hb).2⟩,
      ⟨hpl.1.erase a, fun b hb => hpl.2 b (List.mem_of_mem_erase hb)⟩, hpr, hst⟩
  | begin_ r =>
    simp only [step] at hs
    split at hs <;> cases hs
    have hsub : ∀ e, (e ∈ s.queue ∨ ∃ r', e ∈ ((upd s.readers r .waiting) r').batch) → Pending s e := by
      intro e he
      rcases he with he | ⟨r', he⟩
      · exact Or.inl he
      · by_cases hr : r' = r
        · subst hr; rw [upd_same] at he; simp [Reader.batch] at he
        · rw [upd_other _ _ _ _ hr] at he; exact Or.inr ⟨r', he⟩
    exact ⟨fun e he => hp e (hsub e he), hfm, hap, htk, hpl, fun l b hb e he => hpr l b hb e (hsub e he), hst⟩
  | first r =>
    simp only [step] at hs
    split at hs
    · cases hs
    · rename_i e0 q hq
      split at hs <;> cases hs
      have hsub : ∀ e, (e ∈ q ∨ ∃ r', e ∈ ((upd s.readers r (.collecting [e0])) r').batch) → Pending s e := by
        intro e he
        rcases he with he | ⟨r', he⟩
        · exact Or.inl (by rw [hq]; exact List.mem_cons_of_mem _ he)
        · by_cases hr : r' = r
          · subst hr; rw [upd_same] at he
            simp only [Reader.batch, List.mem_singleton] at he
            subst he
            exact Or.inl (by rw [hq]; exact List.mem_cons_self ..)
          · rw [upd_other _ _ _ _ hr] at he; exact Or.inr ⟨r', he⟩
      exact ⟨fun e he => hp e (hsub e he), hfm, hap, htk, hpl, fun l b hb e he => hpr l b hb e (hsub e he), hst⟩
  | timeout r =>
    simp only [step] at hs
    split at hs <;> cases hs
    have hsub : ∀ e, (e ∈ s.queue ∨ ∃ r', e ∈ ((upd s.readers r (.collecting [])) r').batch) → Pending s e := by
      intro e he
      rcases he with he | ⟨r', he⟩
      · exact Or.inl he
      · by_cases hr : r' = r
        · subst hr; rw [upd_same] at he; simp [Reader.batch] at he
        · rw [upd_other _ _ _ _ hr] at he; exact Or.inr ⟨r', he⟩
    exact ⟨fun e he => hp e (hsub e he), hfm, hap, htk, hpl, fun l b hb e he => hpr l b hb e (hsub e he), hst⟩
  | more r =>
    simp only [step] at hs
    split at hs
    · rename_i e0 q es hq hw
      split at hs <;> cases hs
      have hsub : ∀ e, (e ∈ q ∨ ∃ r', e ∈ ((upd s.readers r (.collecting (es ++ [e0]))) r').batch) → Pending s e := by
        intro e he
        rcases he with he | ⟨r', he⟩
        · exact Or.inl (by rw [hq]; exact List.mem_cons_of_mem _ he)
        · by_cases hr : r' = r
          · subst hr; rw [upd_same] at he
            rcases List.mem_append.mp he with he | he
            · exact Or.inr ⟨r', by rw [hw]; exact he⟩
            · simp only [List.mem_singleton] at he
              subst he
              exact Or.inl (by rw [hq]; exact List.mem_cons_self ..)
          · rw [upd_other _ _ _ _ hr] at he; exact Or.inr ⟨r', he⟩
      exact ⟨fun e he => hp e (hsub e he), hfm, hap, htk, hpl, fun l b hb e he => hpr l b hb e (hsub e he), hst⟩
    · cases hs
  | respond r =>
    simp only [step] at hs
    split at hs
    · rename_i es hw
      split at hs <;> cases hs
      have hsub : ∀ e, (e ∈ s.queue ∨ ∃ r', e ∈ ((upd s.readers r .idle) r').batch) → Pending s e := by
        intro e he
        rcases he with he | ⟨r', he⟩
        · exact Or.inl he
        · by_cases hr : r' = r
          · subst hr; rw [upd_same] at he; simp [Reader.batch] at he
          · rw [upd_other _ _ _ _ hr] at he; exact Or.inr ⟨r', he⟩
      refine ⟨fun e he => hp e (hsub e he), hfm, hap, htk, hpl, fun l b hb e he => hpr l b hb e (hsub e he), ?_⟩
      intro x hx y hy
      rcases List.mem_append.mp hx with hx | hx
      · exact hst x hx y hy
      · simp only [List.mem_singleton] at hx
        subst hx
        simp only [List.mem_map] at hy
        obtain ⟨e, he, rfl⟩ := hy
        exact (hp e (Or.inr ⟨r, by rw [hw]; exact he⟩)).1
    · cases hs

/-- C38 (partly): the bytes sent for an event are those formatted for it, in every interleaving in which the pool
never hands out the buffer of an event that is still in the queue or in the hands of a reader.  The code does
nothing to ensure that, and without it the claim is false: `recycled_buffer_overwrites`. -/
theorem content_kept_partial (xs : List Step) (s : State) (hrun : run init xs = some s) (hsafe : SafeRun init xs) :
    ∀ x ∈ s.responses, ∀ y ∈ x.2, y.2 = y.1.text := by
  have main : ∀ (xs : List Step) (s0 : State), Mem s0 → SafeRun s0 xs → ∀ s, run s0 xs = some s → Mem s := by
    intro xs
    induction xs with
    | nil => intro s0 h _ s hr; simp only [run, Option.some.injEq] at hr; subst hr; exact h
    | cons x xs ih =>
      intro s0 h hsafe s hr
      rw [run] at hr
      cases hx : step s0 x with
      | none => rw [hx] at hr; cases hr
      | some t => rw [hx] at hr; exact ih t (mem_step s0 t x h hsafe.1 hx) (hsafe.2 t hx) s hr
  exact (main xs init mem_init hsafe s hrun).sent

/-- Two events by one logger, read before the second; the buffer is recycled in between. -/
example : (run init [.getNew 0, .format 0 (asc "one") 0 0, .write 0, .put 0, .begin_ 7, .first 7, .respond 7,
    .getPooled 0 0, .format 0 (asc "two") 0 0, .write 0, .put 0, .begin_ 7, .first 7, .respond 7]).map
      (fun s => s.responses.map fun x => x.2.map Prod.snd) = some [[asc "one"], [asc "two"]] := by decide +kernel

/-- That run meets the condition. -/
example : SafeRun init [.getNew 0, .format 0 (asc "one") 0 0, .write 0, .put 0, .begin_ 7, .first 7, .respond 7,
    .getPooled 0 0, .format 0 (asc "two") 0 0, .write 0, .put 0, .begin_ 7, .first 7, .respond 7] := by
  have hlen : (asc "one").length = 3 := by decide
  simp [SafeRun, Safe, step, init, upd, Pending, Reader.batch, hlen, capacity]
  intro e r he
  by_cases hr : r = 7 <;> simp [hr] at he

/-- C38 is false: two events logged one after the other by one goroutine, with the buffer recycled as usual; the
reader gets the text of the second twice. -/
theorem recycled_buffer_overwrites : ∃ (xs : List Step) (s : State), run init xs = some s ∧
    (s.responses.map fun x => x.2.map fun y => (y.1.text, y.2)) =
      [[(asc "one", asc "two"), (asc "two", asc "two")]] := by
  have h : (run init [.getNew 0, .format 0 (asc "one") 0 0, .write 0, .put 0, .getPooled 0 0, .format 0 (asc "two") 0 0,
      .write 0, .put 0, .begin_ 7, .first 7, .more 7, .respond 7]).map
        (fun s => s.responses.map fun x => x.2.map fun y => (y.1.text, y.2)) =
      some [[(asc "one", asc "two"), (asc "two", asc "two")]] := by decide +kernel
  obtain ⟨s, hs, hr⟩ := Option.map_eq_some_iff.mp h
  exact ⟨_, s, hs, hr⟩

/-- C38: what is sent for an event whose buffer the next one reuses before the reader comes: the later text, as long as the earlier one, with the end of the
earlier one if the later is shorter.  So it is for all texts that fit into the buffer of 128 bytes. -/
theorem recycled_texts (t u : Bytes) (ht : t.length ≤ 128) (hu : u.length ≤ 128) : ∃ (xs : List Step) (s : State), run init xs = some s ∧
    (s.responses.map fun x => x.2.map fun y => (y.1.text, y.2)) = [[(t, (u ++ t.drop u.length).take t.length), (u, u)]] := by
  have h : (run init [.getNew 0, .format 0 t 0 0, .write 0, .put 0, .getPooled 0 0, .format 0 u 0 0,
      .write 0, .put 0, .begin_ 7, .first 7, .more 7, .respond 7]).map
        (fun s => s.responses.map fun x => x.2.map fun y => (y.1.text, y.2)) =
      some [[(t, (u ++ t.drop u.length).take t.length), (u, u)]] := by
    have hu' : u.length ≤ t.length + (128 - t.length) := by omega
    have hz : ∀ z : Bytes, (u ++ (t.drop u.length ++ z)).take t.length = (u ++ t.drop u.length).take t.length := by
      intro z
      rw [← List.append_assoc, List.take_append_of_le_length]
      simp; omega
    simp only [run, step, init, upd, capacity, List.length_replicate, ht, if_true, Option.bind_some, List.length_nil]
    simp [upd, hu', hz, List.drop_append]
  obtain ⟨s, hs, hr⟩ := Option.map_eq_some_iff.mp h
  exact ⟨_, s, hs, hr⟩

/-- A shorter text over a longer one, and one that just fits over one of three bytes. -/
example : ((asc "two" ++ (asc "first").drop (asc "two").length).take (asc "first").length) = asc "twost" ∧
    (List.replicate 128 (97 : UInt8) ++ (asc "one").drop (List.replicate 128 (97 : UInt8)).length).take (asc "one").length = asc "aaa" := by decide

/-! ### C62 -/

/-- The elements with commas between them, logger.go 75-80. -/
def joinEvents : List Bytes → Bytes
  | [] => []
  | [e] => e
  | e :: es => e ++ 44 :: joinEvents es

/-- The response body, `moreEvents`, logger.go 70-82: the `[` written directly to the response, then what the stream
of the json-iterator library writes: `[`, the events with commas, `]`. -/
def body (events : List Bytes) : Bytes := [91] ++ ([91] ++ joinEvents events ++ [93])

/-- The texts are JSON with these values. -/
inductive AllJson : List Bytes → List Json → Prop where
  | nil : AllJson [] []
  | cons (e : Bytes) (j : Json) (es : List Bytes) (js : List Json) : IsJson e j → AllJson es js → AllJson (e :: es) (j :: js)

theorem joinEvents_elems (e : Bytes) (j : Json) (es : List Bytes) (js : List Json) (h : AllJson (e :: es) (j :: js)) :
    IsElems (joinEvents (e :: es)) (j :: js) := by
  induction es generalizing e j js with
  | nil =>
    cases h with
    | cons _ _ _ _ he hes =>
      cases hes
      obtain ⟨w, t, w', hw, ht, hw', rfl⟩ := he
      exact .one _ _ _ _ hw ht hw'
  | cons e2 es ih =>
    cases h with
    | cons _ _ _ _ he hes =>
      cases hes with
      | cons _ j2 _ js2 he2 hes =>
        obtain ⟨w, t, w', hw, ht, hw', rfl⟩ := he
        exact .more _ _ _ _ _ _ hw ht hw' (ih e2 j2 js2 (.cons _ _ _ _ he2 hes))

/-- C62 (partly): after its first byte the body is one JSON array of the events in order.  The body itself is never
JSON: `body_never_json`. -/
theorem body_array_partial (events : List Bytes) (js : List Json) (h : AllJson events js) :
    (body events).head? = some 91 ∧ IsJson (body events).tail (.arr js) := by
  refine ⟨rfl, [], (body events).tail, [], ws_nil, ?_, ws_nil, by simp⟩
  cases h with
  | nil => exact .arrNil [] ws_nil
  | cons e j es js he hes => exact .arr _ _ (joinEvents_elems e j es js (.cons _ _ _ _ he hes))

/-- C62 is false: whatever the events, as long as they are JSON texts, the body is not. -/
theorem body_never_json (events : List Bytes) (js : List Json) (h : AllJson events js) : ∀ j, ¬ IsJson (body events) j := by
  intro j hj
  obtain ⟨_, htail⟩ := body_array_partial events js h
  have h1 := json_balanced _ _ hj 0
  have h2 := json_balanced _ _ htail 1
  have : scan (.out, 0) (body events) = scan (.out, 1) (body events).tail := rfl
  rw [this, h2] at h1
  injection h1 with _ h1
  exact absurd h1 (by decide)

/-- A number and an empty object with a line break. -/
example : AllJson [asc "1", asc "{}\n"] [.num (scaled 1 0 0), .obj []] ∧ body [asc "1", asc "{}\n"] = asc "[[1,{}\n]" := by
  refine ⟨.cons _ _ _ _ ⟨[], asc "1", [], ws_nil, ?_, ws_nil, rfl⟩ (.cons _ _ _ _ ⟨[], asc "{}", asc "\n", ws_nil, .objNil [] ws_nil, ?_, rfl⟩ .nil), ?_⟩
  · exact .num (asc "1") 1 0 0 (.int (asc "1") [] 0 ⟨⟨by decide, by decide⟩, by decide⟩ .none)
  · intro c hc
    have : c = 10 := by
      have hn : asc "\n" = [10] := by decide
      rw [hn] at hc
      simpa using hc
    exact Or.inr (Or.inr (Or.inl this))
  · decide

end Verif.Witch
