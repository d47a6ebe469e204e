import Verif.Basic

/-!
# C28, C73: counting windows (countlog/stats/{window,counter,state}.go)

Goroutines counting and exporting interleave step by step; a step is one access to the
shared data or to a lock.
-/

namespace Verif.Stats

/-- The key of a counter: the dimension strings (window.go:201-216); [] is `0`, the key of
the extractor without dimensions (142-152). -/
abbrev Key := List Bytes

/-- Where a goroutine is in `countEvent.Handle` (counter.go:11-17), in `Export`
(window.go:59-63) or outside. -/
inductive Thread where
  | idle
  /-- before `lock.Lock()`, on shard `i` -/
  | wait (i : Nat) (key : Key)
  /-- before `extractor.Extract` -/
  | locked (i : Nat) (key : Key)
  /-- in `*counter += 1`, `v` read -/
  | read (i : Nat) (key : Key) (v : Nat)
  /-- before `lock.Unlock()` -/
  | written (i : Nat) (key : Key)
  /-- like `wait`, for an event on which `Extract` panics -/
  | badWait (i : Nat)
  /-- like `locked`, for such an event -/
  | badLocked (i : Nat)
  /-- before `shard.lock.Lock()` of shard `i`, window.go:66 -/
  | expWait (i : Nat)
  /-- in the loop of `exportShard` (window.go:70-85), these keys to go -/
  | expIn (i : Nat) (todo : List Key)
  /-- in `monoid.Export()` (state.go:41-45), `v` read -/
  | expRead (i : Nat) (key : Key) (v : Nat) (todo : List Key)
  /-- before `Collect`, window.go:79 -/
  | expZeroed (i : Nat) (key : Key) (v : Nat) (todo : List Key)
  deriving DecidableEq

/-- A window (window.go:14-24) and the goroutines using it.  Counters are natural numbers
(they are `uint64`, exported as `float64`: exact below 2^53). -/
structure State where
  lock : Nat → Option Nat
  map : Nat → List (Key × Nat)
  threads : Nat → Thread

/-- `newWindow`, window.go:26-39, and no goroutine at work. -/
def State.init : State := ⟨fun _ => none, fun _ => [], fun _ => .idle⟩

/-- What can be observed (state.go:9-18). -/
inductive Ev where
  /-- a call of `Handle` for an event with this key returns -/
  | handled (i : Nat) (key : Key)
  /-- a call of `Handle` panics -/
  | panicked (i : Nat)
  /-- the collector gets a point -/
  | collected (i : Nat) (key : Key) (v : Nat)
  /-- a call of `Export` by goroutine `t` returns -/
  | exported (t : Nat)
  deriving DecidableEq

/-- Scheduling decisions: goroutine `t` (with goroutine id `g`) starts a call, or goes on;
`order` is the order of the range loop it starts, if it starts one (counter.go:11-17, window.go:41-63). -/
inductive Action where
  | count (t g : Nat) (key : Key)
  | countBad (t g : Nat)
  | export (t : Nat)
  | go (t : Nat) (order : List Key)

/-- Function update (for window.go:65-86). -/
def upd {β : Type} (f : Nat → β) (a : Nat) (b : β) : Nat → β := fun x => if x = a then b else f x

/-- `m[k] = v` on a map held as a list of entries (state.go:47-58). -/
def mset : List (Key × Nat) → Key → Nat → List (Key × Nat)
  | [], k, v => [(k, v)]
  | (k', v') :: m, k, v => if k' = k then (k, v) :: m else (k', v') :: mset m k v

/-- Update of one counter (for window.go:65-86). -/
def updMap (m : Nat → List (Key × Nat)) (i : Nat) (k : Key) (v : Nat) : Nat → List (Key × Nat) :=
  upd m i (mset (m i) k v)

/-- The next step of goroutine `t`; a blocked one stays where it is.
`Handle`, counter.go:11-17, with `Extract`/`extractDimension` (window.go:201-216: look the
counter up or create it); `Export` and `exportShard`, window.go:59-86 (a range loop in an
order that does not visit every key once is not started). -/
def go (s : State) (t : Nat) (order : List Key) : State × Option Ev :=
  match s.threads t with
  | .idle => (s, none)
  | .wait i key =>
    match s.lock i with
    | none => ({ s with lock := upd s.lock i (some t), threads := upd s.threads t (.locked i key) }, none)
    | some _ => (s, none)
  | .locked i key =>
    match (s.map i).lookup key with
    | some v => ({ s with threads := upd s.threads t (.read i key v) }, none)
    | none => ({ s with map := updMap s.map i key 0, threads := upd s.threads t (.read i key 0) }, none)
  | .read i key v =>
    ({ s with map := updMap s.map i key (v + 1), threads := upd s.threads t (.written i key) }, none)
  | .written i key =>
    ({ s with lock := upd s.lock i none, threads := upd s.threads t .idle }, some (.handled i key))
  | .badWait i =>
    match s.lock i with
    | none => ({ s with lock := upd s.lock i (some t), threads := upd s.threads t (.badLocked i) }, none)
    | some _ => (s, none)
  | .badLocked i => ({ s with threads := upd s.threads t .idle }, some (.panicked i))
  | .expWait i =>
    if 16 ≤ i then ({ s with threads := upd s.threads t .idle }, some (.exported t))
    else
      match s.lock i with
      | none =>
        if order.isPerm ((s.map i).map Prod.fst) then
          ({ s with lock := upd s.lock i (some t), threads := upd s.threads t (.expIn i order) }, none)
        else (s, none)
      | some _ => (s, none)
  | .expIn i [] => ({ s with lock := upd s.lock i none, threads := upd s.threads t (.expWait (i + 1)) }, none)
  | .expIn i (key :: todo) =>
    ({ s with threads := upd s.threads t (.expRead i key (((s.map i).lookup key).getD 0) todo) }, none)
  | .expRead i key v todo =>
    ({ s with map := updMap s.map i key 0, threads := upd s.threads t (.expZeroed i key v todo) }, none)
  | .expZeroed i key v todo =>
    ({ s with threads := upd s.threads t (.expIn i todo) }, some (.collected i key v))

/-- One scheduling decision; `Mutate` (window.go:53-57) selects the shard by goroutine id. -/
def step (s : State) : Action → State × Option Ev
  | .count t g key => match s.threads t with
    | .idle => ({ s with threads := upd s.threads t (.wait (g % 16) key) }, none)
    | _ => (s, none)
  | .countBad t g => match s.threads t with
    | .idle => ({ s with threads := upd s.threads t (.badWait (g % 16)) }, none)
    | _ => (s, none)
  | .export t => match s.threads t with
    | .idle => ({ s with threads := upd s.threads t (.expWait 0) }, none)
    | _ => (s, none)
  | .go t order => go s t order

/-- What is observed in a run (counter.go:11-17, window.go:59-86). -/
def trace : State → List Action → List Ev
  | _, [] => []
  | s, a :: as => (step s a).2.toList ++ trace (step s a).1 as

/-- The state after a run (counter.go:11-17, window.go:59-86). -/
def after : State → List Action → State
  | s, [] => s
  | s, a :: as => after (step s a).1 as

end Verif.Stats
