import Verif.Countlog.Model

/-!
# C131: logging a recovered panic

Model of `LogPanic`, countlog/countlog.go 129-142, with the slices it is given and makes.
-/

namespace Verif.LogPanic

open Verif.Countlog (Levels entry levelFatal)

/-! ### Model -/

/-- A property: a text or another value, countlog/countlog.go 136. -/
inductive Prp (V : Type)
  | text (s : Bytes)
  | val (v : V)
  deriving DecidableEq

/-- A `[]interface{}`: an array, where it starts in it, its length and capacity, countlog/countlog.go 129. -/
structure Slice where
  arr : Nat
  off : Nat
  len : Nat
  cap : Nat
  deriving DecidableEq

/-- The arrays there are, countlog/countlog.go 136. -/
abbrev Heap (V : Type) := List (List (Prp V))

/-- The elements of a slice, as `Fatal` gets them, countlog/countlog.go 137. -/
def read {V : Type} (h : Heap V) (s : Slice) : List (Prp V) := ((h.getD s.arr []).drop s.off).take s.len

/-- Writing into an array from an index on, for `append`, countlog/countlog.go 136. -/
def overwrite {V : Type} (l : List (Prp V)) (i : Nat) (xs : List (Prp V)) : List (Prp V) := l.take i ++ xs ++ l.drop (i + xs.length)

/-- `append`, countlog/countlog.go 136: in place if the capacity is enough.  Simplified: a new array has no spare capacity. -/
def append {V : Type} (h : Heap V) (s : Slice) (xs : List (Prp V)) : Heap V × Slice :=
  if s.len + xs.length ≤ s.cap then (h.set s.arr (overwrite (h.getD s.arr []) (s.off + s.len) xs), { s with len := s.len + xs.length })
  else (h ++ [read h s ++ xs], ⟨h.length, 0, s.len + xs.length, s.len + xs.length⟩)

/-- The buffer after `runtime.Stack`, countlog/countlog.go 133-134: 65536 bytes, with as much of the trace as there is room for. -/
def buffer (stack : Bytes) : Bytes := (stack ++ List.replicate 65536 0).take 65536

/-- The properties added, countlog/countlog.go 136 and 139. -/
def added {V : Type} (recovered : V) (stack : Bytes) : List (Prp V) :=
  [.text (asc "err"), .val recovered, .text (asc "stacktrace"), .text (buffer stack)]

/-- The properties that are logged, countlog/countlog.go 135-140: those given with the new ones behind, or a new slice. -/
def prepare {V : Type} (h : Heap V) (recovered : V) (props : Slice) (stack : Bytes) : Heap V × Slice :=
  if props.len > 0 then append h props (added recovered stack)
  else (h ++ [added recovered stack], ⟨h.length, 0, 4, 4⟩)

/-- An event, countlog/countlog.go 137. -/
structure Event (V : Type) where
  level : Int
  name : Bytes
  props : List (Prp V)

/-- `Fatal`, countlog/countlog.go 137 and 116-119: the event as it is when it is formatted. -/
def emit {V : Type} (cfg : Levels) (h : Heap V) (s : Slice) : List (Event V) :=
  match entry cfg 0 false .fatal with
  | some (level, _) => [⟨level, asc "event!panic", read h s⟩]
  | none => []

/-- What `LogPanic` leaves: the arrays, the events and its result, countlog/countlog.go 129-142. -/
structure Done (V : Type) where
  heap : Heap V
  events : List (Event V)
  result : Option V

/-- `LogPanic`, countlog/countlog.go 129-142. -/
def logPanic {V : Type} (cfg : Levels) (h : Heap V) (recovered : Option V) (props : Slice) (stack : Bytes) : Done V :=
  match recovered with
  | none => ⟨h, [], none⟩
  | some v =>
    let r := prepare h v props stack
    ⟨r.1, emit cfg r.1 r.2, some v⟩

/-! ### Specification -/

/-- A slice within an array. -/
def Valid {V : Type} (h : Heap V) (s : Slice) : Prop := s.arr < h.length ∧ s.len ≤ s.cap ∧ s.off + s.cap ≤ (h.getD s.arr []).length

/-- The arguments of a call that lists them, or a slice without spare room for four more. -/
def Full (s : Slice) : Prop := s.cap < s.len + 4

/-! ### Proofs -/

/-- C131: without a panic nothing happens. -/
theorem nil_silent {V : Type} (cfg : Levels) (h : Heap V) (props : Slice) (stack : Bytes) :
    logPanic cfg h none props stack = ⟨h, [], none⟩ := rfl

theorem read_append {V : Type} (h : Heap V) (s : Slice) (hv : Valid h s) (xs : List (Prp V)) :
    read (append h s xs).1 (append h s xs).2 = read h s ++ xs := by
  obtain ⟨h1, h2, h3⟩ := hv
  have hlen : (read h s).length = s.len := by
    unfold read
    rw [List.length_take, List.length_drop]
    omega
  unfold append
  by_cases hc : s.len + xs.length ≤ s.cap
  · rw [if_pos hc]
    unfold read overwrite
    simp only [List.getD_eq_getElem?_getD, List.getElem?_set, h1, if_true, Option.getD_some]
    rw [List.getD_eq_getElem?_getD] at h3
    generalize h[s.arr]?.getD [] = l at *
    rw [List.append_assoc, List.drop_append_of_le_length (by rw [List.length_take]; omega), List.drop_take,
      Nat.add_sub_cancel_left, List.take_append, List.length_take, List.length_drop]
    have e : min s.len (l.length - s.off) = s.len := by omega
    rw [e, Nat.add_sub_cancel_left, List.take_append, List.take_take]
    simp
  · rw [if_neg hc]
    show ((((h ++ [read h s ++ xs]).getD h.length []).drop 0).take (s.len + xs.length)) = _
    rw [List.getD_eq_getElem?_getD, List.getElem?_append_right (Nat.le_refl _)]
    simp only [Nat.sub_self, List.getElem?_cons_zero, Option.getD_some, List.drop_zero]
    rw [List.take_of_length_le]
    rw [List.length_append, hlen]
    exact Nat.le_refl _

theorem read_prepare {V : Type} (h : Heap V) (v : V) (s : Slice) (hv : Valid h s) (stack : Bytes) :
    read (prepare h v s stack).1 (prepare h v s stack).2 = read h s ++ added v stack := by
  unfold prepare
  by_cases hl : s.len > 0
  · rw [if_pos hl]
    exact read_append h s hv _
  · rw [if_neg hl]
    have : read h s = [] := by
      unfold read
      rw [show s.len = 0 by omega, List.take_zero]
    rw [this]
    show (((h ++ [added v stack]).getD h.length []).drop 0).take 4 = _
    rw [List.getD_eq_getElem?_getD, List.getElem?_append_right (Nat.le_refl _)]
    simp [added]

/-- C131, part: a panic is logged by one fatal event, whatever the levels, with the properties given, the panic and the beginning of the
trace; the panic is returned.  Missing: a trace as it is (`trace_padded`), and the effects on slices of the caller (`overwrites`,
`wrong_panic`). -/
theorem logged_partial {V : Type} (cfg : Levels) (h : Heap V) (v : V) (s : Slice) (hv : Valid h s) (stack : Bytes) :
    ∃ trace, (logPanic cfg h (some v) s stack).events =
        [⟨60, asc "event!panic", read h s ++ [.text (asc "err"), .val v, .text (asc "stacktrace"), .text trace]⟩] ∧
      (logPanic cfg h (some v) s stack).result = some v ∧ stack.take 65536 <+: trace := by
  refine ⟨buffer stack, ?_, rfl, ?_⟩
  · show emit cfg (prepare h v s stack).1 (prepare h v s stack).2 = _
    show [(⟨levelFatal, asc "event!panic", read _ _⟩ : Event V)] = _
    rw [read_prepare h v s hv]
    rfl
  · unfold buffer
    rw [List.take_append]
    exact List.prefix_append _ _

theorem append_getElem {V : Type} (h : Heap V) (s : Slice) (xs : List (Prp V)) (hx : s.cap < s.len + xs.length) (a : Nat) (ha : a < h.length) :
    (append h s xs).1[a]? = h[a]? := by
  unfold append
  rw [if_neg (by omega)]
  exact List.getElem?_append_left ha

/-- C131, part: arrays of the caller stay as they are, if the arguments are listed in the call or the slice has no room.  Missing: other
slices, `overwrites`. -/
theorem unchanged_partial {V : Type} (cfg : Levels) (h : Heap V) (v : Option V) (s : Slice) (hf : Full s ∨ s.len = 0) (stack : Bytes) (a : Nat)
    (ha : a < h.length) : (logPanic cfg h v s stack).heap[a]? = h[a]? := by
  cases v with
  | none => rfl
  | some v =>
    show (prepare h v s stack).1[a]? = _
    unfold prepare
    by_cases hl : s.len > 0
    · rw [if_pos hl]
      refine append_getElem h s _ ?_ a ha
      rcases hf with hf | hf
      · exact hf
      · omega
    · rw [if_neg hl]
      exact List.getElem?_append_left ha

/-- What several goroutines do between the two steps of another, countlog/countlog.go 136. -/
def prepareAll {V : Type} (h : Heap V) : List (V × Slice × Bytes) → Heap V
  | [] => h
  | (v, s, st) :: r => prepareAll (prepare h v s st).1 r

theorem prepare_length {V : Type} (h : Heap V) (v : V) (s : Slice) (stack : Bytes) : h.length ≤ (prepare h v s stack).1.length := by
  unfold prepare append
  by_cases hl : s.len > 0
  · rw [if_pos hl]
    split <;> simp
  · rw [if_neg hl]; simp

theorem prepareAll_getElem {V : Type} (l : List (V × Slice × Bytes)) (hl : ∀ c ∈ l, Full c.2.1 ∨ c.2.1.len = 0) (h : Heap V) (a : Nat) (ha : a < h.length) :
    (prepareAll h l)[a]? = h[a]? := by
  induction l generalizing h with
  | nil => rfl
  | cons c r ih =>
    obtain ⟨v, s, st⟩ := c
    rw [prepareAll, ih (fun c hc => hl c (List.mem_cons_of_mem _ hc)) _ (Nat.lt_of_lt_of_le ha (prepare_length h v s st))]
    exact unchanged_partial Levels.init h (some v) s (hl _ List.mem_cons_self) st a ha

theorem overwrite_get {V : Type} (l : List (Prp V)) (i : Nat) (xs : List (Prp V)) (hi : i + xs.length ≤ l.length) (j : Nat)
    (hj : j < i ∨ i + xs.length ≤ j) : (overwrite l i xs)[j]? = l[j]? := by
  unfold overwrite
  rcases hj with hj | hj
  · rw [List.append_assoc, List.getElem?_append_left (by rw [List.length_take]; omega), List.getElem?_take_of_lt hj]
  · rw [List.getElem?_append_right (by rw [List.length_append, List.length_take]; omega), List.getElem?_drop]
    congr 1
    rw [List.length_append, List.length_take]
    omega

/-- C131: whatever slice is given, at most the four elements behind it change, in no other place and no other array. -/
theorem only_behind {V : Type} (cfg : Levels) (h : Heap V) (v : Option V) (s : Slice) (hv : Valid h s) (stack : Bytes) (a j : Nat) (ha : a < h.length)
    (hj : a = s.arr → j < s.off + s.len ∨ s.off + s.len + 4 ≤ j) :
    ((logPanic cfg h v s stack).heap.getD a [])[j]? = (h.getD a [])[j]? := by
  cases v with
  | none => rfl
  | some v =>
    show (((prepare h v s stack).1).getD a [])[j]? = _
    unfold prepare
    by_cases hl : s.len > 0
    · rw [if_pos hl]
      unfold append
      have hx : (added v stack).length = 4 := rfl
      rw [hx]
      by_cases hc : s.len + 4 ≤ s.cap
      · rw [if_pos hc]
        obtain ⟨h1, h2, h3⟩ := hv
        by_cases hs : a = s.arr
        · subst hs
          have e : (h.set s.arr (overwrite (h.getD s.arr []) (s.off + s.len) (added v stack))).getD s.arr [] =
              overwrite (h.getD s.arr []) (s.off + s.len) (added v stack) := by
            simp [List.getD, h1]
          show ((h.set s.arr _).getD s.arr [])[j]? = _
          rw [e, overwrite_get _ _ _ (by rw [hx]; omega) j (by rw [hx]; exact hj rfl)]
        · show ((h.set s.arr _).getD a [])[j]? = _
          have e : ∀ y, (h.set s.arr y).getD a [] = h.getD a [] := by
            intro y
            simp only [List.getD]
            rw [List.getElem?_set_ne (fun q => hs q.symm)]
          rw [e]
      · rw [if_neg hc]
        show ((h ++ _).getD a [])[j]? = _
        simp only [List.getD]
        rw [List.getElem?_append_left ha]
    · rw [if_neg hl]
      show ((h ++ _).getD a [])[j]? = _
      simp only [List.getD]
      rw [List.getElem?_append_left ha]

/-- C131, part: however many panics are logged at the same time, each event has its own panic, if no slice has room.  Missing: other slices,
`wrong_panic`. -/
theorem own_panic_partial {V : Type} (cfg : Levels) (h : Heap V) (v : V) (s : Slice) (hv : Valid h s) (hf : Full s ∨ s.len = 0) (stack : Bytes)
    (others : List (V × Slice × Bytes)) (ho : ∀ c ∈ others, Full c.2.1 ∨ c.2.1.len = 0) :
    ∃ trace, emit cfg (prepareAll (prepare h v s stack).1 others) (prepare h v s stack).2 =
        [⟨60, asc "event!panic", read h s ++ [.text (asc "err"), .val v, .text (asc "stacktrace"), .text trace]⟩] ∧ stack.take 65536 <+: trace := by
  refine ⟨buffer stack, ?_, by unfold buffer; rw [List.take_append]; exact List.prefix_append _ _⟩
  have harr : (prepare h v s stack).2.arr < (prepare h v s stack).1.length := by
    unfold prepare append
    by_cases hl : s.len > 0
    · have hn : ¬ s.len + (added v stack).length ≤ s.cap := by
        have ha : (added v stack).length = 4 := rfl
        rw [ha]
        unfold Full at hf
        omega
      rw [if_pos hl, if_neg hn]
      simp
    · rw [if_neg hl]; simp
  have : read (prepareAll (prepare h v s stack).1 others) (prepare h v s stack).2 = read (prepare h v s stack).1 (prepare h v s stack).2 := by
    unfold read
    rw [List.getD_eq_getElem?_getD, prepareAll_getElem others ho _ _ harr, ← List.getD_eq_getElem?_getD]
  show [(⟨levelFatal, asc "event!panic", read _ _⟩ : Event V)] = _
  rw [this, read_prepare h v s hv]
  rfl

/-! ### Disagreements and a concrete case -/

/-- C131 fails: a trace shorter than the buffer is logged with zero bytes behind it. -/
theorem trace_padded (stack : Bytes) (h : stack.length < 65536) : buffer stack = stack ++ List.replicate (65536 - stack.length) 0 ∧ buffer stack ≠ stack := by
  have e : buffer stack = stack ++ List.replicate (65536 - stack.length) 0 := by
    unfold buffer
    rw [List.take_append, List.take_of_length_le (by omega), List.take_replicate, Nat.min_eq_left (by omega)]
  refine ⟨e, fun h' => ?_⟩
  have := congrArg List.length h'
  rw [e, List.length_append, List.length_replicate] at this
  omega

/-- An array of six numbers. -/
def sampleHeap : Heap Nat := [[.val 1, .val 2, .val 3, .val 4, .val 5, .val 6]]
/-- Its first two elements, with room behind. -/
def roomy : Slice := ⟨0, 0, 2, 6⟩
/-- All of its elements. -/
def whole : Slice := ⟨0, 0, 6, 6⟩

/-- C131 fails: a slice with room is appended to in place, and another slice of the caller changes. -/
theorem overwrites (cfg : Levels) (stack : Bytes) : read sampleHeap whole = [.val 1, .val 2, .val 3, .val 4, .val 5, .val 6] ∧
    read (logPanic cfg sampleHeap (some 9) roomy stack).heap whole =
      [.val 1, .val 2, .text (asc "err"), .val 9, .text (asc "stacktrace"), .text (buffer stack)] := ⟨rfl, rfl⟩

/-- C131 fails: two goroutines that log their panics with one such slice: the event of the first has the panic of the second. -/
theorem wrong_panic (cfg : Levels) (st st' : Bytes) :
    (emit cfg (prepareAll (prepare sampleHeap 7 roomy st).1 [(8, roomy, st')]) (prepare sampleHeap 7 roomy st).2).map Event.props =
      [[.val 1, .val 2, .text (asc "err"), .val 8, .text (asc "stacktrace"), .text (buffer st')]] := rfl

example : Valid sampleHeap whole ∧ Full whole ∧ Valid sampleHeap roomy ∧ ¬ Full roomy ∧
    (logPanic Levels.init sampleHeap (some 9) whole (asc "main.go:3")).events.map (fun e => (e.level, e.props.length)) = [(60, 10)] := by
  refine ⟨⟨by decide, by decide, by decide⟩, by unfold Full whole; decide, ⟨by decide, by decide, by decide⟩, by unfold Full roomy; decide, rfl⟩

end Verif.LogPanic
