import Verif.Msgfmt.FormatProps
import Mathlib.Data.Nat.Find

/-!
# C162: goroutines that format at the same time

In `FormatModel` one call is made after the other.  Here any number of goroutines make calls at the same time; their accesses to
`formatterCache` are single steps, which may come in any order.
-/

namespace Verif.Msgfmt.Together

/-! ### Model -/

/-- A goroutine that makes calls of `Sprintf` one after the other: the calls still to be made, the formatter it has compiled for the
first of them but not yet stored (between msgfmt/msgfmt.go:77 and 78), and what the calls before have given. -/
structure Gor where
  todo : List Call
  made : Option Formatter
  outs : List (Res Bytes)

/-- The next access of a goroutine to `formatterCache`, with what it does until the one after that: `Load` (msgfmt/msgfmt.go:73-77) or
`Store` (78), and `Format` (22).  Each access is one step: `concurrent.Map` is a map with a lock (concurrent/go_below_19.go, C47) or
`sync.Map`. -/
def Gor.step (shw : List Arg → Bytes) (cache : Cache) (g : Gor) : Gor × Cache :=
  match g.todo, g.made with
  | [], _ => (g, cache)
  | (format, kv) :: rest, some f => (⟨rest, none, g.outs ++ [f.format shw kv []]⟩, (format, f) :: cache)
  | (format, kv) :: rest, none =>
    match cache.lookup format with
    | some f => (⟨rest, none, g.outs ++ [f.format shw kv []]⟩, cache)
    | none =>
      match compile format kv with
      | .ok f => (⟨(format, kv) :: rest, some f, g.outs⟩, cache)
      | .error b => (⟨rest, none, g.outs ++ [.error b]⟩, cache)

/-- `formatterCache` (msgfmt/msgfmt.go:70) and the goroutines by number. -/
structure Run where
  cache : Cache
  gor : Nat → Gor

/-- Goroutine `i` does its next access to the cache (msgfmt/msgfmt.go:73 or 78). -/
def Run.step (shw : List Arg → Bytes) (s : Run) (i : Nat) : Run where
  cache := ((s.gor i).step shw s.cache).2
  gor j := if j = i then ((s.gor i).step shw s.cache).1 else s.gor j

/-- The goroutines before their calls, in a process that has not formatted anything (msgfmt/msgfmt.go:70). -/
def Run.start (job : Nat → List Call) : Run := ⟨[], fun i => ⟨job i, none, []⟩⟩

/-- After `n` steps, `sched k` being the goroutine that does step `k`. -/
def Run.after (shw : List Arg → Bytes) (sched : Nat → Nat) (job : Nat → List Call) : Nat → Run
  | 0 => Run.start job
  | n + 1 => (Run.after shw sched job n).step shw (sched n)

/-! ### Invariant -/

/-- `f` was compiled for the arguments of a call some goroutine makes with this format. -/
def Made (job : Nat → List Call) (format : Bytes) (f : Formatter) : Prop :=
  ∃ i kv, (format, kv) ∈ job i ∧ compile format kv = .ok f

/-- What a call may give: what its arguments give with a formatter compiled for some call with its format; or, its own arguments
failing to compile, that failure. -/
def Gives (shw : List Arg → Bytes) (job : Nat → List Call) (c : Call) (r : Res Bytes) : Prop :=
  (∃ f, Made job c.1 f ∧ r = f.format shw c.2 []) ∨ ∃ b, compile c.1 c.2 = .error b ∧ r = .error b

/-- The calls of a goroutine are those done, each with a result it may have, and those still to do. -/
structure Good (shw : List Arg → Bytes) (job : Nat → List Call) (i : Nat) (g : Gor) : Prop where
  split : ∃ past, job i = past ++ g.todo ∧ past.length = g.outs.length ∧
    ∀ (k : Nat) c r, past[k]? = some c → g.outs[k]? = some r → Gives shw job c r
  made : ∀ f, g.made = some f → ∃ format kv rest, g.todo = (format, kv) :: rest ∧ compile format kv = .ok f

theorem Good.next {shw : List Arg → Bytes} {job : Nat → List Call} {i : Nat} {g : Gor} (h : Good shw job i g) {c : Call} {rest : List Call}
    (ht : g.todo = c :: rest) (r : Res Bytes) (hr : Gives shw job c r) : Good shw job i ⟨rest, none, g.outs ++ [r]⟩ := by
  obtain ⟨past, h1, h2, h3⟩ := h.split
  refine ⟨⟨past ++ [c], by rw [h1, ht]; simp, by simp [h2], ?_⟩, by simp⟩
  intro k c' r' hk hr'
  rw [List.getElem?_append] at hk hr'
  by_cases hlt : k < past.length
  · rw [if_pos hlt] at hk
    rw [if_pos (by omega)] at hr'
    exact h3 k c' r' hk hr'
  · rw [if_neg hlt] at hk
    rw [if_neg (by omega)] at hr'
    rw [h2] at hk
    cases hd : k - g.outs.length with
    | zero =>
      rw [hd] at hk hr'
      simp only [List.getElem?_cons_zero, Option.some.injEq] at hk hr'
      subst hk; subst hr'; exact hr
    | succ m => rw [hd] at hk; simp at hk

theorem Good.mem {shw : List Arg → Bytes} {job : Nat → List Call} {i : Nat} {g : Gor} (h : Good shw job i g) {c : Call} {rest : List Call}
    (ht : g.todo = c :: rest) : c ∈ job i := by
  obtain ⟨past, h1, -, -⟩ := h.split
  rw [h1, ht]; simp

theorem step_good (shw : List Arg → Bytes) (job : Nat → List Call) (i : Nat) (cache : Cache) (g : Gor)
    (hc : ∀ format f, cache.lookup format = some f → Made job format f) (h : Good shw job i g) :
    Good shw job i (g.step shw cache).1 ∧ ∀ format f, (g.step shw cache).2.lookup format = some f → Made job format f := by
  unfold Gor.step
  cases ht : g.todo with
  | nil => exact ⟨h, hc⟩
  | cons c rest =>
    obtain ⟨format, kv⟩ := c
    cases hm : g.made with
    | some f =>
      simp only
      obtain ⟨format', kv', rest', ht', hcomp⟩ := h.made f hm
      rw [ht] at ht'
      simp only [List.cons.injEq, Prod.mk.injEq] at ht'
      obtain ⟨⟨rfl, rfl⟩, -⟩ := ht'
      have hmade : Made job format f := ⟨i, kv, h.mem ht, hcomp⟩
      refine ⟨h.next ht _ (Or.inl ⟨f, hmade, rfl⟩), ?_⟩
      intro format' f' hl
      rw [List.lookup_cons] at hl
      by_cases he : format' = format
      · subst he
        simp only [beq_self_eq_true, Option.some.injEq] at hl
        subst hl; exact hmade
      · have : (format' == format) = false := by simpa using he
        rw [this] at hl
        exact hc _ _ hl
    | none =>
      simp only
      cases hl : cache.lookup format with
      | some f => exact ⟨h.next ht _ (Or.inl ⟨f, hc _ _ hl, rfl⟩), hc⟩
      | none =>
        simp only
        cases hcomp : compile format kv with
        | ok f =>
          refine ⟨⟨?_, ?_⟩, hc⟩
          · obtain ⟨past, h1, h2, h3⟩ := h.split
            exact ⟨past, by rw [h1, ht], h2, h3⟩
          · intro f' hf'
            simp only [Option.some.injEq] at hf'
            subst hf'
            exact ⟨format, kv, rest, rfl, hcomp⟩
        | error b => exact ⟨h.next ht _ (Or.inr ⟨b, hcomp, rfl⟩), hc⟩

theorem after_good (shw : List Arg → Bytes) (sched : Nat → Nat) (job : Nat → List Call) (n : Nat) :
    (∀ format f, (Run.after shw sched job n).cache.lookup format = some f → Made job format f) ∧
      ∀ i, Good shw job i ((Run.after shw sched job n).gor i) := by
  induction n with
  | zero => exact ⟨by simp [Run.after, Run.start], fun i => ⟨⟨[], rfl, rfl, by simp⟩, by simp [Run.after, Run.start]⟩⟩
  | succ n ih =>
    have hs := step_good shw job (sched n) _ _ ih.1 (ih.2 (sched n))
    refine ⟨hs.2, fun i => ?_⟩
    simp only [Run.after, Run.step]
    by_cases hi : i = sched n
    · subst hi; simp only [if_true]; exact hs.1
    · simp only [hi, if_false]; exact ih.2 i

/-! ### C162 -/

/-- `r` is what call `k` of goroutine `i`, which is `c`, gave in some interleaving. -/
def Result (shw : List Arg → Bytes) (job : Nat → List Call) (i k : Nat) (c : Call) (r : Res Bytes) : Prop :=
  (job i)[k]? = some c ∧ ∃ sched n, ((Run.after shw sched job n).gor i).outs[k]? = some r

theorem result_gives {shw : List Arg → Bytes} {job : Nat → List Call} {i k : Nat} {c : Call} {r : Res Bytes}
    (h : Result shw job i k c r) : Gives shw job c r := by
  obtain ⟨hk, sched, n, hr⟩ := h
  obtain ⟨past, h1, h2, h3⟩ := ((after_good shw sched job n).2 i).split
  have hlt : k < past.length := by
    rw [h2]
    by_contra hge
    rw [List.getElem?_eq_none (by omega)] at hr
    cases hr
  rw [h1, List.getElem?_append, if_pos hlt] at hk
  exact h3 k c r hk hr

/-- C162, partial: if the goroutines pass, with the same format, the same names in the same order with values of the same types, every
call gives what it gives in a process of its own, whatever the interleaving. -/
theorem together_partial (shw : List Arg → Bytes) (job : Nat → List Call) (i k : Nat) (c : Call) (r : Res Bytes)
    (h : Result shw job i k c r) (alike : ∀ j, ∀ d ∈ job j, d.1 = c.1 → shape d.2 = shape c.2) : r = sprintfFresh shw c.1 c.2 := by
  rcases result_gives h with ⟨f, ⟨j, kv, hm, hcomp⟩, rfl⟩ | ⟨b, hcomp, rfl⟩
  · have hs := alike j (c.1, kv) hm rfl
    exact (fresh_of_compile ((compile_shape c.1 hs.symm).trans hcomp)).symm
  · exact (fresh_error hcomp).symm

/-- C162, without conditions: every call gives what its arguments give after a single earlier call with its format, made by some
goroutine (maybe itself); or, its own arguments having no formatter, what it gives alone. -/
theorem together_after_one (shw : List Arg → Bytes) (job : Nat → List Call) (i k : Nat) (c : Call) (r : Res Bytes)
    (h : Result shw job i k c r) :
    (∃ j, ∃ d ∈ job j, d.1 = c.1 ∧ (run shw [] [d, c])[1]? = some r) ∨ r = sprintfFresh shw c.1 c.2 := by
  rcases result_gives h with ⟨f, ⟨j, kv, hm, hcomp⟩, rfl⟩ | ⟨b, hcomp, rfl⟩
  · left
    refine ⟨j, (c.1, kv), hm, rfl, ?_⟩
    obtain ⟨format, ckv⟩ := c
    simp only at hcomp
    simp [run, sprintf, formatterOf, hcomp]
  · exact Or.inr (fresh_error hcomp).symm

/-- C162: every goroutine whose turn comes again and again gets to the end of its calls, and has a result for each. -/
theorem together_ends (shw : List Arg → Bytes) (job : Nat → List Call) (sched : Nat → Nat) (i : Nat)
    (fair : ∀ n, ∃ m, n ≤ m ∧ sched m = i) :
    ∃ n, ((Run.after shw sched job n).gor i).todo = [] ∧ ((Run.after shw sched job n).gor i).outs.length = (job i).length := by
  -- what is left to do
  let left : Gor → Nat := fun g => 2 * g.todo.length - (if g.made.isSome then 1 else 0)
  have turn : ∀ n, ∃ m, n < m ∧ ((Run.after shw sched job m).gor i).todo.length ≤ ((Run.after shw sched job n).gor i).todo.length ∧
      (((Run.after shw sched job n).gor i).todo ≠ [] →
        left ((Run.after shw sched job m).gor i) < left ((Run.after shw sched job n).gor i)) := by
    intro n
    have hex : ∃ d, sched (n + d) = i := by
      obtain ⟨m, hm, h⟩ := fair n
      exact ⟨m - n, by rw [show n + (m - n) = m by omega]; exact h⟩
    classical
    have same : ∀ d, d ≤ Nat.find hex → (Run.after shw sched job (n + d)).gor i = (Run.after shw sched job n).gor i := by
      intro d
      induction d with
      | zero => intro _; rfl
      | succ d ih =>
        intro hd
        show ((Run.after shw sched job (n + d)).step shw (sched (n + d))).gor i = _
        simp only [Run.step]
        rw [if_neg (Ne.symm (Nat.find_min hex (by omega))), ih (by omega)]
    refine ⟨n + Nat.find hex + 1, by omega, ?_⟩
    have hstep : (Run.after shw sched job (n + Nat.find hex + 1)).gor i =
        (((Run.after shw sched job n).gor i).step shw (Run.after shw sched job (n + Nat.find hex)).cache).1 := by
      show ((Run.after shw sched job (n + Nat.find hex)).step shw (sched (n + Nat.find hex))).gor i = _
      simp only [Run.step, Nat.find_spec hex, if_true]
      rw [same _ (Nat.le_refl _)]
    rw [hstep]
    generalize (Run.after shw sched job (n + Nat.find hex)).cache = cache
    generalize (Run.after shw sched job n).gor i = g
    obtain ⟨todo, made, outs⟩ := g
    cases todo with
    | nil => simp [Gor.step]
    | cons c rest =>
      cases made with
      | some f => simp only [Gor.step, left, List.length_cons, Option.isSome_some, Option.isSome_none]; simp; omega
      | none =>
        simp only [Gor.step]
        cases cache.lookup c.1 with
        | some f => simp [left]
        | none =>
          simp only
          cases compile c.1 c.2 with
          | ok f => simp only [left, List.length_cons, Option.isSome_some, Option.isSome_none]; simp; omega
          | error b => simp [left]
  have ends : ∀ (l n : Nat), left ((Run.after shw sched job n).gor i) ≤ l → ∃ m, ((Run.after shw sched job m).gor i).todo = [] := by
    intro l
    induction l with
    | zero =>
      intro n hl
      by_cases hnil : ((Run.after shw sched job n).gor i).todo = []
      · exact ⟨n, hnil⟩
      · obtain ⟨m, -, -, h⟩ := turn n
        have := h hnil
        omega
    | succ l ih =>
      intro n hl
      by_cases hnil : ((Run.after shw sched job n).gor i).todo = []
      · exact ⟨n, hnil⟩
      · obtain ⟨m, -, -, h⟩ := turn n
        exact ih m (by have := h hnil; omega)
  obtain ⟨n, hn⟩ := ends _ 0 (Nat.le_refl _)
  obtain ⟨past, h1, h2, -⟩ := ((after_good shw sched job n).2 i).split
  rw [hn, List.append_nil] at h1
  exact ⟨n, hn, by rw [h1, h2]⟩

/-- A goroutine that makes `n` accesses in a row (msgfmt/msgfmt.go:72-80). -/
def alone (shw : List Arg → Bytes) : Nat → Gor → Cache → Gor × Cache
  | 0, g, cache => (g, cache)
  | n + 1, g, cache => alone shw n (g.step shw cache).1 (g.step shw cache).2

/-- C162: a goroutine that is alone gets what the calls of `FormatModel` give, one after the other. -/
theorem alone_calls (shw : List Arg → Bytes) : ∀ (calls : List Call) (cache : Cache) (outs : List (Res Bytes)),
    ∃ n cache', alone shw n ⟨calls, none, outs⟩ cache = (⟨[], none, outs ++ run shw cache calls⟩, cache')
  | [], cache, outs => ⟨0, cache, by simp [run, alone]⟩
  | (format, kv) :: rest, cache, outs => by
    cases hl : cache.lookup format with
    | some f =>
      obtain ⟨n, cache', h⟩ := alone_calls shw rest cache (outs ++ [f.format shw kv []])
      refine ⟨n + 1, cache', ?_⟩
      have hs : Gor.step shw cache ⟨(format, kv) :: rest, none, outs⟩ = (⟨rest, none, outs ++ [f.format shw kv []]⟩, cache) := by
        simp only [Gor.step, hl]
      rw [alone, hs, h]
      simp [run, sprintf, formatterOf, hl]
    | none =>
      cases hc : compile format kv with
      | ok f =>
        obtain ⟨n, cache', h⟩ := alone_calls shw rest ((format, f) :: cache) (outs ++ [f.format shw kv []])
        refine ⟨n + 1 + 1, cache', ?_⟩
        have hs : Gor.step shw cache ⟨(format, kv) :: rest, none, outs⟩ = (⟨(format, kv) :: rest, some f, outs⟩, cache) := by
          simp only [Gor.step, hl, hc]
        rw [alone, hs]
        show alone shw n ⟨rest, none, outs ++ [f.format shw kv []]⟩ ((format, f) :: cache) = _
        rw [h]
        simp [run, sprintf, formatterOf, hl, hc]
      | error b =>
        obtain ⟨n, cache', h⟩ := alone_calls shw rest cache (outs ++ [.error b])
        refine ⟨n + 1, cache', ?_⟩
        have hs : Gor.step shw cache ⟨(format, kv) :: rest, none, outs⟩ = (⟨rest, none, outs ++ [.error b]⟩, cache) := by
          simp only [Gor.step, hl, hc]
        rw [alone, hs, h]
        simp [run, sprintf, formatterOf, hl, hc]

/-! ### Cases -/

/-- Two goroutines format with the same names in another order. -/
def swapped : Nat → List Call
  | 0 => [(asc "{a}", kvOf [(asc "a", .str (asc "1")), (asc "b", .str (asc "2"))])]
  | 1 => [(asc "{a}", kvOf [(asc "b", .str (asc "2")), (asc "a", .str (asc "1"))])]
  | _ => []

/-- C162 fails: with the same names in another order the results depend on the interleaving; each goroutine may print the value of
the other name. -/
theorem order_decides (shw : List Arg → Bytes) :
    ((Run.after shw (fun k => k % 2) swapped 4).gor 0).outs = [.ok (asc "1")] ∧
    ((Run.after shw (fun k => k % 2) swapped 4).gor 1).outs = [.ok (asc "1")] ∧
    ((Run.after shw (fun k => k / 2) swapped 3).gor 1).outs = [.ok (asc "2")] ∧
    ((Run.after shw (fun k => 1 - k / 2) swapped 3).gor 0).outs = [.ok (asc "2")] := ⟨rfl, rfl, rfl, rfl⟩

/-- Two goroutines format with the same names and types, a third one something else. -/
def alike : Nat → List Call
  | 0 => [(asc "{a}", kvOf [(asc "a", .str (asc "1"))]), (asc "x", [])]
  | 1 => [(asc "{a}", kvOf [(asc "a", .str (asc "2"))])]
  | 2 => [(asc "{b}!", kvOf [(asc "b", .other 0 (asc "3"))])]
  | _ => []

example : ((Run.after (fun _ => []) (fun k => k % 3) alike 15).gor 0).outs = [.ok (asc "1"), .ok (asc "x")] ∧
    ((Run.after (fun _ => []) (fun k => k % 3) alike 15).gor 1).outs = [.ok (asc "2")] ∧
    ((Run.after (fun _ => []) (fun k => k % 3) alike 15).gor 2).outs = [.ok (asc "3!")] := ⟨rfl, rfl, rfl⟩

example : Result (fun _ => []) alike 1 0 (asc "{a}", kvOf [(asc "a", .str (asc "2"))]) (.ok (asc "2")) :=
  ⟨rfl, fun k => k % 3, 15, rfl⟩

example : ∀ j, ∀ d ∈ alike j, d.1 = asc "{a}" → shape d.2 = shape (kvOf [(asc "a", .str (asc "2"))]) := by
  intro j d hd
  match j, hd with
  | 0, hd =>
    simp only [alike, List.mem_cons, List.not_mem_nil, or_false] at hd
    rcases hd with rfl | rfl
    · exact fun _ => rfl
    · exact fun h => absurd h (by decide)
  | 1, hd =>
    simp only [alike, List.mem_cons, List.not_mem_nil, or_false] at hd
    subst hd
    exact fun _ => rfl
  | 2, hd =>
    simp only [alike, List.mem_cons, List.not_mem_nil, or_false] at hd
    subst hd
    exact fun h => absurd h (by decide)
  | _ + 3, hd => simp [alike] at hd

end Verif.Msgfmt.Together
