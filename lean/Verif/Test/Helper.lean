import Verif.Basic

/-!
# C140: the line a failure is reported at

Model of test/go_above_19.go and of as much of package testing as it changes: the set of helper functions and the line shown with a
message (`frameSkip` of Go 1.9).  Functions are named by strings, as in package testing; inlining is left out.
-/

namespace Verif.Test.Helper

/-! ### Model -/

/-- A frame of the stack: a function, by its name, and the line it has come to. Models `runtime.Frame`, test/go_above_19.go 42-43. -/
structure Frame where
  fn : String
  line : Nat
  deriving DecidableEq

/-- The part of a `testing.T` in question: `helpers`, reached by reflection at test/go_above_19.go 28; the lock at 25-27 is left out,
since it is held while the map is written. -/
structure T where
  helpers : List String

/-- `runtime.Callers(skip, …)` and the first frame of the result, test/go_above_19.go 37-43: the function at that place of the stack,
which has `runtime.Callers` itself first; `none` if there are not as many. -/
def frameAt (stack : List Frame) (skip : Nat) : Option Frame := stack[skip]?

/-- `callerName`, test/go_above_19.go 34-44, with the stack from its caller on; `none` where it panics. -/
def callerName (skip : Nat) (stack : List Frame) : Option String :=
  (frameAt (⟨"runtime.Callers", 0⟩ :: ⟨"callerName", 0⟩ :: stack) (skip + 2)).map Frame.fn

/-- `t.Helper` of package testing, called at test/go_above_19.go 24, with the stack from its caller on. -/
def tHelper (t : T) (stack : List Frame) : Option T :=
  (callerName 1 (⟨"testing.(*common).Helper", 0⟩ :: stack)).map fun f => ⟨f :: t.helpers⟩

/-- `Helper`, test/go_above_19.go 22-30, with the stack from its caller on; `current` is what `CurrentT` gives, test/case.go 38-44.
`none` where it panics. -/
def helper (current : Option T) (stack : List Frame) : Option T := do
  let t ← current
  let t ← tHelper t (⟨"test.Helper", 0⟩ :: stack)
  let f ← callerName 1 (⟨"test.Helper", 0⟩ :: stack)
  some ⟨f :: t.helpers⟩

/-- The loop of `frameSkip` in package testing: the first frame that is not in a helper, but not beyond the test function. Models what
test/go_above_19.go 29 is for. -/
def search (t : T) (first : Option Frame) : Option Frame → List Frame → Option Frame
  | _, [] => first
  | prev, f :: rest =>
    if f.fn = "testing.tRunner" then prev
    else if f.fn ∈ t.helpers then search t first (some f) rest
    else some f

/-- The frame shown with a message logged with `t.Error` and the like, from the caller of `t.Error` on: the first 50 frames are looked
at. Models what test/go_above_19.go 29 is for. -/
def site (t : T) (stack : List Frame) : Option Frame := search t stack.head? none (stack.take 50)

/-! ### Specification -/

/-- The helpers there are after the calls of `test.Helper` with these callers, in a test. -/
def AfterCalls : T → List (List Frame) → T → Prop
  | t, [], t' => t' = t
  | t, s :: rest, t' => ∃ u, helper (some t) s = some u ∧ AfterCalls u rest t'

/-- Functions that have called `test.Helper`, by the stacks of the calls. -/
def Called (calls : List (List Frame)) (fn : String) : Prop := ∃ s ∈ calls, ∃ line rest, s = ⟨fn, line⟩ :: rest

/-! ### Proofs -/

theorem callerName_one (a b : Frame) (rest : List Frame) : callerName 1 (a :: b :: rest) = some b.fn := rfl

theorem helper_marks (t : T) (f : Frame) (rest : List Frame) :
    helper (some t) (f :: rest) = some ⟨f.fn :: "test.Helper" :: t.helpers⟩ := rfl

theorem helpers_after (t t' : T) (calls : List (List Frame)) (h : AfterCalls t calls t') (fn : String) :
    fn ∈ t'.helpers ↔ fn ∈ t.helpers ∨ Called calls fn ∨ (fn = "test.Helper" ∧ calls ≠ []) := by
  induction calls generalizing t with
  | nil =>
    subst h
    simp [Called]
  | cons s rest ih =>
    obtain ⟨u, hu, h⟩ := h
    cases s with
    | nil => cases hu
    | cons f s =>
      rw [helper_marks] at hu
      injection hu with hu
      subst hu
      rw [ih _ h]
      constructor
      · rintro (h | ⟨s', hs', l, r, he⟩ | ⟨h, _⟩)
        · simp only [List.mem_cons] at h
          rcases h with rfl | rfl | h
          · exact .inr (.inl ⟨_, List.mem_cons_self, f.line, s, rfl⟩)
          · exact .inr (.inr ⟨rfl, by simp⟩)
          · exact .inl h
        · exact .inr (.inl ⟨s', List.mem_cons_of_mem _ hs', l, r, he⟩)
        · exact .inr (.inr ⟨h, by simp⟩)
      · rintro (h | ⟨s', hs', l, r, he⟩ | ⟨h, _⟩)
        · exact .inl (by simp [h])
        · rcases List.mem_cons.mp hs' with rfl | hs'
          · injection he with he _
            subst he
            exact .inl (by simp)
          · exact .inr (.inl ⟨s', hs', l, r, he⟩)
        · exact .inl (by simp [h])

theorem search_first (t : T) (first : Option Frame) : ∀ (pre : List Frame) (prev : Option Frame) (g : Frame) (post : List Frame),
    (∀ f ∈ pre, f.fn ∈ t.helpers ∧ f.fn ≠ "testing.tRunner") → g.fn ∉ t.helpers → g.fn ≠ "testing.tRunner" →
    search t first prev (pre ++ g :: post) = some g := by
  intro pre
  induction pre with
  | nil =>
    intro prev g post _ hg hr
    simp only [List.nil_append, search, if_neg hr, if_neg hg]
  | cons f pre ih =>
    intro prev g post hp hg hr
    have hf := hp f List.mem_cons_self
    simp only [List.cons_append, search, if_neg hf.2, if_pos hf.1]
    exact ih _ _ _ (fun f hf => hp f (List.mem_cons_of_mem _ hf)) hg hr

/-- C140 (partly): in a test that starts without helpers, after any calls of `test.Helper`, a message is shown at the first function of
the stack that has not called it, whatever the functions below it are, up to fifty of them.  Missing: functions made inside a
helper count as functions of their own, see `panic_line`. -/
theorem site_partial (calls : List (List Frame)) (t : T) (h : AfterCalls ⟨[]⟩ calls t) (pre post : List Frame) (g : Frame)
    (hp : ∀ f ∈ pre, Called calls f.fn ∧ f.fn ≠ "testing.tRunner") (hl : pre.length < 50) (hg : ¬ Called calls g.fn)
    (hr : g.fn ≠ "testing.tRunner") (hh : g.fn ≠ "test.Helper") :
    site t (pre ++ g :: post) = some g := by
  unfold site
  have e : (pre ++ g :: post).take 50 = pre ++ g :: post.take (50 - pre.length - 1) := by
    rw [List.take_append, List.take_of_length_le (by omega)]
    congr 1
    obtain ⟨n, hn⟩ : ∃ n, 50 - pre.length = n + 1 := ⟨50 - pre.length - 1, by omega⟩
    rw [hn, List.take_succ_cons]
    rfl
  rw [e]
  refine search_first t _ pre none g _ (fun f hf => ⟨?_, (hp f hf).2⟩) ?_ hr
  · exact (helpers_after _ _ _ h _).mpr (.inr (.inl (hp f hf).1))
  · intro hm
    rcases (helpers_after _ _ _ h _).mp hm with h | h | h
    · cases h
    · exact hg h
    · exact hh h.1

/-- The test function itself is the last resort: a message of a helper called by the runner is shown in it. -/
theorem site_in_test (calls : List (List Frame)) (t : T) (h : AfterCalls ⟨[]⟩ calls t) (f : Frame) (line : Nat) (post : List Frame)
    (hf : Called calls f.fn) (hr : f.fn ≠ "testing.tRunner") : site t (f :: ⟨"testing.tRunner", line⟩ :: post) = some f := by
  have hm : f.fn ∈ t.helpers := (helpers_after _ _ _ h _).mpr (.inr (.inl hf))
  simp only [site, List.take_succ_cons, search, if_neg hr, if_pos hm, if_true]

theorem search_all (t : T) (first : Option Frame) : ∀ (l : List Frame) (prev : Option Frame),
    (∀ f ∈ l, f.fn ∈ t.helpers ∧ f.fn ≠ "testing.tRunner") → search t first prev l = first
  | [], _, _ => rfl
  | f :: l, prev, h => by
    have hf := h f List.mem_cons_self
    rw [search, if_neg hf.2, if_pos hf.1]
    exact search_all t first l _ fun g hg => h g (List.mem_cons_of_mem _ hg)

/-- Below fifty helpers the message is shown where it was made. -/
theorem site_deep (calls : List (List Frame)) (t : T) (h : AfterCalls ⟨[]⟩ calls t) (f : Frame) (pre post : List Frame)
    (hl : 49 ≤ pre.length) (hp : ∀ g ∈ f :: pre, Called calls g.fn ∧ g.fn ≠ "testing.tRunner") :
    site t (f :: pre ++ post) = some f := by
  unfold site
  have e : (f :: pre ++ post).take 50 = (f :: pre).take 50 := by
    rw [List.take_append_of_le_length (by simp only [List.length_cons]; omega)]
  rw [e]
  exact search_all t _ _ _ fun g hg => ⟨(helpers_after _ _ _ h _).mpr (.inr (.inl (hp g (List.mem_of_mem_take hg)).1)),
    (hp g (List.mem_of_mem_take hg)).2⟩

/-- Outside a case, `test.Helper` panics. -/
theorem helper_outside (stack : List Frame) : helper none stack = none := rfl

/-! ### What is not so -/

/-- The full statement of C140 is false: the failure of a function that did not panic is reported by `should.Panic` and `must.Panic` from
a function inside (test/should/panic.go 17-23, test/must/panic.go 17-23), which is not a helper; it is shown at the line of the
package, whatever the line of the test. -/
theorem panic_line (t : T) (pkg : String) (hp : pkg = "should" ∨ pkg = "must") (n : Nat) (rest : List Frame)
    (h : helper (some ⟨[]⟩) (⟨pkg ++ ".Panic", 11⟩ :: ⟨"TestX", n⟩ :: rest) = some t) :
    site t (⟨pkg ++ ".Panic.func1", 22⟩ :: ⟨pkg ++ ".Panic", 25⟩ :: ⟨"TestX", n⟩ :: rest) =
      some ⟨pkg ++ ".Panic.func1", 22⟩ := by
  rw [helper_marks] at h
  injection h with h
  subst h
  rcases hp with rfl | rfl
  · rfl
  · rfl

/-! ### Cases -/

/-- `should.Equal` in a helper of the user's in a test: the message is shown at the line of the test. -/
example : ∃ t, AfterCalls ⟨[]⟩ [[⟨"checkAll", 3⟩, ⟨"TestX", 40⟩, ⟨"testing.tRunner", 9⟩],
      [⟨"should.Equal", 15⟩, ⟨"checkAll", 5⟩, ⟨"TestX", 40⟩, ⟨"testing.tRunner", 9⟩]] t ∧
    site t [⟨"should.Equal", 21⟩, ⟨"checkAll", 5⟩, ⟨"TestX", 40⟩, ⟨"testing.tRunner", 9⟩] = some ⟨"TestX", 40⟩ := by
  refine ⟨_, ⟨_, rfl, _, rfl, rfl⟩, ?_⟩
  decide

/-- A helper that calls itself sixty times before it fails, which is shown at the innermost call. -/
example : ∃ t, AfterCalls ⟨[]⟩ [[⟨"walk", 3⟩, ⟨"TestX", 40⟩, ⟨"testing.tRunner", 9⟩]] t ∧
    site t (⟨"walk", 8⟩ :: List.replicate 59 ⟨"walk", 6⟩ ++ [⟨"TestX", 40⟩, ⟨"testing.tRunner", 9⟩]) = some ⟨"walk", 8⟩ := by
  refine ⟨_, ⟨_, rfl, rfl⟩, ?_⟩
  apply site_deep [[⟨"walk", 3⟩, ⟨"TestX", 40⟩, ⟨"testing.tRunner", 9⟩]] _ ⟨_, rfl, rfl⟩
  · simp
  · intro g hg
    have : g.fn = "walk" := by
      rcases List.mem_cons.mp hg with rfl | hg
      · rfl
      · rw [List.eq_of_mem_replicate hg]
    rw [this]
    exact ⟨⟨_, List.mem_cons_self, 3, _, rfl⟩, by decide⟩

end Verif.Test.Helper
