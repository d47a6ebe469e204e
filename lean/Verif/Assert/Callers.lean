import Verif.Basic

/-!
# C127: the frames between a test and a failed assertion

Model of `CallerInfo` and `isTest`, test/testify/assert/assertions.go 81-156.
-/

namespace Verif.Callers

/-! ### Model -/

/-- A frame of the stack, as `runtime.Caller` and `runtime.FuncForPC` give it, test/testify/assert/assertions.go 94-110; `known` tells
whether `FuncForPC` found the function. -/
structure Frame where
  name : Bytes
  file : Bytes
  line : Nat
  known : Bool

/-- `strings.Split` with a separator of one byte, test/testify/assert/assertions.go 121 and 131. -/
def split (sep : UInt8) : Bytes → List Bytes
  | [] => [[]]
  | c :: r =>
    if c = sep then [] :: split sep r
    else match split sep r with
      | [] => [[c]]
      | p :: ps => (c :: p) :: ps

/-- `isTest`, test/testify/assert/assertions.go 147-156; `lower` is `unicode.IsLower` of the first rune of a text. -/
def isTest (lower : Bytes → Bool) (name pre : Bytes) : Bool :=
  if !(pre.isPrefixOf name) then false
  else if name.length = pre.length then true
  else !lower (name.drop pre.length)

/-- What a frame adds to `callers`, test/testify/assert/assertions.go 121-128. -/
def entry (f : Frame) : List (Bytes × Nat) :=
  let parts := split 47 f.file
  let file := parts.getLast?.getD []
  if parts.length > 1 then
    let dir := parts.dropLast.getLast?.getD []
    if (dir ≠ asc "assert" ∧ dir ≠ asc "mock" ∧ dir ≠ asc "require") ∨ file = asc "mock_test.go" then [(file, f.line)] else []
  else []

/-- `CallerInfo`, test/testify/assert/assertions.go 84-141, for the frames of the stack, innermost first.  Simplified: the line is not
printed behind the file. -/
def callerInfo (lower : Bytes → Bool) : List Frame → List (Bytes × Nat)
  | [] => []
  | f :: fs =>
    if f.file = asc "<autogenerated>" then []
    else if !f.known then []
    else if f.name = asc "testing.tRunner" then []
    else
      let name := (split 46 f.name).getLast?.getD []
      if isTest lower name (asc "Test") || isTest lower name (asc "Benchmark") || isTest lower name (asc "Example") then entry f
      else entry f ++ callerInfo lower fs

/-! ### Specification -/

/-- The file of the frame is `base` in a directory `dir`. -/
def In (f : Frame) (dir base : Bytes) : Prop :=
  47 ∉ dir ∧ 47 ∉ base ∧ (f.file = dir ++ 47 :: base ∨ ∃ pre, f.file = pre ++ 47 :: (dir ++ 47 :: base))

/-- The function is named `last` in its package or type. -/
def Named (f : Frame) (last : Bytes) : Prop := 46 ∉ last ∧ (f.name = last ∨ ∃ pre, f.name = pre ++ 46 :: last)

/-- A test, a benchmark or an example: one of these words, not followed by a lower-case letter. -/
def TestName (lower : Bytes → Bool) (n : Bytes) : Prop :=
  ∃ word rest, (word = asc "Test" ∨ word = asc "Benchmark" ∨ word = asc "Example") ∧ n = word ++ rest ∧ (rest = [] ∨ lower rest = false)

/-- A directory whose frames are not shown. -/
def Hidden (dir : Bytes) : Prop := dir = asc "assert" ∨ dir = asc "mock" ∨ dir = asc "require"

/-- A frame like any other: a known function, not of the runner. -/
def Usual (f : Frame) : Prop := f.known = true ∧ f.file ≠ asc "<autogenerated>" ∧ f.name ≠ asc "testing.tRunner"

/-- What is to be shown for frames: the files and lines of those that are not hidden. -/
inductive Shown : List Frame → List (Bytes × Nat) → Prop
  | nil : Shown [] []
  | show (f : Frame) (fs : List Frame) (l : List (Bytes × Nat)) (dir base : Bytes) (h : In f dir base)
      (hd : ¬ Hidden dir ∨ base = asc "mock_test.go") (hs : Shown fs l) : Shown (f :: fs) ((base, f.line) :: l)
  | hide (f : Frame) (fs : List Frame) (l : List (Bytes × Nat)) (dir base : Bytes) (h : In f dir base)
      (hd : Hidden dir ∧ base ≠ asc "mock_test.go") (hs : Shown fs l) : Shown (f :: fs) l

/-! ### Proofs -/

theorem split_none (sep : UInt8) (a : Bytes) (h : sep ∉ a) : split sep a = [a] := by
  induction a with
  | nil => rfl
  | cons c r ih =>
    rw [split, if_neg (fun hc => h (by rw [hc]; exact List.mem_cons_self)), ih (fun hr => h (List.mem_cons_of_mem _ hr))]

theorem split_ne (sep : UInt8) (a : Bytes) : split sep a ≠ [] := by
  cases a with
  | nil => simp [split]
  | cons c r =>
    rw [split]
    split
    · simp
    · split <;> simp

theorem split_append (sep : UInt8) (a b : Bytes) : split sep (a ++ sep :: b) = split sep a ++ split sep b := by
  induction a with
  | nil => simp [split]
  | cons c r ih =>
    rw [List.cons_append, split, split, ih]
    by_cases hc : c = sep
    · rw [if_pos hc, if_pos hc]; rfl
    · rw [if_neg hc, if_neg hc]
      cases hs : split sep r with
      | nil => exact absurd hs (split_ne sep r)
      | cons p ps => rfl

theorem split_file (f : Frame) (dir base : Bytes) (h : In f dir base) :
    (split 47 f.file).getLast?.getD [] = base ∧ (split 47 f.file).length > 1 ∧ (split 47 f.file).dropLast.getLast?.getD [] = dir := by
  obtain ⟨h1, h2, h3⟩ := h
  have hs : ∃ l, split 47 f.file = l ++ [dir, base] := by
    rcases h3 with h3 | ⟨pre, h3⟩
    · exact ⟨[], by rw [h3, split_append, split_none 47 dir h1, split_none 47 base h2]; rfl⟩
    · exact ⟨split 47 pre, by rw [h3, split_append, split_append, split_none 47 dir h1, split_none 47 base h2]; rfl⟩
  obtain ⟨l, hs⟩ := hs
  rw [hs]
  refine ⟨by simp, by simp, ?_⟩
  rw [show l ++ [dir, base] = (l ++ [dir]) ++ [base] by simp, List.dropLast_concat]
  simp

theorem entry_shown (f : Frame) (dir base : Bytes) (h : In f dir base) :
    (¬ Hidden dir ∨ base = asc "mock_test.go" → entry f = [(base, f.line)]) ∧
    (Hidden dir ∧ base ≠ asc "mock_test.go" → entry f = []) := by
  obtain ⟨h1, h2, h3⟩ := split_file f dir base h
  unfold entry
  simp only [h1, h2, h3, if_true]
  unfold Hidden
  constructor
  · intro hd
    rw [if_pos]
    rcases hd with hd | hd
    · exact Or.inl ⟨fun hx => hd (Or.inl hx), fun hx => hd (Or.inr (Or.inl hx)), fun hx => hd (Or.inr (Or.inr hx))⟩
    · exact Or.inr hd
  · rintro ⟨hd, hb⟩
    rw [if_neg]
    rintro (⟨g1, g2, g3⟩ | g)
    · rcases hd with hd | hd | hd
      · exact g1 hd
      · exact g2 hd
      · exact g3 hd
    · exact hb g

theorem isTest_iff (lower : Bytes → Bool) (name pre : Bytes) : isTest lower name pre = true ↔ ∃ rest, name = pre ++ rest ∧ (rest = [] ∨ lower rest = false) := by
  unfold isTest
  by_cases hp : pre.isPrefixOf name = true
  · obtain ⟨rest, rfl⟩ := List.isPrefixOf_iff_prefix.mp hp
    simp only [hp, Bool.not_true, Bool.false_eq_true, if_false, List.length_append, List.drop_left]
    constructor
    · intro h
      refine ⟨rest, rfl, ?_⟩
      by_cases hr : rest = []
      · exact Or.inl hr
      · have : ¬ (pre.length + rest.length = pre.length) := by
          have := List.length_pos_iff.mpr hr
          omega
        rw [if_neg this] at h
        exact Or.inr (by simpa using h)
    · rintro ⟨rest', hr, h⟩
      have : rest = rest' := List.append_cancel_left hr
      subst this
      rcases h with rfl | h
      · simp
      · by_cases hr : pre.length + rest.length = pre.length
        · rw [if_pos hr]
        · rw [if_neg hr, h]; rfl
  · have hp' : pre.isPrefixOf name = false := Bool.eq_false_iff.mpr hp
    simp only [hp', Bool.not_false, if_true, Bool.false_eq_true, false_iff]
    rintro ⟨rest, rfl, _⟩
    exact hp (List.isPrefixOf_iff_prefix.mpr ⟨rest, rfl⟩)

theorem last_name (f : Frame) (n : Bytes) (h : Named f n) : (split 46 f.name).getLast?.getD [] = n := by
  obtain ⟨h1, h2 | ⟨pre, h2⟩⟩ := h
  · rw [h2, split_none 46 n h1]; rfl
  · rw [h2, split_append, split_none 46 n h1]; simp

theorem tests_iff (lower : Bytes → Bool) (n : Bytes) :
    (isTest lower n (asc "Test") || isTest lower n (asc "Benchmark") || isTest lower n (asc "Example")) = true ↔ TestName lower n := by
  simp only [Bool.or_eq_true, isTest_iff]
  constructor
  · rintro ((⟨r, h⟩ | ⟨r, h⟩) | ⟨r, h⟩)
    · exact ⟨_, r, Or.inl rfl, h⟩
    · exact ⟨_, r, Or.inr (Or.inl rfl), h⟩
    · exact ⟨_, r, Or.inr (Or.inr rfl), h⟩
  · rintro ⟨w, r, rfl | rfl | rfl, h⟩
    · exact Or.inl (Or.inl ⟨r, h⟩)
    · exact Or.inl (Or.inr ⟨r, h⟩)
    · exact Or.inr ⟨r, h⟩

/-- One frame that does not end the walk. -/
theorem step (lower : Bytes → Bool) (f : Frame) (fs : List Frame) (n : Bytes) (hu : Usual f) (hn : Named f n) (ht : ¬ TestName lower n) :
    callerInfo lower (f :: fs) = entry f ++ callerInfo lower fs := by
  obtain ⟨h1, h2, h3⟩ := hu
  rw [callerInfo, if_neg h2, h1, if_neg (by simp), if_neg h3, last_name f n hn]
  simp only
  rw [if_neg (fun h => ht ((tests_iff lower n).mp h))]

theorem stop (lower : Bytes → Bool) (f : Frame) (fs : List Frame) (n : Bytes) (hu : Usual f) (hn : Named f n) (ht : TestName lower n) :
    callerInfo lower (f :: fs) = entry f := by
  obtain ⟨h1, h2, h3⟩ := hu
  rw [callerInfo, if_neg h2, h1, if_neg (by simp), if_neg h3, last_name f n hn]
  simp only
  rw [if_pos ((tests_iff lower n).mpr ht)]

theorem shown_append {fs : List Frame} {l : List (Bytes × Nat)} (lower : Bytes → Bool) (hs : Shown fs l)
    (hf : ∀ f ∈ fs, Usual f ∧ ∃ n, Named f n ∧ ¬ TestName lower n) (rest : List Frame) :
    callerInfo lower (fs ++ rest) = l ++ callerInfo lower rest := by
  induction hs with
  | nil => rfl
  | «show» f fs l dir base h hd _ ih =>
    obtain ⟨hu, n, hn, ht⟩ := hf f List.mem_cons_self
    rw [List.cons_append, step lower f _ n hu hn ht, (entry_shown f dir base h).1 hd, ih (fun g hg => hf g (List.mem_cons_of_mem _ hg))]
    rfl
  | hide f fs l dir base h hd _ ih =>
    obtain ⟨hu, n, hn, ht⟩ := hf f List.mem_cons_self
    rw [List.cons_append, step lower f _ n hu hn ht, (entry_shown f dir base h).2 hd, ih (fun g hg => hf g (List.mem_cons_of_mem _ hg))]
    rfl

/-- C127, part: if no function on the way is named like a test, the frames are those up to the test, in order, without those in hidden
directories.  Missing: helpers named like tests (`helper_cuts`), and user's packages that are hidden (`user_package_hidden`). -/
theorem callers_partial (lower : Bytes → Bool) (fs rest : List Frame) (t : Frame) (n : Bytes) (l : List (Bytes × Nat)) (hs : Shown (fs ++ [t]) l)
    (hf : ∀ f ∈ fs, Usual f ∧ ∃ n, Named f n ∧ ¬ TestName lower n) (hu : Usual t) (hn : Named t n) (ht : TestName lower n) :
    callerInfo lower (fs ++ t :: rest) = l := by
  have cut : ∀ {gs : List Frame} {l : List (Bytes × Nat)}, Shown gs l → ∀ fs, gs = fs ++ [t] → ∃ l', Shown fs l' ∧ l = l' ++ entry t := by
    intro gs l hs
    induction hs with
    | nil => intro fs h; simp at h
    | «show» f gs l dir base h hd hs ih =>
      intro fs hfs
      cases fs with
      | nil =>
        cases hfs
        cases hs
        exact ⟨[], .nil, by rw [(entry_shown t dir base h).1 hd]; rfl⟩
      | cons g fs =>
        cases hfs
        obtain ⟨l', h1, h2⟩ := ih fs rfl
        exact ⟨(base, f.line) :: l', .show f fs l' dir base h hd h1, by rw [h2]; rfl⟩
    | hide f gs l dir base h hd hs ih =>
      intro fs hfs
      cases fs with
      | nil =>
        cases hfs
        cases hs
        exact ⟨[], .nil, by rw [(entry_shown t dir base h).2 hd]; rfl⟩
      | cons g fs =>
        cases hfs
        obtain ⟨l', h1, h2⟩ := ih fs rfl
        exact ⟨l', .hide f fs l' dir base h hd h1, h2⟩
  obtain ⟨l', h1, h2⟩ := cut hs fs rfl
  rw [shown_append lower h1 hf, stop lower t rest n hu hn ht, h2]

/-- C127: the frames of a subtest end where the runner calls it. -/
theorem subtest (lower : Bytes → Bool) (fs rest : List Frame) (t : Frame) (l : List (Bytes × Nat)) (hs : Shown fs l)
    (hf : ∀ f ∈ fs, Usual f ∧ ∃ n, Named f n ∧ ¬ TestName lower n) (ht : t.name = asc "testing.tRunner") :
    callerInfo lower (fs ++ t :: rest) = l := by
  rw [shown_append lower hs hf]
  have : callerInfo lower (t :: rest) = [] := by
    rw [callerInfo, if_pos ht]
    split
    · rfl
    · split <;> rfl
  rw [this, List.append_nil]

/-! ### Disagreements and a concrete case -/

/-- Lower-case letters of ASCII, for the cases below. -/
def asciiLower (s : Bytes) : Bool := match s with | c :: _ => 97 ≤ c && c ≤ 122 | [] => false

/-- Frames of an assertion called by a helper called by a test. -/
def sampleStack (helper file : Bytes) : List Frame :=
  [⟨asc "github.com/v2pro/plz/test/testify/assert.CallerInfo", asc "/go/plz/test/testify/assert/assertions.go", 94, true⟩,
   ⟨helper, file, 7, true⟩,
   ⟨asc "example.com/app.TestOrders", asc "/src/app/orders_test.go", 12, true⟩,
   ⟨asc "testing.tRunner", asc "/go/testing.go", 777, true⟩]

/-- C127 fails: a helper whose name starts with Test ends the walk, so the test itself is not shown. -/
theorem helper_cuts : callerInfo asciiLower (sampleStack (asc "example.com/app.TestDataMatches") (asc "/src/app/data.go")) = [(asc "data.go", 7)] := by
  decide +kernel

/-- C127 fails: frames of a user's package named mock, require or assert are not shown. -/
theorem user_package_hidden : callerInfo asciiLower (sampleStack (asc "example.com/app/mock.check") (asc "/src/app/mock/check.go")) =
    [(asc "orders_test.go", 12)] := by
  decide +kernel

example : callerInfo asciiLower (sampleStack (asc "example.com/app.checkOrder") (asc "/src/app/data.go")) =
    [(asc "data.go", 7), (asc "orders_test.go", 12)] := by
  decide +kernel

example : In ⟨asc "example.com/app.checkOrder", asc "/src/app/data.go", 7, true⟩ (asc "app") (asc "data.go") ∧
    Named ⟨asc "example.com/app.checkOrder", asc "/src/app/data.go", 7, true⟩ (asc "checkOrder") ∧
    Usual ⟨asc "example.com/app.checkOrder", asc "/src/app/data.go", 7, true⟩ ∧ ¬ TestName asciiLower (asc "checkOrder") ∧
    TestName asciiLower (asc "TestOrders") := by
  refine ⟨⟨by decide, by decide, Or.inr ⟨asc "/src", by decide⟩⟩, ⟨by decide, Or.inr ⟨asc "example.com/app", by decide⟩⟩,
    ⟨rfl, by decide, by decide⟩, ?_, ⟨asc "Test", asc "Orders", Or.inl rfl, by decide, Or.inr (by decide)⟩⟩
  rw [← tests_iff]
  decide

end Verif.Callers
