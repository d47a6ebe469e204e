import Verif.Difflib.Unified

/-!
# C86: context diffs

Model of `formatRangeContext` and `WriteContextDiff` in test/go-difflib/difflib/difflib.go.
-/

namespace Verif.Difflib

/-! ### Model -/

/-- `formatRangeContext`, difflib.go 636-647. -/
def formatRangeContext (start stop : Nat) : Bytes :=
  let beginning := start + 1
  let length := stop - start
  let beginning := if length = 0 then beginning - 1 else beginning
  if length ≤ 1 then decimal beginning
  else decimal beginning ++ asc "," ++ decimal (beginning + length - 1)

/-- `prefix`, difflib.go 683-688. -/
def contextMark : Tag → Bytes
  | .i => asc "+ "
  | .d => asc "- "
  | .r => asc "! "
  | .e => asc "  "

/-- The two header lines, difflib.go 693-705. -/
def UnifiedDiff.contextHeader (d : UnifiedDiff) : Bytes :=
  let fromDate := if 0 < d.FromDate.length then asc "\t" ++ d.FromDate else []
  let toDate := if 0 < d.ToDate.length then asc "\t" ++ d.ToDate else []
  asc "*** " ++ d.FromFile ++ fromDate ++ d.eol ++ (asc "--- " ++ d.ToFile ++ toDate ++ d.eol)

/-- The old lines of a group before formatting, difflib.go 712-724. -/
def oldSection (A : List Bytes) (g : List OpCode) : List Bytes :=
  if g.any fun c => c.Tag = .r ∨ c.Tag = .d then
    g.flatMap fun cc => if cc.Tag = .i then [] else (slice A cc.I1 cc.I2).map fun line => contextMark cc.Tag ++ line
  else []

/-- The new lines of a group before formatting, difflib.go 728-740. -/
def newSection (B : List Bytes) (g : List OpCode) : List Bytes :=
  if g.any fun c => c.Tag = .r ∨ c.Tag = .i then
    g.flatMap fun cc => if cc.Tag = .d then [] else (slice B cc.J1 cc.J2).map fun line => contextMark cc.Tag ++ line
  else []

/-- The range line of the old lines, difflib.go 707-711 (groups are never empty). -/
def oldRange (eol : Bytes) (g : List OpCode) : Bytes :=
  asc "*** " ++ formatRangeContext ((g.head?.map OpCode.I1).getD 0) ((g.getLast?.map OpCode.I2).getD 0) ++ asc " ****" ++ eol

/-- The range line of the new lines, difflib.go 726-727. -/
def newRange (eol : Bytes) (g : List OpCode) : Bytes :=
  asc "--- " ++ formatRangeContext ((g.head?.map OpCode.J1).getD 0) ((g.getLast?.map OpCode.J2).getD 0) ++ asc " ----" ++ eol

/-- One group, difflib.go 707-740.  The line of stars and all text lines are formats (708, 719, 735). -/
def contextGroup (A B : List Bytes) (eol : Bytes) (g : List OpCode) : Option Bytes :=
  concatAll (sprintf0 (asc "***************" ++ eol) :: some (oldRange eol g) ::
    ((oldSection A g).map sprintf0 ++ some (newRange eol g) :: (newSection B g).map sprintf0))

/-- `WriteContextDiff`, difflib.go 668-743, to a writer that does not fail
(`GetContextDiffString`, 746-750).  `none` if a line is a format outside the model. -/
def contextDiff (d : UnifiedDiff) : Option Bytes :=
  (opCodes (newMatcher d.A d.B true none)).bind fun codes =>
    match (groupedOpCodes d.Context codes).2 with
    | [] => some []
    | gs => concatAll (some d.contextHeader :: gs.map (contextGroup d.A d.B d.eol))

/-! ### Specification: a reader of context diffs -/

/-- A hunk as it is printed: the first and, if there is one, the last line number of both
sides, and the lines shown for both sides with their marks. -/
structure ContextHunk where
  oldFirst : Nat
  oldLast : Option Nat
  old : List Bytes
  newFirst : Nat
  newLast : Option Nat
  new : List Bytes

/-- A line with a mark: two spaces, or minus, plus or exclamation mark and a space. -/
def isMarked (l : Bytes) : Bool :=
  l.take 2 = asc "  " || l.take 2 = asc "- " || l.take 2 = asc "+ " || l.take 2 = asc "! "

/-- One or two numbers. -/
def readNums (s : Bytes) : Option (Nat × Option Nat × Bytes) :=
  (readNum s).bind fun (first, s) =>
    match s with
    | 44 :: s => (readNum s).map fun (last, s) => (first, some last, s)
    | _ => some (first, none, s)

/-- A range line between two fixed texts. -/
def readNumsLine (pre post l : Bytes) : Option (Nat × Option Nat) :=
  (readText pre l).bind fun s => (readNums s).bind fun (first, last, s) =>
    if s = post then some (first, last) else none

/-- The next hunk. -/
def readHunk : List Bytes → Option (ContextHunk × List Bytes)
  | l1 :: l2 :: ls =>
    if l1 = asc "***************\n" then
      (readNumsLine (asc "*** ") (asc " ****\n") l2).bind fun (oldFirst, oldLast) =>
        match ls.dropWhile isMarked with
        | l3 :: rest =>
          (readNumsLine (asc "--- ") (asc " ----\n") l3).map fun (newFirst, newLast) =>
            (⟨oldFirst, oldLast, ls.takeWhile isMarked, newFirst, newLast, rest.takeWhile isMarked⟩, rest.dropWhile isMarked)
        | [] => none
    else none
  | _ => none

/-- The lines with a mark, without it. -/
def marked (m : Bytes) (ls : List Bytes) : List Bytes := (ls.filter fun l => l.take 2 = m).map (·.drop 2)

/-- The lines of one side: those shown for it or, if none are, the unchanged ones of the other
side. -/
def sideLines (own other : List Bytes) : List Bytes :=
  if own = [] then marked (asc "  ") other else own.map (·.drop 2)

/-- The number of lines before a range of `n` lines: an empty range names the line before it, a
range of one line that line, others their first and last line. -/
def rangeStart (first : Nat) (last : Option Nat) (n : Nat) : Option Nat :=
  if n = 0 then if last = none then some first else none
  else if n = 1 then if last = none ∧ 0 < first then some (first - 1) else none
  else if last = some (first + n - 1) ∧ 0 < first then some (first - 1) else none

/-- Marks make sense: no added lines on the old side, no removed ones on the new side, changed
lines on both sides or none, something changed, and if both sides are shown the same
unchanged lines. -/
def marksFit (old new : List Bytes) : Bool :=
  old.all (fun l => l.take 2 ≠ asc "+ ") && new.all (fun l => l.take 2 ≠ asc "- ") &&
    (old.any (fun l => l.take 2 = asc "! ") == new.any (fun l => l.take 2 = asc "! ")) &&
    (old ++ new).any (fun l => l.take 2 ≠ asc "  ") &&
    (old.isEmpty || new.isEmpty || marked (asc "  ") old == marked (asc "  ") new) &&
    (old.isEmpty || old.any fun l => l.take 2 ≠ asc "  ") && (new.isEmpty || new.any fun l => l.take 2 ≠ asc "  ")

/-- Applies one hunk to `A`: `i` lines have been read, `out` written.  Everything is checked. -/
def applyHunk (A : List Bytes) (i : Nat) (out : List Bytes) (h : ContextHunk) : Option (Nat × List Bytes) :=
  let old := sideLines h.old h.new
  let new := sideLines h.new h.old
  if marksFit h.old h.new = true then
    (rangeStart h.oldFirst h.oldLast old.length).bind fun i1 =>
      (rangeStart h.newFirst h.newLast new.length).bind fun j1 =>
        if i ≤ i1 ∧ slice A i1 (i1 + old.length) = old ∧ (out ++ slice A i i1).length = j1 then
          some (i1 + old.length, out ++ slice A i i1 ++ new)
        else none
  else none

/-- Applies hunks. -/
def patchContextHunks (A : List Bytes) : Nat → List Bytes → Nat → List Bytes → Option (List Bytes)
  | _, [], i, out => some (out ++ A.drop i)
  | 0, _ :: _, _, _ => none
  | fuel + 1, l :: ls, i, out =>
    (readHunk (l :: ls)).bind fun (h, rest) => (applyHunk A i out h).bind fun (i, out) => patchContextHunks A fuel rest i out

/-- Applies a context diff to the lines `A`; an empty diff changes nothing. -/
def patchContext (A : List Bytes) (text : Bytes) : Option (List Bytes) :=
  match linesOf text with
  | [] => some A
  | h1 :: h2 :: ls =>
    if h1.take 4 = asc "*** " ∧ h2.take 4 = asc "--- " then patchContextHunks A ls.length ls 0 [] else none
  | _ => none

/-! ### Range lines -/

theorem readNums_format (i k : Nat) (s : Bytes) :
    readNums (formatRangeContext i k ++ 32 :: s) =
      some (if k - i = 0 then i else i + 1, if k - i ≤ 1 then none else some k, 32 :: s) := by
  have hsp : NoDigit (32 :: s) := by
    intro c hc
    simp only [List.head?_cons, Option.some.injEq] at hc
    subst hc
    decide
  unfold formatRangeContext readNums
  by_cases h1 : k - i ≤ 1
  · simp only [if_pos h1]
    rw [readNum_decimal _ _ hsp]
    simp
  · have h0 : k - i ≠ 0 := by omega
    simp only [if_neg h1, if_neg h0]
    have hcomma : ∀ x, NoDigit (asc "," ++ decimal x ++ 32 :: s) := by
      intro x c hc
      have : c = 44 := by
        have e : (asc "," ++ decimal x ++ 32 :: s).head? = some 44 := rfl
        rw [e] at hc
        injection hc with hc
        exact hc.symm
      subst this
      decide
    rw [show ∀ x y : Bytes, x ++ asc "," ++ y ++ 32 :: s = x ++ (asc "," ++ y ++ 32 :: s) by
      intro x y; simp, readNum_decimal _ _ (hcomma _)]
    rw [show ∀ y : Bytes, asc "," ++ y ++ 32 :: s = 44 :: (y ++ 32 :: s) from fun _ => rfl]
    simp only [Option.bind_some]
    rw [readNum_decimal _ _ hsp]
    simp only [Option.map_some]
    rw [show i + 1 + (k - i) - 1 = k by omega]

theorem readNumsLine_format (i k : Nat) (pre post : Bytes) :
    readNumsLine pre (32 :: post) (pre ++ formatRangeContext i k ++ 32 :: post) =
      some (if k - i = 0 then i else i + 1, if k - i ≤ 1 then none else some k) := by
  unfold readNumsLine
  rw [List.append_assoc, readText_append]
  simp only [Option.bind_some]
  rw [readNums_format]
  simp

theorem rangeStart_format (i k : Nat) :
    rangeStart (if k - i = 0 then i else i + 1) (if k - i ≤ 1 then none else some k) (k - i) = some i := by
  unfold rangeStart
  by_cases h0 : k - i = 0
  · simp [h0]
  · by_cases h1 : k - i = 1
    · simp [h1]
    · rw [if_neg h0, if_neg h1, if_neg h0, if_neg (by omega : ¬k - i ≤ 1), if_pos ⟨by congr 1; omega, by omega⟩]
      rfl

/-! ### Sections -/

theorem mark_take (t : Tag) (l : Bytes) : (contextMark t ++ l).take 2 = contextMark t := by
  cases t <;> rfl

theorem mark_drop (t : Tag) (l : Bytes) : (contextMark t ++ l).drop 2 = l := by
  cases t <;> rfl

theorem mark_inj (s t : Tag) : contextMark s = contextMark t ↔ s = t := by
  cases s <;> cases t <;> decide

theorem mark_isMarked (t : Tag) (l : Bytes) : isMarked (contextMark t ++ l) = true := by
  unfold isMarked
  rw [mark_take]
  cases t <;> decide

/-- All lines of a side, with marks. -/
def allOld (A : List Bytes) (g : List OpCode) : List Bytes :=
  g.flatMap fun cc => if cc.Tag = .i then [] else (slice A cc.I1 cc.I2).map fun line => contextMark cc.Tag ++ line

/-- All lines of a side, with marks. -/
def allNew (B : List Bytes) (g : List OpCode) : List Bytes :=
  g.flatMap fun cc => if cc.Tag = .d then [] else (slice B cc.J1 cc.J2).map fun line => contextMark cc.Tag ++ line

theorem map_drop_mark (t : Tag) (ls : List Bytes) : (ls.map fun line => contextMark t ++ line).map (·.drop 2) = ls := by
  rw [List.map_map]
  conv => rhs; rw [← List.map_id ls]
  apply List.map_congr_left
  intro l _
  exact mark_drop t l

theorem allOld_content (A B : List Bytes) : ∀ (g : List OpCode) (i j i2 j2 : Nat), Tiles i2 j2 i j g → (∀ c ∈ g, ValidPart A B c) →
    (allOld A g).map (·.drop 2) = slice A i i2 := by
  intro g
  induction g with
  | nil =>
    intro i j i2 j2 ht _
    obtain ⟨rfl, rfl⟩ := ht
    simp [allOld, slice]
  | cons c g ih =>
    intro i j i2 j2 ht hv
    obtain ⟨rfl, rfl, t3⟩ := ht
    have hvg : ∀ d ∈ g, ValidPart A B d := fun d hd => hv d (List.mem_cons_of_mem _ hd)
    obtain ⟨b1, b2, _⟩ := applyCodes_part A B g _ _ _ _ t3 hvg
    have hc := hv c (List.mem_cons_self ..)
    have hr := ih _ _ _ _ t3 hvg
    rw [show allOld A (c :: g) = (if c.Tag = .i then [] else (slice A c.I1 c.I2).map fun line => contextMark c.Tag ++ line) ++ allOld A g from rfl,
      List.map_append, hr]
    unfold ValidPart at hc
    by_cases hi : c.Tag = .i
    · rw [hi] at hc
      simp only at hc
      rw [if_pos hi, hc.1]
      rfl
    · rw [if_neg hi, map_drop_mark]
      refine slice_append A _ _ _ ?_ b1
      cases ht : c.Tag <;> rw [ht] at hc <;> simp only at hc <;> omega

theorem allNew_content (A B : List Bytes) : ∀ (g : List OpCode) (i j i2 j2 : Nat), Tiles i2 j2 i j g → (∀ c ∈ g, ValidPart A B c) →
    (allNew B g).map (·.drop 2) = slice B j j2 := by
  intro g
  induction g with
  | nil =>
    intro i j i2 j2 ht _
    obtain ⟨rfl, rfl⟩ := ht
    simp [allNew, slice]
  | cons c g ih =>
    intro i j i2 j2 ht hv
    obtain ⟨rfl, rfl, t3⟩ := ht
    have hvg : ∀ d ∈ g, ValidPart A B d := fun d hd => hv d (List.mem_cons_of_mem _ hd)
    obtain ⟨b1, b2, _⟩ := applyCodes_part A B g _ _ _ _ t3 hvg
    have hc := hv c (List.mem_cons_self ..)
    have hr := ih _ _ _ _ t3 hvg
    rw [show allNew B (c :: g) = (if c.Tag = .d then [] else (slice B c.J1 c.J2).map fun line => contextMark c.Tag ++ line) ++ allNew B g from rfl,
      List.map_append, hr]
    unfold ValidPart at hc
    by_cases hi : c.Tag = .d
    · rw [hi] at hc
      simp only at hc
      rw [if_pos hi, hc.2]
      rfl
    · rw [if_neg hi, map_drop_mark]
      refine slice_append B _ _ _ ?_ b2
      cases ht : c.Tag <;> rw [ht] at hc <;> simp only at hc <;> omega

theorem marked_append (m : Bytes) (x y : List Bytes) : marked m (x ++ y) = marked m x ++ marked m y := by
  simp [marked]

theorem marked_map (t u : Tag) (ls : List Bytes) :
    marked (contextMark t) (ls.map fun l => contextMark u ++ l) = if u = t then ls else [] := by
  unfold marked
  by_cases h : u = t
  · subst h
    rw [if_pos rfl, List.filter_eq_self.mpr, map_drop_mark]
    intro l hl
    obtain ⟨x, _, rfl⟩ := List.mem_map.mp hl
    simp [mark_take]
  · rw [if_neg h, List.filter_eq_nil_iff.mpr]
    · rfl
    · intro l hl
      obtain ⟨x, _, rfl⟩ := List.mem_map.mp hl
      simp [mark_take, mark_inj, h]

/-- The unchanged lines are the same on both sides. -/
theorem unchanged_same (A B : List Bytes) : ∀ (g : List OpCode), (∀ c ∈ g, ValidPart A B c) →
    marked (asc "  ") (allOld A g) = marked (asc "  ") (allNew B g) := by
  intro g
  induction g with
  | nil => intro _; rfl
  | cons c g ih =>
    intro hv
    have hc := hv c (List.mem_cons_self ..)
    have hr := ih fun d hd => hv d (List.mem_cons_of_mem _ hd)
    rw [show allNew B (c :: g) = (if c.Tag = .d then [] else (slice B c.J1 c.J2).map fun line => contextMark c.Tag ++ line) ++ allNew B g from rfl,
      show allOld A (c :: g) = (if c.Tag = .i then [] else (slice A c.I1 c.I2).map fun line => contextMark c.Tag ++ line) ++ allOld A g from rfl,
      marked_append, marked_append, hr]
    congr 1
    unfold ValidPart at hc
    rw [show asc "  " = contextMark .e from rfl]
    cases ht : c.Tag <;> rw [ht] at hc <;> simp only at hc <;> simp [marked_map]
    · rfl
    · rfl
    · exact hc.2.2.2

/-- Which marks occur. -/
theorem allOld_any (A B : List Bytes) (t : Tag) (g : List OpCode) (hv : ∀ c ∈ g, ValidPart A B c) (hin : ∀ c ∈ g, c.I2 ≤ A.length)
    (ht : t = .r ∨ t = .d) : (allOld A g).any (fun l => l.take 2 = contextMark t) = g.any fun c => c.Tag = t := by
  rw [Bool.eq_iff_iff]
  simp only [List.any_eq_true, decide_eq_true_eq]
  constructor
  · rintro ⟨l, hl, hm⟩
    unfold allOld at hl
    obtain ⟨c, hc, hl⟩ := List.mem_flatMap.mp hl
    split at hl
    · simp at hl
    · obtain ⟨x, _, rfl⟩ := List.mem_map.mp hl
      rw [mark_take, mark_inj] at hm
      exact ⟨c, hc, hm⟩
  · rintro ⟨c, hc, hm⟩
    have hvc := hv c hc
    have hlt : c.I1 < c.I2 := by
      unfold ValidPart at hvc
      rcases ht with h | h <;> rw [hm, h] at hvc <;> exact hvc.1
    have hne : slice A c.I1 c.I2 ≠ [] := by
      intro h
      have := slice_len A c.I1 c.I2 (hin c hc)
      rw [h, List.length_nil] at this
      omega
    obtain ⟨x, xs, hx⟩ := List.exists_cons_of_ne_nil hne
    refine ⟨contextMark c.Tag ++ x, ?_, by rw [mark_take, hm]⟩
    unfold allOld
    refine List.mem_flatMap.mpr ⟨c, hc, ?_⟩
    rw [if_neg (by rw [hm]; rcases ht with h | h <;> rw [h] <;> decide), hx]
    exact List.mem_map.mpr ⟨x, List.mem_cons_self .., rfl⟩

theorem allNew_any (A B : List Bytes) (t : Tag) (g : List OpCode) (hv : ∀ c ∈ g, ValidPart A B c) (hin : ∀ c ∈ g, c.J2 ≤ B.length)
    (ht : t = .r ∨ t = .i) : (allNew B g).any (fun l => l.take 2 = contextMark t) = g.any fun c => c.Tag = t := by
  rw [Bool.eq_iff_iff]
  simp only [List.any_eq_true, decide_eq_true_eq]
  constructor
  · rintro ⟨l, hl, hm⟩
    unfold allNew at hl
    obtain ⟨c, hc, hl⟩ := List.mem_flatMap.mp hl
    split at hl
    · simp at hl
    · obtain ⟨x, _, rfl⟩ := List.mem_map.mp hl
      rw [mark_take, mark_inj] at hm
      exact ⟨c, hc, hm⟩
  · rintro ⟨c, hc, hm⟩
    have hvc := hv c hc
    have hlt : c.J1 < c.J2 := by
      unfold ValidPart at hvc
      rcases ht with h | h <;> rw [hm, h] at hvc <;> exact hvc.2
    have hne : slice B c.J1 c.J2 ≠ [] := by
      intro h
      have := slice_len B c.J1 c.J2 (hin c hc)
      rw [h, List.length_nil] at this
      omega
    obtain ⟨x, xs, hx⟩ := List.exists_cons_of_ne_nil hne
    refine ⟨contextMark c.Tag ++ x, ?_, by rw [mark_take, hm]⟩
    unfold allNew
    refine List.mem_flatMap.mpr ⟨c, hc, ?_⟩
    rw [if_neg (by rw [hm]; rcases ht with h | h <;> rw [h] <;> decide), hx]
    exact List.mem_map.mpr ⟨x, List.mem_cons_self .., rfl⟩

theorem allOld_mem {A : List Bytes} {g : List OpCode} {l : Bytes} (h : l ∈ allOld A g) :
    ∃ c ∈ g, ∃ x ∈ A, c.Tag ≠ .i ∧ l = contextMark c.Tag ++ x := by
  unfold allOld at h
  obtain ⟨c, hc, hl⟩ := List.mem_flatMap.mp h
  split at hl
  · simp at hl
  · rename_i hi
    obtain ⟨x, hx, rfl⟩ := List.mem_map.mp hl
    exact ⟨c, hc, x, mem_slice hx, hi, rfl⟩

theorem allNew_mem {B : List Bytes} {g : List OpCode} {l : Bytes} (h : l ∈ allNew B g) :
    ∃ c ∈ g, ∃ x ∈ B, c.Tag ≠ .d ∧ l = contextMark c.Tag ++ x := by
  unfold allNew at h
  obtain ⟨c, hc, hl⟩ := List.mem_flatMap.mp h
  split at hl
  · simp at hl
  · rename_i hi
    obtain ⟨x, hx, rfl⟩ := List.mem_map.mp hl
    exact ⟨c, hc, x, mem_slice hx, hi, rfl⟩

theorem oldSection_eq (A : List Bytes) (g : List OpCode) :
    oldSection A g = if g.any (fun c => c.Tag = .r) || g.any (fun c => c.Tag = .d) then allOld A g else [] := by
  unfold oldSection allOld
  have : (g.any fun c => decide (c.Tag = .r ∨ c.Tag = .d)) = (g.any (fun c => c.Tag = .r) || g.any (fun c => c.Tag = .d)) := by
    rw [Bool.eq_iff_iff]
    simp only [List.any_eq_true, Bool.or_eq_true, decide_eq_true_eq]
    constructor
    · rintro ⟨c, hc, h | h⟩
      · exact Or.inl ⟨c, hc, h⟩
      · exact Or.inr ⟨c, hc, h⟩
    · rintro (⟨c, hc, h⟩ | ⟨c, hc, h⟩)
      · exact ⟨c, hc, Or.inl h⟩
      · exact ⟨c, hc, Or.inr h⟩
  rw [this]

theorem newSection_eq (B : List Bytes) (g : List OpCode) :
    newSection B g = if g.any (fun c => c.Tag = .r) || g.any (fun c => c.Tag = .i) then allNew B g else [] := by
  unfold newSection allNew
  have : (g.any fun c => decide (c.Tag = .r ∨ c.Tag = .i)) = (g.any (fun c => c.Tag = .r) || g.any (fun c => c.Tag = .i)) := by
    rw [Bool.eq_iff_iff]
    simp only [List.any_eq_true, Bool.or_eq_true, decide_eq_true_eq]
    constructor
    · rintro ⟨c, hc, h | h⟩
      · exact Or.inl ⟨c, hc, h⟩
      · exact Or.inr ⟨c, hc, h⟩
    · rintro (⟨c, hc, h⟩ | ⟨c, hc, h⟩)
      · exact ⟨c, hc, Or.inl h⟩
      · exact ⟨c, hc, Or.inr h⟩
  rw [this]

/-- If nothing of a side is changed, its lines are the unchanged ones. -/
theorem all_unchanged (m : Bytes) (ls : List Bytes) (h : ∀ l ∈ ls, l.take 2 = m) : marked m ls = ls.map (·.drop 2) := by
  unfold marked
  rw [List.filter_eq_self.mpr]
  intro l hl
  simp [h l hl]

/-- What the sections of a good group say. -/
theorem sections_good (A B : List Bytes) (n i1 j1 i2 j2 : Nat) (g : List OpCode) (hg : GoodGroup A B n i1 j1 i2 j2 g) :
    sideLines (oldSection A g) (newSection B g) = slice A i1 i2 ∧ sideLines (newSection B g) (oldSection A g) = slice B j1 j2 ∧
    marksFit (oldSection A g) (newSection B g) = true := by
  have hb := (hg.tiles.le_end hg.valid).2.2
  have hinA : ∀ c ∈ g, c.I2 ≤ A.length := fun c hc => Nat.le_trans (hb c hc).1 hg.within.1
  have hinB : ∀ c ∈ g, c.J2 ≤ B.length := fun c hc => Nat.le_trans (hb c hc).2 hg.within.2
  have o1 := allOld_content A B g _ _ _ _ hg.tiles hg.valid
  have o2 := allNew_content A B g _ _ _ _ hg.tiles hg.valid
  have hu := unchanged_same A B g hg.valid
  have or' := allOld_any A B .r g hg.valid hinA (Or.inl rfl)
  have od := allOld_any A B .d g hg.valid hinA (Or.inr rfl)
  have nr := allNew_any A B .r g hg.valid hinB (Or.inl rfl)
  have ni := allNew_any A B .i g hg.valid hinB (Or.inr rfl)
  -- marks of unchanged sides
  have ou : g.any (fun c => c.Tag = .r) = false → g.any (fun c => c.Tag = .d) = false → ∀ l ∈ allOld A g, l.take 2 = asc "  " := by
    intro h1 h2 l hl
    obtain ⟨c, hc, x, _, hi, rfl⟩ := allOld_mem hl
    rw [mark_take]
    simp only [List.any_eq_false, decide_eq_true_eq] at h1 h2
    have h1 := h1 c hc
    have h2 := h2 c hc
    cases ht : c.Tag with
    | r => exact absurd ht h1
    | d => exact absurd ht h2
    | i => exact absurd ht hi
    | e => rfl
  have nu : g.any (fun c => c.Tag = .r) = false → g.any (fun c => c.Tag = .i) = false → ∀ l ∈ allNew B g, l.take 2 = asc "  " := by
    intro h1 h2 l hl
    obtain ⟨c, hc, x, _, hi, rfl⟩ := allNew_mem hl
    rw [mark_take]
    simp only [List.any_eq_false, decide_eq_true_eq] at h1 h2
    have h1 := h1 c hc
    have h2 := h2 c hc
    cases ht : c.Tag with
    | r => exact absurd ht h1
    | d => exact absurd ht hi
    | i => exact absurd ht h2
    | e => rfl
  have oplus : (allOld A g).all (fun l => l.take 2 ≠ asc "+ ") = true := by
    simp only [List.all_eq_true, decide_eq_true_eq]
    intro l hl
    obtain ⟨c, hc, x, _, hi, rfl⟩ := allOld_mem hl
    rw [mark_take, show asc "+ " = contextMark .i from rfl, Ne, mark_inj]
    exact hi
  have nminus : (allNew B g).all (fun l => l.take 2 ≠ asc "- ") = true := by
    simp only [List.all_eq_true, decide_eq_true_eq]
    intro l hl
    obtain ⟨c, hc, x, _, hi, rfl⟩ := allNew_mem hl
    rw [mark_take, show asc "- " = contextMark .d from rfl, Ne, mark_inj]
    exact hi
  have anyNe : ∀ (ls : List Bytes) (t : Tag), t ≠ .e → ls.any (fun l => l.take 2 = contextMark t) = true →
      ls.any (fun l => l.take 2 ≠ asc "  ") = true ∧ ls ≠ [] := by
    intro ls t ht h
    simp only [List.any_eq_true, decide_eq_true_eq] at h ⊢
    obtain ⟨l, hl, h⟩ := h
    refine ⟨⟨l, hl, ?_⟩, List.ne_nil_of_mem hl⟩
    rw [h, show asc "  " = contextMark .e from rfl, Ne, mark_inj]
    exact ht
  have hchange : g.any (fun c => c.Tag = .r) = true ∨ g.any (fun c => c.Tag = .d) = true ∨ g.any (fun c => c.Tag = .i) = true := by
    obtain ⟨c, hc, h⟩ := hg.change
    simp only [List.any_eq_true, decide_eq_true_eq]
    cases ht : c.Tag with
    | r => exact Or.inl ⟨c, hc, ht⟩
    | d => exact Or.inr (Or.inl ⟨c, hc, ht⟩)
    | i => exact Or.inr (Or.inr ⟨c, hc, ht⟩)
    | e => exact absurd ht h
  rw [oldSection_eq, newSection_eq]
  change (allOld A g).any (fun l => l.take 2 = asc "! ") = _ at or'
  change (allNew B g).any (fun l => l.take 2 = asc "! ") = _ at nr
  cases hr : g.any (fun c => c.Tag = .r) with
  | true =>
    obtain ⟨e1, e2⟩ := anyNe (allOld A g) .r (by decide) (by rw [← hr, ← or']; rfl)
    obtain ⟨e3, e4⟩ := anyNe (allNew B g) .r (by decide) (by rw [← hr, ← nr]; rfl)
    simp only [Bool.true_or, if_true]
    unfold sideLines marksFit
    rw [if_neg e2, if_neg e4, oplus, nminus, or', nr, hu, List.any_append, e1, e3]
    exact ⟨o1, o2, by simp⟩
  | false =>
    rw [hr] at or' nr
    cases hd : g.any (fun c => c.Tag = .d) with
    | true =>
      obtain ⟨e1, e2⟩ := anyNe (allOld A g) .d (by decide) (by rw [← hd, ← od])
      cases hi : g.any (fun c => c.Tag = .i) with
      | true =>
        obtain ⟨e3, e4⟩ := anyNe (allNew B g) .i (by decide) (by rw [← hi, ← ni])
        simp only [Bool.false_or, if_true]
        unfold sideLines marksFit
        rw [if_neg e2, if_neg e4, oplus, nminus, or', nr, hu, List.any_append, e1, e3]
        exact ⟨o1, o2, by simp⟩
      | false =>
        have hn := all_unchanged _ _ (nu hr hi)
        simp only [Bool.false_or, Bool.false_eq_true, if_true, if_false]
        unfold sideLines marksFit
        rw [if_neg e2, if_pos rfl, oplus, or', List.append_nil, e1, hu, hn]
        exact ⟨o1, o2, by simp⟩
    | false =>
      have hi : g.any (fun c => c.Tag = .i) = true := by
        rcases hchange with h | h | h
        · rw [hr] at h; cases h
        · rw [hd] at h; cases h
        · exact h
      obtain ⟨e3, e4⟩ := anyNe (allNew B g) .i (by decide) (by rw [← hi, ← ni])
      have ho := all_unchanged _ _ (ou hr hd)
      rw [hi]
      simp only [Bool.or_false, Bool.false_or, Bool.false_eq_true, if_true, if_false]
      unfold sideLines marksFit
      rw [if_neg e4, if_pos rfl, nminus, nr, List.nil_append, e3, ← hu, ho]
      exact ⟨o1, o2, by simp⟩

/-! ### Hunks -/

/-- The lines of one group. -/
def contextLines (A B : List Bytes) (g : List OpCode) : List Bytes :=
  asc "***************\n" :: oldRange (asc "\n") g :: (oldSection A g ++ newRange (asc "\n") g :: newSection B g)

theorem oldSection_mem {A : List Bytes} {g : List OpCode} {l : Bytes} (h : l ∈ oldSection A g) : ∃ t, ∃ x ∈ A, l = contextMark t ++ x := by
  rw [oldSection_eq] at h
  split at h
  · obtain ⟨c, _, x, hx, _, rfl⟩ := allOld_mem h
    exact ⟨_, x, hx, rfl⟩
  · simp at h

theorem newSection_mem {B : List Bytes} {g : List OpCode} {l : Bytes} (h : l ∈ newSection B g) : ∃ t, ∃ x ∈ B, l = contextMark t ++ x := by
  rw [newSection_eq] at h
  split at h
  · obtain ⟨c, _, x, hx, _, rfl⟩ := allNew_mem h
    exact ⟨_, x, hx, rfl⟩
  · simp at h

theorem span_marked (xs rest : List Bytes) (h : ∀ l ∈ xs, isMarked l = true) (hr : ∀ l, rest.head? = some l → isMarked l = false) :
    (xs ++ rest).takeWhile isMarked = xs ∧ (xs ++ rest).dropWhile isMarked = rest := by
  induction xs with
  | nil =>
    cases rest with
    | nil => exact ⟨rfl, rfl⟩
    | cons l rest =>
      have := hr l rfl
      simp [this]
  | cons x xs ih =>
    have hx := h x (List.mem_cons_self ..)
    obtain ⟨h1, h2⟩ := ih fun l hl => h l (List.mem_cons_of_mem _ hl)
    simp [hx, h1, h2]

theorem readHunk_lines (A B : List Bytes) (g : List OpCode) (i1 j1 i2 j2 : Nat) (ht : Tiles i2 j2 i1 j1 g) (hne : g ≠ [])
    (rest : List Bytes) (hrest : ∀ l, rest.head? = some l → isMarked l = false) :
    readHunk (contextLines A B g ++ rest) =
      some (⟨if i2 - i1 = 0 then i1 else i1 + 1, if i2 - i1 ≤ 1 then none else some i2, oldSection A g,
        if j2 - j1 = 0 then j1 else j1 + 1, if j2 - j1 ≤ 1 then none else some j2, newSection B g⟩, rest) := by
  have h1 : oldRange (asc "\n") g = asc "*** " ++ formatRangeContext i1 i2 ++ 32 :: asc "****\n" := by
    unfold oldRange
    rw [ht.head hne, ht.last hne, List.append_assoc (asc "*** " ++ formatRangeContext i1 i2)]
    rfl
  have h2 : newRange (asc "\n") g = asc "--- " ++ formatRangeContext j1 j2 ++ 32 :: asc "----\n" := by
    unfold newRange
    rw [ht.headJ hne, ht.lastJ hne, List.append_assoc (asc "--- " ++ formatRangeContext j1 j2)]
    rfl
  have hm : isMarked (newRange (asc "\n") g) = false := by
    rw [h2]
    rfl
  obtain ⟨s1, s2⟩ := span_marked (oldSection A g) (newRange (asc "\n") g :: (newSection B g ++ rest))
    (fun l hl => by obtain ⟨t, x, _, rfl⟩ := oldSection_mem hl; exact mark_isMarked t x)
    (fun l hl => by simp only [List.head?_cons, Option.some.injEq] at hl; rw [← hl]; exact hm)
  obtain ⟨s3, s4⟩ := span_marked (newSection B g) rest
    (fun l hl => by obtain ⟨t, x, _, rfl⟩ := newSection_mem hl; exact mark_isMarked t x) hrest
  unfold contextLines
  simp only [List.cons_append, List.append_assoc]
  rw [readHunk, if_pos rfl, s1, s2]
  simp only [s3, s4]
  rw [h1, show asc " ****\n" = 32 :: asc "****\n" from rfl, readNumsLine_format, h2,
    show asc " ----\n" = 32 :: asc "----\n" from rfl]
  simp only [Option.bind_some]
  rw [readNumsLine_format]
  rfl

theorem patch_context (A B : List Bytes) (n : Nat) : ∀ (gs : List (List OpCode)) (fuel i j : Nat) (out : List Bytes),
    Hunks A B n i j gs → i ≤ A.length → j ≤ B.length → out = B.take j → gs.length ≤ fuel →
    patchContextHunks A fuel (gs.flatMap (contextLines A B)) i out = some B := by
  intro gs
  induction gs with
  | nil =>
    intro fuel i j out h _ _ ho _
    rw [show ([] : List (List OpCode)).flatMap (contextLines A B) = [] from rfl, patchContextHunks,
      show A.drop i = B.drop j from h, ho, List.take_append_drop]
  | cons g gs ih =>
    intro fuel i j out h hi hj ho hfuel
    obtain ⟨i1, j1, i2, j2, h1, h2, h3, _, hg, h5⟩ := h
    have hne : g ≠ [] := by
      rintro rfl
      obtain ⟨c, hc, _⟩ := hg.change
      simp at hc
    obtain ⟨k1, k2, _⟩ := applyCodes_part A B g _ _ _ _ hg.tiles hg.valid
    have hw := hg.within
    cases fuel with
    | zero => simp at hfuel
    | succ fuel =>
      have hrest : ∀ l, (gs.flatMap (contextLines A B)).head? = some l → isMarked l = false := by
        intro l hl
        cases gs with
        | nil => simp at hl
        | cons g' gs' =>
          rw [List.flatMap_cons, show contextLines A B g' ++ gs'.flatMap (contextLines A B) =
            asc "***************\n" :: (oldRange (asc "\n") g' :: (oldSection A g' ++ newRange (asc "\n") g' :: newSection B g') ++
              gs'.flatMap (contextLines A B)) from rfl, List.head?_cons, Option.some.injEq] at hl
          rw [← hl]
          decide
      have hread := readHunk_lines A B g i1 j1 i2 j2 hg.tiles hne _ hrest
      obtain ⟨s1, s2, s3⟩ := sections_good A B n i1 j1 i2 j2 g hg
      have hlen : (out ++ slice A i i1).length = j1 := by
        rw [h3, ho, List.length_append, List.length_take, slice_len B j j1 (by omega)]
        omega
      rw [List.flatMap_cons]
      rw [show contextLines A B g ++ gs.flatMap (contextLines A B) =
            asc "***************\n" :: (oldRange (asc "\n") g :: (oldSection A g ++ newRange (asc "\n") g :: newSection B g) ++
              gs.flatMap (contextLines A B)) from rfl] at hread ⊢
      rw [patchContextHunks, hread]
      simp only [Option.bind_some]
      have happly : applyHunk A i out ⟨if i2 - i1 = 0 then i1 else i1 + 1, if i2 - i1 ≤ 1 then none else some i2, oldSection A g,
          if j2 - j1 = 0 then j1 else j1 + 1, if j2 - j1 ≤ 1 then none else some j2, newSection B g⟩ =
          some (i2, out ++ slice A i i1 ++ slice B j1 j2) := by
        unfold applyHunk
        simp only
        rw [if_pos s3, s1, s2, slice_len A i1 i2 hw.1, slice_len B j1 j2 hw.2, rangeStart_format, rangeStart_format]
        simp only [Option.bind_some]
        rw [show i1 + (i2 - i1) = i2 by omega, if_pos ⟨h1, rfl, hlen⟩]
      rw [happly]
      simp only [Option.bind_some]
      refine ih fuel i2 j2 _ h5 hw.1 hw.2 ?_ (by simpa using hfuel)
      rw [h3, ho]
      have e0 : B.take j = slice B 0 j := by simp [slice]
      rw [e0, slice_append B 0 j j1 (Nat.zero_le _) h2, slice_append B 0 j1 j2 (Nat.zero_le _) k2]
      simp [slice]

/-! ### The text -/

theorem mark_no_percent (t : Tag) (x : Bytes) (h : 37 ∉ x) : 37 ∉ contextMark t ++ x := by
  simp only [List.mem_append, not_or]
  exact ⟨by cases t <;> decide, h⟩

theorem concatAll_append (xs ys : List Bytes) : ∀ zs, zs = xs ++ ys → concatAll (xs.map some ++ ys.map some) = some zs.flatten := by
  rintro _ rfl
  rw [← List.map_append, concatAll_some]

theorem contextGroup_plain (A B : List Bytes) (g : List OpCode) (h : ∀ l, l ∈ A ∨ l ∈ B → 37 ∉ l) :
    contextGroup A B (asc "\n") g = some (contextLines A B g).flatten := by
  unfold contextGroup
  have h1 : (oldSection A g).map sprintf0 = (oldSection A g).map some := by
    apply List.map_congr_left
    intro l hl
    obtain ⟨t, x, hx, rfl⟩ := oldSection_mem hl
    exact sprintf0_plain _ (mark_no_percent t x (h x (Or.inl hx)))
  have h2 : (newSection B g).map sprintf0 = (newSection B g).map some := by
    apply List.map_congr_left
    intro l hl
    obtain ⟨t, x, hx, rfl⟩ := newSection_mem hl
    exact sprintf0_plain _ (mark_no_percent t x (h x (Or.inr hx)))
  have h3 : sprintf0 (asc "***************" ++ asc "\n") = some (asc "***************\n") := by decide +kernel
  rw [h1, h2, h3, show contextLines A B g = [asc "***************\n", oldRange (asc "\n") g] ++ (oldSection A g ++ newRange (asc "\n") g :: newSection B g) from rfl,
    ← concatAll_some]
  simp

theorem context_no_lf (i k : Nat) : 10 ∉ formatRangeContext i k := by
  unfold formatRangeContext
  simp only
  split
  · exact decimal_no_lf _
  · simp only [List.mem_append, not_or]
    exact ⟨⟨decimal_no_lf _, by decide⟩, decimal_no_lf _⟩

theorem contextLines_isLine {A B : List Bytes} (h : ∀ l, l ∈ A ∨ l ∈ B → IsLine l) (g : List OpCode) :
    ∀ l ∈ contextLines A B g, IsLine l := by
  intro l hl
  have hmark : ∀ t x, IsLine x → IsLine (contextMark t ++ x) := fun t x hx => hx.prepend _ (by cases t <;> decide)
  unfold contextLines at hl
  simp only [List.mem_cons, List.mem_append] at hl
  rcases hl with rfl | rfl | hl | rfl | hl
  · exact ⟨asc "***************", rfl, by decide⟩
  · refine ⟨_, rfl, ?_⟩
    simp only [List.mem_append, not_or]
    exact ⟨⟨by decide, context_no_lf _ _⟩, by decide⟩
  · obtain ⟨t, x, hx, rfl⟩ := oldSection_mem hl
    exact hmark t x (h x (Or.inl hx))
  · refine ⟨_, rfl, ?_⟩
    simp only [List.mem_append, not_or]
    exact ⟨⟨by decide, context_no_lf _ _⟩, by decide⟩
  · obtain ⟨t, x, hx, rfl⟩ := newSection_mem hl
    exact hmark t x (h x (Or.inr hx))

/-- C86 (partly): for lines that end with their only line feed and contain no percent sign,
headers without line feeds, and every context size, the text of the context diff read back
and applied to `A` - checking the lines of the old side, the marks, the positions and the
line numbers of every hunk - gives `B`.  Missing: lines with percent signs, for which it is
false, see `context_percent`. -/
theorem context_diff_partial (d : UnifiedDiff) (hlines : ∀ l, l ∈ d.A ∨ l ∈ d.B → IsLine l ∧ 37 ∉ l)
    (h1 : 10 ∉ d.FromFile) (h2 : 10 ∉ d.FromDate) (h3 : 10 ∉ d.ToFile) (h4 : 10 ∉ d.ToDate)
    (heol : d.Eol = [] ∨ d.Eol = asc "\n") :
    ∃ text, contextDiff d = some text ∧ patchContext d.A text = some d.B := by
  have heol' : d.eol = asc "\n" := by
    unfold UnifiedDiff.eol
    rcases heol with h | h <;> rw [h] <;> rfl
  obtain ⟨codes, hc, hh, _⟩ := grouped_opcodes d.A d.B true none d.Context
  unfold contextDiff
  rw [hc]
  simp only [Option.bind_some]
  cases hgs : (groupedOpCodes d.Context codes).2 with
  | nil =>
    rw [hgs] at hh
    refine ⟨[], rfl, ?_⟩
    have : d.A = d.B := by simpa [Hunks] using hh
    show some d.A = some d.B
    rw [this]
  | cons g gs =>
    rw [hgs] at hh
    have htext : ∀ gs : List (List OpCode), concatAll (gs.map (contextGroup d.A d.B d.eol)) = some (gs.flatMap (contextLines d.A d.B)).flatten := by
      intro gs
      induction gs with
      | nil => rfl
      | cons g gs ih =>
        rw [List.map_cons, concatAll, heol', contextGroup_plain _ _ _ (fun l hl => (hlines l hl).2), ← heol', ih]
        simp
    have h4' : ∀ (mark : Bytes), mark.length = 4 → ∀ r, (mark ++ r).take 4 = mark := by
      intro mark hm r
      rw [← hm, List.take_left]
    refine ⟨d.contextHeader ++ ((g :: gs).flatMap (contextLines d.A d.B)).flatten, ?_, ?_⟩
    · show concatAll (some d.contextHeader :: (g :: gs).map (contextGroup d.A d.B d.eol)) = _
      rw [concatAll, htext]
      rfl
    · have hline : ∀ l ∈ (g :: gs).flatMap (contextLines d.A d.B), IsLine l := by
        intro l hl
        obtain ⟨g', _, hl⟩ := List.mem_flatMap.mp hl
        exact contextLines_isLine (fun l hl => (hlines l hl).1) g' l hl
      unfold patchContext UnifiedDiff.contextHeader
      simp only
      rw [heol', List.append_assoc, linesOf_line _ _ (header_isLine _ _ _ (by decide) h1 (date_no_lf _ h2)),
        linesOf_line _ _ (header_isLine _ _ _ (by decide) h3 (date_no_lf _ h4)), linesOf_flatten _ hline]
      simp only [List.append_assoc]
      rw [if_pos ⟨h4' _ rfl _, h4' _ rfl _⟩]
      refine patch_context d.A d.B (contextSize d.Context) _ _ 0 0 [] hh (Nat.zero_le _) (Nat.zero_le _) rfl ?_
      have : ∀ gs : List (List OpCode), gs.length ≤ (gs.flatMap (contextLines d.A d.B)).length := by
        intro gs
        induction gs with
        | nil => exact Nat.zero_le _
        | cons g gs ih =>
          rw [List.flatMap_cons, List.length_append, List.length_cons]
          have : 1 ≤ (contextLines d.A d.B g).length := by unfold contextLines; simp
          omega
      exact this _

/-- What stands in a header line after the mark: the name and, after a tab, the date if there is one. -/
def headerNames (name date : Bytes) (line : Bytes) : Prop :=
  (date = [] ∧ line.drop 4 = name ++ asc "\n") ∨ (date ≠ [] ∧ line.drop 4 = name ++ asc "\t" ++ date ++ asc "\n")

theorem headerNames_line (mark name date : Bytes) (h : mark.length = 4) :
    headerNames name date (mark ++ name ++ (if 0 < date.length then asc "\t" ++ date else []) ++ asc "\n") := by
  have hd : ∀ r, (mark ++ r).drop 4 = r := by
    intro r
    rw [← h, List.drop_left]
  cases date with
  | nil =>
    left
    rw [List.append_assoc, List.append_assoc, hd]
    exact ⟨rfl, by simp⟩
  | cons c cs =>
    right
    rw [List.append_assoc, List.append_assoc, hd, if_pos (by simp)]
    exact ⟨by simp, by simp⟩

/-- C57, C86: a diff that is not empty begins with a line for the old and a line for the new file, with the names and dates
given, for both kinds of diffs. -/
theorem diff_headers (d : UnifiedDiff) (h1 : 10 ∉ d.FromFile) (h2 : 10 ∉ d.FromDate) (h3 : 10 ∉ d.ToFile) (h4 : 10 ∉ d.ToDate)
    (heol : d.Eol = [] ∨ d.Eol = asc "\n") (text : Bytes) (hne : text ≠ []) (h : contextDiff d = some text ∨ unifiedDiff d = some text) :
    ∃ l1 l2 ls, linesOf text = l1 :: l2 :: ls ∧ headerNames d.FromFile d.FromDate l1 ∧ headerNames d.ToFile d.ToDate l2 := by
  have heol' : d.eol = asc "\n" := by
    unfold UnifiedDiff.eol
    rcases heol with h | h <;> rw [h] <;> rfl
  have key : ∀ (m1 m2 : Bytes), m1.length = 4 → m2.length = 4 → 10 ∉ m1 → 10 ∉ m2 → ∀ u,
      text = m1 ++ d.FromFile ++ (if 0 < d.FromDate.length then asc "\t" ++ d.FromDate else []) ++ asc "\n" ++
        (m2 ++ d.ToFile ++ (if 0 < d.ToDate.length then asc "\t" ++ d.ToDate else []) ++ asc "\n") ++ u →
      ∃ l1 l2 ls, linesOf text = l1 :: l2 :: ls ∧ headerNames d.FromFile d.FromDate l1 ∧ headerNames d.ToFile d.ToDate l2 := by
    intro m1 m2 e1 e2 n1 n2 u hu
    refine ⟨_, _, linesOf u, ?_, headerNames_line m1 _ _ e1, headerNames_line m2 _ _ e2⟩
    · rw [hu, List.append_assoc _ (m2 ++ d.ToFile ++ (if 0 < d.ToDate.length then asc "\t" ++ d.ToDate else []) ++ asc "\n"),
        linesOf_line _ _ (header_isLine _ _ _ n1 h1 (date_no_lf _ h2)), linesOf_line _ _ (header_isLine _ _ _ n2 h3 (date_no_lf _ h4))]
  have split : ∀ (x : Bytes) (xs : List (Option Bytes)), concatAll (some x :: xs) = some text → ∃ u, text = x ++ u := by
    intro x xs h
    rw [concatAll] at h
    simp only [Option.bind_some] at h
    cases hx : concatAll xs with
    | none => rw [hx] at h; cases h
    | some u =>
      rw [hx] at h
      injection h with h
      exact ⟨u, h.symm⟩
  rcases h with h | h
  · unfold contextDiff at h
    cases hc : opCodes (newMatcher d.A d.B true none) with
    | none => rw [hc] at h; cases h
    | some codes =>
      rw [hc] at h
      simp only [Option.bind_some] at h
      split at h
      · injection h with h
        exact absurd h.symm hne
      · obtain ⟨u, hu⟩ := split _ _ h
        unfold UnifiedDiff.contextHeader at hu
        rw [heol'] at hu
        exact key (asc "*** ") (asc "--- ") rfl rfl (by decide) (by decide) u hu
  · unfold unifiedDiff at h
    cases hc : opCodes (newMatcher d.A d.B true none) with
    | none => rw [hc] at h; cases h
    | some codes =>
      rw [hc] at h
      simp only [Option.bind_some] at h
      split at h
      · injection h with h
        exact absurd h.symm hne
      · obtain ⟨u, hu⟩ := split _ _ h
        unfold UnifiedDiff.header at hu
        rw [heol'] at hu
        exact key (asc "--- ") (asc "+++ ") rfl rfl (by decide) (by decide) u hu

/-- C86: equal lines give no text at all, and no text means equal lines. -/
theorem context_diff_empty (d : UnifiedDiff) (hlines : ∀ l, l ∈ d.A ∨ l ∈ d.B → IsLine l ∧ 37 ∉ l)
    (h1 : 10 ∉ d.FromFile) (h2 : 10 ∉ d.FromDate) (h3 : 10 ∉ d.ToFile) (h4 : 10 ∉ d.ToDate)
    (heol : d.Eol = [] ∨ d.Eol = asc "\n") (h : contextDiff d = some []) : d.A = d.B := by
  obtain ⟨text, e1, e2⟩ := context_diff_partial d hlines h1 h2 h3 h4 heol
  rw [h] at e1
  injection e1 with e1
  subst e1
  injection e2

/-- A diff with all marks: one line changed, one added, one removed in another hunk. -/
example : contextDiff ⟨[asc "a\n", asc "b\n", asc "k\n", asc "l\n", asc "m\n", asc "p\n", asc "z\n"], asc "f", [],
      [asc "a\n", asc "c\n", asc "k\n", asc "n\n", asc "l\n", asc "m\n", asc "p\n"], asc "g", asc "now", [], 1⟩ =
    some (asc "*** f\n--- g\tnow\n***************\n*** 1,4 ****\n  a\n! b\n  k\n  l\n--- 1,5 ----\n  a\n! c\n  k\n+ n\n  l\n***************\n*** 6,7 ****\n  p\n- z\n--- 7 ----\n") := by
  decide +kernel

example : ∀ l, l ∈ [asc "a\n", asc "b\n"] ∨ l ∈ [asc "b\n", asc "c d\n"] → IsLine l ∧ 37 ∉ l := by
  intro l hl
  simp only [List.mem_cons, List.not_mem_nil, or_false] at hl
  rcases hl with (rfl | rfl) | (rfl | rfl)
  · exact ⟨⟨asc "a", rfl, by decide⟩, by decide⟩
  · exact ⟨⟨asc "b", rfl, by decide⟩, by decide⟩
  · exact ⟨⟨asc "b", rfl, by decide⟩, by decide⟩
  · exact ⟨⟨asc "c d", rfl, by decide⟩, by decide⟩

/-- C86 fails for lines with percent signs: they are used as formats (difflib.go 719 and 735). -/
theorem context_percent : ∃ (d : UnifiedDiff) (text : Bytes), contextDiff d = some text ∧
    text = asc "*** f\n--- g\n***************\n*** 1 ****\n! a\n--- 1 ----\n! %!d(MISSING)\n" ∧ d.B = [asc "%d\n"] ∧
    patchContext d.A text = some [asc "%!d(MISSING)\n"] :=
  ⟨⟨[asc "a\n"], asc "f", [], [asc "%d\n"], asc "g", [], [], 3⟩, _, by decide +kernel, rfl, rfl, by decide +kernel⟩

/-- An empty `Eol` does not make the output free of line feeds, as the comments at 551-552 and
660-661 promise: both kinds of diff are as with a line feed. -/
theorem empty_eol (d : UnifiedDiff) (h : d.Eol = []) :
    contextDiff d = contextDiff { d with Eol := asc "\n" } ∧ unifiedDiff d = unifiedDiff { d with Eol := asc "\n" } := by
  have e : d.eol = UnifiedDiff.eol { d with Eol := asc "\n" } := by
    unfold UnifiedDiff.eol
    rw [h]
    rfl
  constructor
  · unfold contextDiff UnifiedDiff.contextHeader
    rw [e]
  · unfold unifiedDiff UnifiedDiff.header
    rw [e]

example : (contextDiff ⟨[asc "a"], [], [], [asc "b"], [], [], [], 3⟩).map (fun t => decide (10 ∈ t)) = some true := by decide +kernel

end Verif.Difflib
