import Verif.Difflib.Grouped

/-!
# C57 and C58: unified diffs and `SplitLines`

Model of `formatRangeUnified`, `WriteUnifiedDiff` and `SplitLines` in
test/go-difflib/difflib/difflib.go.
-/

namespace Verif.Difflib

/-! ### Model -/

/-- How far `fmt` has come in a verb: flags, width with the number of digits, precision with
the number of digits (for difflib.go 563). -/
inductive VerbPart where
  | flags
  | width (k : Nat)
  | prec (k : Nat)

/-- `fmt.Sprintf` without arguments (used at difflib.go 563 by 603, 611 and 618), in a verb:
`%%` is a percent sign, other verbs report the missing argument.  Not modelled (`none`): `*` and `[`,
verbs outside ASCII, numbers of more than six digits. -/
def sprintfVerb (plain : Bytes → Option Bytes) : VerbPart → Bytes → Option Bytes
  | _, [] => some (asc "%!(NOVERB)")
  | p, c :: rest =>
    let verb : Option Bytes :=
      if c = 42 ∨ c = 91 ∨ 128 ≤ c then none
      else if c = 37 then (plain rest).map fun t => 37 :: t
      else (plain rest).map fun t => asc "%!" ++ c :: asc "(MISSING)" ++ t
    let digit : Bool := 48 ≤ c && c ≤ 57
    match p with
    | .flags =>
      if c = 35 ∨ c = 48 ∨ c = 43 ∨ c = 45 ∨ c = 32 then sprintfVerb plain .flags rest
      else if digit then sprintfVerb plain (.width 1) rest
      else if c = 46 then sprintfVerb plain (.prec 0) rest
      else verb
    | .width k =>
      if digit then (if k < 6 then sprintfVerb plain (.width (k + 1)) rest else none)
      else if c = 46 then sprintfVerb plain (.prec 0) rest
      else verb
    | .prec k =>
      if digit then (if k < 6 then sprintfVerb plain (.prec (k + 1)) rest else none)
      else verb

/-- `fmt.Sprintf(format)`; `fuel` bounds the number of verbs (for difflib.go 563). -/
def sprintfPlain : Nat → Bytes → Option Bytes
  | 0, _ => none
  | fuel + 1, format =>
    let text := format.takeWhile (· ≠ 37)
    match format.dropWhile (· ≠ 37) with
    | [] => some text
    | _ :: rest => (sprintfVerb (sprintfPlain fuel) .flags rest).map fun t => text ++ t

/-- `fmt.Sprintf(format)` for `w(" " + line)` and the like, difflib.go 603, 611, 618. -/
def sprintf0 (format : Bytes) : Option Bytes := sprintfPlain (format.length + 1) format

/-- `%d` of a number that is not negative, difflib.go 520 and 525; `fuel` bounds the digits. -/
def decimalF : Nat → Nat → Bytes
  | 0, _ => []
  | fuel + 1, n => if n < 10 then [UInt8.ofNat (48 + n)] else decimalF fuel (n / 10) ++ [UInt8.ofNat (48 + n % 10)]

/-- `%d`, as used at difflib.go 520 and 525. -/
def decimal (n : Nat) : Bytes := decimalF (n + 1) n

/-- `formatRangeUnified`, difflib.go 515-526. -/
def formatRangeUnified (start stop : Nat) : Bytes :=
  let beginning := start + 1
  let length := stop - start
  if length = 1 then decimal beginning
  else
    let beginning := if length = 0 then beginning - 1 else beginning
    decimal beginning ++ asc "," ++ decimal length

/-- `UnifiedDiff`, difflib.go 529-538. -/
structure UnifiedDiff where
  A : List Bytes
  FromFile : Bytes
  FromDate : Bytes
  B : List Bytes
  ToFile : Bytes
  ToDate : Bytes
  Eol : Bytes
  Context : Int

/-- Difflib.go 570-572. -/
def UnifiedDiff.eol (d : UnifiedDiff) : Bytes := if d.Eol.length = 0 then asc "\n" else d.Eol

/-- The two header lines, difflib.go 574-592. -/
def UnifiedDiff.header (d : UnifiedDiff) : Bytes :=
  let fromDate := if 0 < d.FromDate.length then asc "\t" ++ d.FromDate else []
  let toDate := if 0 < d.ToDate.length then asc "\t" ++ d.ToDate else []
  asc "--- " ++ d.FromFile ++ fromDate ++ d.eol ++ (asc "+++ " ++ d.ToFile ++ toDate ++ d.eol)

/-- Texts one after the other, if all are modelled (difflib.go 560-565). -/
def concatAll : List (Option Bytes) → Option Bytes
  | [] => some []
  | x :: xs => x.bind fun t => (concatAll xs).map fun u => t ++ u

/-- The lines of one opcode, difflib.go 600-622, before formatting. -/
def codeLines (A B : List Bytes) (c : OpCode) : List Bytes :=
  match c.Tag with
  | .e => (slice A c.I1 c.I2).map fun l => asc " " ++ l
  | .r => ((slice A c.I1 c.I2).map fun l => asc "-" ++ l) ++ (slice B c.J1 c.J2).map fun l => asc "+" ++ l
  | .d => (slice A c.I1 c.I2).map fun l => asc "-" ++ l
  | .i => (slice B c.J1 c.J2).map fun l => asc "+" ++ l

/-- The range line of a group, difflib.go 593-598 (groups are never empty). -/
def rangeLine (eol : Bytes) (g : List OpCode) : Bytes :=
  let i1 := (g.head?.map OpCode.I1).getD 0
  let i2 := (g.getLast?.map OpCode.I2).getD 0
  let j1 := (g.head?.map OpCode.J1).getD 0
  let j2 := (g.getLast?.map OpCode.J2).getD 0
  asc "@@ -" ++ formatRangeUnified i1 i2 ++ asc " +" ++ formatRangeUnified j1 j2 ++ asc " @@" ++ eol

/-- One group, difflib.go 593-623. -/
def groupText (A B : List Bytes) (eol : Bytes) (g : List OpCode) : Option Bytes :=
  concatAll (some (rangeLine eol g) :: (g.flatMap (codeLines A B)).map sprintf0)

/-- `WriteUnifiedDiff`, difflib.go 559-626, to a writer that does not fail
(`GetUnifiedDiffString`, 629-633).  `none` if a line is a format outside the model. -/
def unifiedDiff (d : UnifiedDiff) : Option Bytes :=
  (opCodes (newMatcher d.A d.B true none)).bind fun codes =>
    match (groupedOpCodes d.Context codes).2 with
    | [] => some []
    | gs => concatAll (some d.header :: gs.map (groupText d.A d.B d.eol))

/-- `strings.SplitAfter(s, "\n")` (difflib.go 755). -/
def splitAfter : Bytes → List Bytes
  | [] => [[]]
  | c :: s =>
    if c = 10 then [c] :: splitAfter s
    else match splitAfter s with
      | [] => [[c]]
      | l :: ls => (c :: l) :: ls

/-- `SplitLines`, difflib.go 754-758. -/
def splitLines (s : Bytes) : List Bytes :=
  let lines := splitAfter s
  lines.dropLast ++ [lines.getLast?.getD [] ++ asc "\n"]

/-! ### Specification: a reader of unified diffs -/

/-- A line ends with its only line feed. -/
def IsLine (l : Bytes) : Prop := ∃ t : Bytes, l = t ++ [10] ∧ 10 ∉ t

/-- The lines of a text; the last may lack its line feed. -/
def linesOf : Bytes → List Bytes
  | [] => []
  | c :: s =>
    if c = 10 then [c] :: linesOf s
    else match linesOf s with
      | [] => [[c]]
      | l :: ls => (c :: l) :: ls

/-- A decimal number at the start of a text. -/
def readNum (s : Bytes) : Option (Nat × Bytes) :=
  let ds := s.takeWhile fun c => 48 ≤ c && c ≤ 57
  if ds = [] then none
  else some (ds.foldl (fun n c => n * 10 + (c.toNat - 48)) 0, s.dropWhile fun c => 48 ≤ c && c ≤ 57)

/-- A range: the number of lines before it, and its length.  `start` alone is one line; an
empty range names the line before it. -/
def readRange (s : Bytes) : Option (Nat × Nat × Bytes) :=
  (readNum s).bind fun (start, s) =>
    match s with
    | 44 :: s => (readNum s).map fun (length, s) => (if length = 0 then start else start - 1, length, s)
    | _ => some (start - 1, 1, s)

/-- A fixed text. -/
def readText (t s : Bytes) : Option Bytes := if s.take t.length = t then some (s.drop t.length) else none

/-- A range line: position and length in the old and in the new text. -/
def readRangeLine (l : Bytes) : Option (Nat × Nat × Nat × Nat) :=
  (readText (asc "@@ -") l).bind fun s => (readRange s).bind fun (i, n, s) =>
  (readText (asc " +") s).bind fun s => (readRange s).bind fun (j, m, s) =>
  if s = asc " @@\n" then some (i, n, j, m) else none

/-- Applies hunks to `A`: `i` lines have been read, `out` written; `n` old and `m` new lines
of the current hunk are still to come.  Everything is checked: old lines, order of the
hunks, positions. -/
def patchHunks (A : List Bytes) : List Bytes → Nat → List Bytes → Nat → Nat → Option (List Bytes)
  | [], i, out, n, m => if n = 0 ∧ m = 0 then some (out ++ A.drop i) else none
  | l :: ls, i, out, n, m =>
    if n = 0 ∧ m = 0 then
      (readRangeLine l).bind fun (i1, n, j1, m) =>
        if i ≤ i1 ∧ i1 ≤ A.length ∧ (out ++ slice A i i1).length = j1 then patchHunks A ls i1 (out ++ slice A i i1) n m
        else none
    else if l.head? = some 32 then
      if 0 < n ∧ 0 < m ∧ A[i]? = some l.tail then patchHunks A ls (i + 1) (out ++ [l.tail]) (n - 1) (m - 1) else none
    else if l.head? = some 45 then
      if 0 < n ∧ A[i]? = some l.tail then patchHunks A ls (i + 1) out (n - 1) m else none
    else if l.head? = some 43 then
      if 0 < m then patchHunks A ls i (out ++ [l.tail]) n (m - 1) else none
    else none

/-- Applies a unified diff to the lines `A`; an empty diff changes nothing. -/
def patch (A : List Bytes) (text : Bytes) : Option (List Bytes) :=
  match linesOf text with
  | [] => some A
  | h1 :: h2 :: ls =>
    if h1.take 4 = asc "--- " ∧ h2.take 4 = asc "+++ " then patchHunks A ls 0 [] 0 0 else none
  | _ => none

/-! ### Numbers -/

theorem digitByte (n : Nat) (h : n < 10) : (UInt8.ofNat (48 + n)).toNat = 48 + n := by
  simp only [UInt8.toNat_ofNat']
  omega

theorem digitByte_isDigit (n : Nat) (h : n < 10) : (48 ≤ UInt8.ofNat (48 + n) && UInt8.ofNat (48 + n) ≤ 57) = true := by
  have := digitByte n h
  simp only [Bool.and_eq_true, decide_eq_true_eq, UInt8.le_iff_toNat_le, this]
  exact ⟨by show 48 ≤ 48 + n; omega, by show 48 + n ≤ 57; omega⟩

theorem decimalF_spec : ∀ (fuel n : Nat), n < fuel → decimalF fuel n ≠ [] ∧
    (∀ c ∈ decimalF fuel n, (48 ≤ c && c ≤ 57) = true) ∧
    (decimalF fuel n).foldl (fun n c => n * 10 + (c.toNat - 48)) 0 = n := by
  intro fuel
  induction fuel with
  | zero => intro n h; omega
  | succ fuel ih =>
    intro n h
    rw [decimalF]
    by_cases hn : n < 10
    · rw [if_pos hn]
      refine ⟨by simp, ?_, ?_⟩
      · intro c hc
        simp only [List.mem_singleton] at hc
        subst hc
        exact digitByte_isDigit n hn
      · simp only [List.foldl_cons, List.foldl_nil, digitByte n hn]
        omega
    · rw [if_neg hn]
      obtain ⟨_, h2, h3⟩ := ih (n / 10) (by omega)
      refine ⟨by simp, ?_, ?_⟩
      · intro c hc
        rcases List.mem_append.mp hc with hc | hc
        · exact h2 c hc
        · simp only [List.mem_singleton] at hc
          subst hc
          exact digitByte_isDigit _ (by omega)
      · rw [List.foldl_append, h3]
        simp only [List.foldl_cons, List.foldl_nil, digitByte _ (show n % 10 < 10 by omega)]
        omega

/-- What does not begin with a digit. -/
def NoDigit (s : Bytes) : Prop := ∀ c, s.head? = some c → (48 ≤ c && c ≤ 57) = false

theorem span_append (p : UInt8 → Bool) (ds s : Bytes) (h : ∀ c ∈ ds, p c = true) (hs : ∀ c, s.head? = some c → p c = false) :
    (ds ++ s).takeWhile p = ds ∧ (ds ++ s).dropWhile p = s := by
  induction ds with
  | nil =>
    cases s with
    | nil => exact ⟨rfl, rfl⟩
    | cons c s =>
      have := hs c rfl
      simp [this]
  | cons d ds ih =>
    have hd := h d (List.mem_cons_self ..)
    obtain ⟨h1, h2⟩ := ih (fun c hc => h c (List.mem_cons_of_mem _ hc))
    simp [hd, h1, h2]

theorem readNum_decimal (n : Nat) (s : Bytes) (hs : NoDigit s) : readNum (decimal n ++ s) = some (n, s) := by
  obtain ⟨h1, h2, h3⟩ := decimalF_spec (n + 1) n (by omega)
  obtain ⟨e1, e2⟩ := span_append (fun c => 48 ≤ c && c ≤ 57) (decimalF (n + 1) n) s h2 hs
  unfold readNum decimal
  simp only
  rw [e1, e2, if_neg h1, h3]

theorem readRange_format (i k : Nat) (s : Bytes) :
    readRange (formatRangeUnified i k ++ 32 :: s) = some (i, k - i, 32 :: s) := by
  have hsp : NoDigit (32 :: s) := by
    intro c hc
    simp only [List.head?_cons, Option.some.injEq] at hc
    subst hc
    decide
  unfold formatRangeUnified readRange
  by_cases h1 : k - i = 1
  · simp only [if_pos h1]
    rw [readNum_decimal _ _ hsp]
    simp [h1]
  · simp only [if_neg h1]
    have hcomma : NoDigit (asc "," ++ decimal (k - i) ++ 32 :: s) := by
      intro c hc
      have : c = 44 := by
        have e : (asc "," ++ decimal (k - i) ++ 32 :: s).head? = some 44 := rfl
        rw [e] at hc
        injection hc with hc
        exact hc.symm
      subst this
      decide
    rw [show ∀ x : Bytes, x ++ asc "," ++ decimal (k - i) ++ 32 :: s = x ++ (asc "," ++ decimal (k - i) ++ 32 :: s) by
      intro x; simp, readNum_decimal _ _ hcomma]
    rw [show asc "," ++ decimal (k - i) ++ 32 :: s = 44 :: (decimal (k - i) ++ 32 :: s) from rfl]
    simp only [Option.bind_some]
    rw [readNum_decimal _ _ hsp]
    by_cases h0 : k - i = 0
    · simp [h0]
    · simp [h0]

theorem readText_append (t s : Bytes) : readText t (t ++ s) = some s := by
  unfold readText
  rw [List.take_left, List.drop_left, if_pos rfl]

theorem readRangeLine_format (i1 i2 j1 j2 : Nat) :
    readRangeLine (asc "@@ -" ++ formatRangeUnified i1 i2 ++ asc " +" ++ formatRangeUnified j1 j2 ++ asc " @@" ++ asc "\n") =
      some (i1, i2 - i1, j1, j2 - j1) := by
  unfold readRangeLine
  simp only [List.append_assoc]
  rw [readText_append]
  simp only [Option.bind_some]
  rw [show asc " +" ++ (formatRangeUnified j1 j2 ++ (asc " @@" ++ asc "\n")) =
    32 :: (asc "+" ++ (formatRangeUnified j1 j2 ++ (asc " @@" ++ asc "\n"))) from rfl, readRange_format i1 i2]
  simp only [Option.bind_some]
  rw [show (32 :: (asc "+" ++ (formatRangeUnified j1 j2 ++ (asc " @@" ++ asc "\n"))) : Bytes) =
    asc " +" ++ (formatRangeUnified j1 j2 ++ (asc " @@" ++ asc "\n")) from rfl, readText_append]
  simp only [Option.bind_some]
  rw [show asc " @@" ++ asc "\n" = 32 :: asc "@@\n" from rfl, readRange_format j1 j2]
  rfl

/-! ### Formats without percent signs -/

theorem sprintf0_plain (s : Bytes) (h : 37 ∉ s) : sprintf0 s = some s := by
  have hall : ∀ c ∈ s, (decide (c ≠ 37)) = true := by
    intro c hc
    simp only [ne_eq, decide_not, Bool.not_eq_eq_eq_not, Bool.not_true, decide_eq_false_iff_not]
    rintro rfl
    exact h hc
  unfold sprintf0
  obtain ⟨e1, e2⟩ := span_append (fun c => decide (c ≠ 37)) s [] hall (by simp)
  rw [List.append_nil] at e1 e2
  rw [sprintfPlain, e1, e2]

/-! ### Lines -/

theorem linesOf_line (l s : Bytes) (h : IsLine l) : linesOf (l ++ s) = l :: linesOf s := by
  obtain ⟨t, rfl, ht⟩ := h
  induction t with
  | nil => rfl
  | cons c t ih =>
    have hc : c ≠ 10 := by rintro rfl; exact ht (List.mem_cons_self ..)
    have := ih (fun h => ht (List.mem_cons_of_mem _ h))
    rw [List.cons_append, List.cons_append, linesOf, if_neg hc, this]

theorem linesOf_flatten : ∀ (ls : List Bytes), (∀ l ∈ ls, IsLine l) → linesOf ls.flatten = ls := by
  intro ls
  induction ls with
  | nil => intro _; rfl
  | cons l ls ih =>
    intro h
    rw [List.flatten_cons, linesOf_line l _ (h l (List.mem_cons_self ..)), ih (fun x hx => h x (List.mem_cons_of_mem _ hx))]

theorem IsLine.prepend {l : Bytes} (h : IsLine l) (p : Bytes) (hp : 10 ∉ p) : IsLine (p ++ l) := by
  obtain ⟨t, rfl, ht⟩ := h
  refine ⟨p ++ t, by simp, ?_⟩
  simp only [List.mem_append, not_or]
  exact ⟨hp, ht⟩

/-! ### Hunks -/

/-- A hunk's lines, without the formatting. -/
def bodyLines (A B : List Bytes) (g : List OpCode) : List Bytes := g.flatMap (codeLines A B)

theorem slice_cons {α : Type} (l : List α) (i k : Nat) (h : i < k) (x : α) (hx : l[i]? = some x) : slice l i k = x :: slice l (i + 1) k := by
  unfold slice
  have hlt : i < l.length := by
    rcases Nat.lt_or_ge i l.length with h | h
    · exact h
    · rw [List.getElem?_eq_none h] at hx; cases hx
  rw [List.drop_eq_getElem_cons hlt]
  have : l[i] = x := by rw [List.getElem?_eq_getElem hlt] at hx; injection hx
  rw [this, show k - i = (k - (i + 1)) + 1 by omega, List.take_succ_cons]

/-- Kept lines. -/
theorem patch_kept (A : List Bytes) : ∀ (xs : List Bytes) (i : Nat) (out : List Bytes) (n m : Nat) (rest : List Bytes),
    slice A i (i + xs.length) = xs → xs.length ≤ n → xs.length ≤ m →
    patchHunks A (xs.map (fun l => asc " " ++ l) ++ rest) i out n m = patchHunks A rest (i + xs.length) (out ++ xs) (n - xs.length) (m - xs.length) := by
  intro xs
  induction xs with
  | nil => intro i out n m rest _ _ _; simp
  | cons x xs ih =>
    intro i out n m rest hs hn hm
    simp only [List.length_cons] at hn hm hs
    have hx : A[i]? = some x := by
      have := congrArg List.head? hs
      unfold slice at this
      simpa [List.head?_take, List.head?_drop] using this
    have htail : slice A (i + 1) (i + 1 + xs.length) = xs := by
      rw [slice_cons A i _ (by omega) x hx] at hs
      injection hs with _ hs
      rw [show i + 1 + xs.length = i + (xs.length + 1) by omega]
      exact hs
    have hd : (asc " " ++ x).head? = some 32 := rfl
    have ht : (asc " " ++ x).tail = x := rfl
    rw [List.map_cons, List.cons_append, patchHunks, if_neg (by omega), hd, ht]
    rw [if_pos rfl, if_pos ⟨by omega, by omega, hx⟩, ih (i + 1) (out ++ [x]) (n - 1) (m - 1) rest htail (by omega) (by omega)]
    simp only [List.length_cons, List.append_assoc, List.singleton_append]
    rw [show i + 1 + xs.length = i + (xs.length + 1) by omega, show n - 1 - xs.length = n - (xs.length + 1) by omega,
      show m - 1 - xs.length = m - (xs.length + 1) by omega]

/-- Removed lines. -/
theorem patch_removed (A : List Bytes) : ∀ (xs : List Bytes) (i : Nat) (out : List Bytes) (n m : Nat) (rest : List Bytes),
    slice A i (i + xs.length) = xs → xs.length ≤ n →
    patchHunks A (xs.map (fun l => asc "-" ++ l) ++ rest) i out n m = patchHunks A rest (i + xs.length) out (n - xs.length) m := by
  intro xs
  induction xs with
  | nil => intro i out n m rest _ _; simp
  | cons x xs ih =>
    intro i out n m rest hs hn
    simp only [List.length_cons] at hn hs
    have hx : A[i]? = some x := by
      have := congrArg List.head? hs
      unfold slice at this
      simpa [List.head?_take, List.head?_drop] using this
    have htail : slice A (i + 1) (i + 1 + xs.length) = xs := by
      rw [slice_cons A i _ (by omega) x hx] at hs
      injection hs with _ hs
      rw [show i + 1 + xs.length = i + (xs.length + 1) by omega]
      exact hs
    have hd : (asc "-" ++ x).head? = some 45 := rfl
    have ht : (asc "-" ++ x).tail = x := rfl
    rw [List.map_cons, List.cons_append, patchHunks, if_neg (by omega), hd, ht]
    rw [if_neg (by decide), if_pos rfl, if_pos ⟨by omega, hx⟩, ih (i + 1) out (n - 1) m rest htail (by omega)]
    simp only [List.length_cons]
    rw [show i + 1 + xs.length = i + (xs.length + 1) by omega, show n - 1 - xs.length = n - (xs.length + 1) by omega]

/-- Added lines. -/
theorem patch_added (A : List Bytes) : ∀ (xs : List Bytes) (i : Nat) (out : List Bytes) (n m : Nat) (rest : List Bytes),
    xs.length ≤ m →
    patchHunks A (xs.map (fun l => asc "+" ++ l) ++ rest) i out n m = patchHunks A rest i (out ++ xs) n (m - xs.length) := by
  intro xs
  induction xs with
  | nil => intro i out n m rest _; simp
  | cons x xs ih =>
    intro i out n m rest hm
    simp only [List.length_cons] at hm
    have hd : (asc "+" ++ x).head? = some 43 := rfl
    have ht : (asc "+" ++ x).tail = x := rfl
    rw [List.map_cons, List.cons_append, patchHunks, if_neg (by omega), hd, ht]
    rw [if_neg (by decide), if_neg (by decide), if_pos rfl, if_pos (by omega), ih i (out ++ [x]) n (m - 1) rest (by omega)]
    simp only [List.length_cons, List.append_assoc, List.singleton_append]
    rw [show m - 1 - xs.length = m - (xs.length + 1) by omega]

theorem slice_len {α : Type} (l : List α) (i k : Nat) (hk : k ≤ l.length) : (slice l i k).length = k - i := by
  unfold slice
  rw [List.length_take, List.length_drop]
  omega

/-- The body of a group. -/
theorem patch_body (A B : List Bytes) : ∀ (g : List OpCode) (i j i2 j2 : Nat) (rest : List Bytes),
    Tiles i2 j2 i j g → (∀ c ∈ g, ValidPart A B c) → i2 ≤ A.length → j2 ≤ B.length → ∀ out,
    patchHunks A (bodyLines A B g ++ rest) i out (i2 - i) (j2 - j) = patchHunks A rest i2 (out ++ slice B j j2) 0 0 := by
  intro g
  induction g with
  | nil =>
    intro i j i2 j2 rest ht _ _ _ out
    obtain ⟨rfl, rfl⟩ := ht
    simp [bodyLines, slice]
  | cons c g ih =>
    intro i j i2 j2 rest ht hv hA hB out
    obtain ⟨t1, t2, t3⟩ := ht
    have hvg : ∀ d ∈ g, ValidPart A B d := fun d hd => hv d (List.mem_cons_of_mem _ hd)
    obtain ⟨b1, b2, _⟩ := applyCodes_part A B g _ _ _ _ t3 hvg
    have hc := hv c (List.mem_cons_self ..)
    have hrec := ih c.I2 c.J2 i2 j2 rest t3 hvg hA hB
    rw [show bodyLines A B (c :: g) = codeLines A B c ++ bodyLines A B g by simp [bodyLines], List.append_assoc]
    subst t1
    subst t2
    have lenA := slice_len A c.I1 c.I2 (by omega)
    have lenB := slice_len B c.J1 c.J2 (by omega)
    unfold ValidPart at hc
    unfold codeLines
    cases htag : c.Tag <;> rw [htag] at hc <;> simp only at hc ⊢
    · -- replace
      rw [List.append_assoc]
      rw [patch_removed A (slice A c.I1 c.I2) c.I1 out _ _ _ (by rw [lenA, show c.I1 + (c.I2 - c.I1) = c.I2 by omega]) (by omega),
        patch_added A (slice B c.J1 c.J2) _ out _ _ _ (by omega), lenA, lenB,
        show c.I1 + (c.I2 - c.I1) = c.I2 by omega, show i2 - c.I1 - (c.I2 - c.I1) = i2 - c.I2 by omega,
        show j2 - c.J1 - (c.J2 - c.J1) = j2 - c.J2 by omega, hrec, List.append_assoc, slice_append B _ _ _ (by omega) b2]
    · -- delete
      rw [patch_removed A (slice A c.I1 c.I2) c.I1 out _ _ _ (by rw [lenA, show c.I1 + (c.I2 - c.I1) = c.I2 by omega]) (by omega),
        lenA, show c.I1 + (c.I2 - c.I1) = c.I2 by omega, show i2 - c.I1 - (c.I2 - c.I1) = i2 - c.I2 by omega,
        hc.2, hrec]
    · -- insert
      rw [patch_added A (slice B c.J1 c.J2) _ out _ _ _ (by omega), lenB,
        show j2 - c.J1 - (c.J2 - c.J1) = j2 - c.J2 by omega, hc.1, hrec, List.append_assoc, slice_append B _ _ _ (by omega) b2]
    · -- equal
      rw [patch_kept A (slice A c.I1 c.I2) c.I1 out _ _ _ (by rw [lenA, show c.I1 + (c.I2 - c.I1) = c.I2 by omega]) (by omega) (by omega),
        lenA, show c.I1 + (c.I2 - c.I1) = c.I2 by omega, show i2 - c.I1 - (c.I2 - c.I1) = i2 - c.I2 by omega,
        show j2 - c.J1 - (c.I2 - c.I1) = j2 - c.J2 by omega, hrec, List.append_assoc, hc.2.2.2, slice_append B _ _ _ (by omega) b2]

theorem Tiles.headJ {la lb i j : Nat} {g : List OpCode} (h : Tiles la lb i j g) (hne : g ≠ []) :
    (g.head?.map OpCode.J1).getD 0 = j := by
  cases g with
  | nil => exact absurd rfl hne
  | cons c g => exact h.2.1

theorem Tiles.lastJ : ∀ {g : List OpCode} {la lb i j : Nat}, Tiles la lb i j g → g ≠ [] →
    (g.getLast?.map OpCode.J2).getD 0 = lb := by
  intro g
  induction g with
  | nil => intro la lb i j _ hne; exact absurd rfl hne
  | cons c g ih =>
    intro la lb i j h _
    cases g with
    | nil => exact h.2.2.2
    | cons d g =>
      rw [List.getLast?_cons_cons]
      exact ih h.2.2 (by simp)

/-- The lines of all groups. -/
def hunkLines (A B : List Bytes) (gs : List (List OpCode)) : List Bytes :=
  gs.flatMap fun g => rangeLine (asc "\n") g :: bodyLines A B g

theorem patch_hunks (A B : List Bytes) (n : Nat) : ∀ (gs : List (List OpCode)) (i j : Nat) (out : List Bytes),
    Hunks A B n i j gs → (∀ g ∈ gs, ∀ c ∈ g, c.I2 ≤ A.length ∧ c.J2 ≤ B.length) → i ≤ A.length → j ≤ B.length → out = B.take j →
    patchHunks A (hunkLines A B gs) i out 0 0 = some B := by
  intro gs
  induction gs with
  | nil =>
    intro i j out h _ _ _ ho
    rw [show hunkLines A B [] = [] from rfl, patchHunks, if_pos ⟨rfl, rfl⟩, show A.drop i = B.drop j from h, ho, List.take_append_drop]
  | cons g gs ih =>
    intro i j out h hb hi hj ho
    obtain ⟨i1, j1, i2, j2, h1, h2, h3, _, hg, h5⟩ := h
    have hne : g ≠ [] := by
      rintro rfl
      obtain ⟨c, hc, _⟩ := hg.change
      simp at hc
    obtain ⟨k1, k2, _⟩ := applyCodes_part A B g _ _ _ _ hg.tiles hg.valid
    have hlast : i2 ≤ A.length ∧ j2 ≤ B.length := by
      have e1 := hg.tiles.last hne
      have e2 := hg.tiles.lastJ hne
      obtain ⟨c, hc⟩ : ∃ c, g.getLast? = some c := ⟨_, List.getLast?_eq_some_getLast hne⟩
      have := hb g (List.mem_cons_self ..) c (List.mem_of_getLast? hc)
      rw [hc] at e1 e2
      simp only [Option.map_some, Option.getD_some] at e1 e2
      omega
    have hline : rangeLine (asc "\n") g = asc "@@ -" ++ formatRangeUnified i1 i2 ++ asc " +" ++ formatRangeUnified j1 j2 ++ asc " @@" ++ asc "\n" := by
      unfold rangeLine
      simp only
      rw [hg.tiles.head hne, hg.tiles.last hne, hg.tiles.headJ hne, hg.tiles.lastJ hne]
    have hlen : (out ++ slice A i i1).length = j1 := by
      rw [h3, ho, List.length_append, List.length_take, slice_len B j j1 (by omega)]
      omega
    rw [show hunkLines A B (g :: gs) = rangeLine (asc "\n") g :: (bodyLines A B g ++ hunkLines A B gs) by simp [hunkLines]]
    rw [patchHunks, if_pos ⟨rfl, rfl⟩, hline, readRangeLine_format i1 i2 j1 j2]
    simp only [Option.bind_some]
    rw [if_pos ⟨h1, by omega, hlen⟩, patch_body A B g i1 j1 i2 j2 _ hg.tiles hg.valid hlast.1 hlast.2]
    refine ih i2 j2 _ h5 (fun g' hg' => hb g' (List.mem_cons_of_mem _ hg')) hlast.1 hlast.2 ?_
    rw [h3, ho]
    have e0 : B.take j = slice B 0 j := by simp [slice]
    rw [e0, slice_append B 0 j j1 (Nat.zero_le _) h2, slice_append B 0 j1 j2 (Nat.zero_le _) k2]
    simp [slice]

/-! ### The text -/

theorem concatAll_some : ∀ (ls : List Bytes), concatAll (ls.map some) = some ls.flatten := by
  intro ls
  induction ls with
  | nil => rfl
  | cons l ls ih => simp [concatAll, ih]

theorem mem_slice {α : Type} {l : List α} {i k : Nat} {x : α} (h : x ∈ slice l i k) : x ∈ l :=
  List.mem_of_mem_drop (List.mem_of_mem_take h)

theorem codeLines_mem {A B : List Bytes} {c : OpCode} {l : Bytes} (h : l ∈ codeLines A B c) :
    ∃ p x, l = p ++ x ∧ (x ∈ A ∨ x ∈ B) ∧ (p = asc " " ∨ p = asc "-" ∨ p = asc "+") := by
  unfold codeLines at h
  cases ht : c.Tag <;> rw [ht] at h <;> simp only [List.mem_append, List.mem_map] at h
  · rcases h with ⟨x, hx, rfl⟩ | ⟨x, hx, rfl⟩
    · exact ⟨_, x, rfl, Or.inl (mem_slice hx), by simp⟩
    · exact ⟨_, x, rfl, Or.inr (mem_slice hx), by simp⟩
  · obtain ⟨x, hx, rfl⟩ := h; exact ⟨_, x, rfl, Or.inl (mem_slice hx), by simp⟩
  · obtain ⟨x, hx, rfl⟩ := h; exact ⟨_, x, rfl, Or.inr (mem_slice hx), by simp⟩
  · obtain ⟨x, hx, rfl⟩ := h; exact ⟨_, x, rfl, Or.inl (mem_slice hx), by simp⟩

theorem no_percent_line {A B : List Bytes} (h : ∀ l, l ∈ A ∨ l ∈ B → 37 ∉ l) {g : List OpCode} {l : Bytes}
    (hl : l ∈ bodyLines A B g) : 37 ∉ l := by
  unfold bodyLines at hl
  obtain ⟨c, _, hl⟩ := List.mem_flatMap.mp hl
  obtain ⟨p, x, rfl, hx, hp⟩ := codeLines_mem hl
  simp only [List.mem_append, not_or]
  refine ⟨?_, h x hx⟩
  rcases hp with rfl | rfl | rfl <;> decide

theorem groupText_plain (A B : List Bytes) (eol : Bytes) (g : List OpCode) (h : ∀ l, l ∈ A ∨ l ∈ B → 37 ∉ l) :
    groupText A B eol g = some (rangeLine eol g :: bodyLines A B g).flatten := by
  unfold groupText
  have : (g.flatMap (codeLines A B)).map sprintf0 = (bodyLines A B g).map some := by
    apply List.map_congr_left
    intro l hl
    exact sprintf0_plain l (no_percent_line h hl)
  rw [this, ← List.map_cons, concatAll_some]

theorem decimal_no_lf (n : Nat) : 10 ∉ decimal n := by
  intro h
  obtain ⟨_, h2, _⟩ := decimalF_spec (n + 1) n (by omega)
  have := h2 10 h
  revert this
  decide

theorem formatRange_no_lf (i k : Nat) : 10 ∉ formatRangeUnified i k := by
  unfold formatRangeUnified
  simp only
  split
  · exact decimal_no_lf _
  · simp only [List.mem_append, not_or]
    exact ⟨⟨decimal_no_lf _, by decide⟩, decimal_no_lf _⟩

theorem rangeLine_isLine (g : List OpCode) : IsLine (rangeLine (asc "\n") g) := by
  unfold rangeLine
  simp only
  refine ⟨_, rfl, ?_⟩
  simp only [List.mem_append, not_or]
  exact ⟨⟨⟨⟨by decide, formatRange_no_lf _ _⟩, by decide⟩, formatRange_no_lf _ _⟩, by decide⟩

theorem hunkLines_isLine {A B : List Bytes} (h : ∀ l, l ∈ A ∨ l ∈ B → IsLine l) (gs : List (List OpCode)) :
    ∀ l ∈ hunkLines A B gs, IsLine l := by
  intro l hl
  unfold hunkLines at hl
  obtain ⟨g, _, hl⟩ := List.mem_flatMap.mp hl
  rcases List.mem_cons.mp hl with rfl | hl
  · exact rangeLine_isLine g
  · unfold bodyLines at hl
    obtain ⟨c, _, hl⟩ := List.mem_flatMap.mp hl
    obtain ⟨p, x, rfl, hx, hp⟩ := codeLines_mem hl
    refine (h x hx).prepend p ?_
    rcases hp with rfl | rfl | rfl <;> decide

/-- Positions in groups are within the sequences. -/
theorem hunks_within {α : Type} {a b : List α} {n : Nat} : ∀ {gs : List (List OpCode)} {i j : Nat}, Hunks a b n i j gs →
    ∀ g ∈ gs, ∀ c ∈ g, c.I2 ≤ a.length ∧ c.J2 ≤ b.length := by
  intro gs
  induction gs with
  | nil => intro i j _ g hg; simp at hg
  | cons h gs ih =>
    intro i j hh g hg c hc
    obtain ⟨i1, j1, i2, j2, _, _, _, _, hgood, hrest⟩ := hh
    rcases List.mem_cons.mp hg with rfl | hg
    · have := (hgood.tiles.le_end hgood.valid).2.2 c hc
      have := hgood.within
      omega
    · exact ih hrest g hg c hc

/-- A header line. -/
theorem header_isLine (mark name date : Bytes) (h1 : 10 ∉ mark) (h2 : 10 ∉ name) (h3 : 10 ∉ date) :
    IsLine (mark ++ name ++ date ++ asc "\n") := by
  refine ⟨_, rfl, ?_⟩
  simp only [List.mem_append, not_or]
  exact ⟨⟨h1, h2⟩, h3⟩

theorem date_no_lf (date : Bytes) (h : 10 ∉ date) : 10 ∉ (if 0 < date.length then asc "\t" ++ date else []) := by
  split
  · simp only [List.mem_append, not_or]
    exact ⟨by decide, h⟩
  · simp

/-- C57 (partly): for lines that end with their only line feed and contain no percent sign,
headers without line feeds, and every context size below 2^62, the text of the diff read
back and applied to `A` - checking every kept and removed line, the positions and the counts
of every range line - gives `B`.  Missing: lines with percent signs, for which it is false, see
`percent_not_verbatim`. -/
theorem unified_diff_partial (d : UnifiedDiff) (hlines : ∀ l, l ∈ d.A ∨ l ∈ d.B → IsLine l ∧ 37 ∉ l)
    (h1 : 10 ∉ d.FromFile) (h2 : 10 ∉ d.FromDate) (h3 : 10 ∉ d.ToFile) (h4 : 10 ∉ d.ToDate)
    (heol : d.Eol = [] ∨ d.Eol = asc "\n") :
    ∃ text, unifiedDiff d = some text ∧ patch d.A text = some d.B := by
  have heol' : d.eol = asc "\n" := by
    unfold UnifiedDiff.eol
    rcases heol with h | h <;> rw [h] <;> rfl
  obtain ⟨codes, hc, hh, _⟩ := grouped_opcodes d.A d.B true none d.Context
  unfold unifiedDiff
  rw [hc]
  simp only [Option.bind_some]
  cases hgs : (groupedOpCodes d.Context codes).2 with
  | nil =>
    rw [hgs] at hh
    refine ⟨[], rfl, ?_⟩
    have : d.A = d.B := by simpa [Hunks] using hh
    show some d.A = some d.B
    rw [this]
  | cons g gs =>
    rw [hgs] at hh
    have htext : ∀ gs : List (List OpCode), concatAll (gs.map (groupText d.A d.B d.eol)) = some (hunkLines d.A d.B gs).flatten := by
      intro gs
      induction gs with
      | nil => rfl
      | cons g gs ih =>
        rw [List.map_cons, concatAll, groupText_plain _ _ _ _ (fun l hl => (hlines l hl).2), ih, heol']
        simp [hunkLines]
    have h4' : ∀ (mark : Bytes), mark.length = 4 → ∀ r, (mark ++ r).take 4 = mark := by
      intro mark hm r
      rw [← hm, List.take_left]
    refine ⟨d.header ++ (hunkLines d.A d.B (g :: gs)).flatten, ?_, ?_⟩
    · show concatAll (some d.header :: (g :: gs).map (groupText d.A d.B d.eol)) = _
      rw [concatAll, htext]
      rfl
    · unfold patch UnifiedDiff.header
      simp only
      rw [heol', List.append_assoc, linesOf_line _ _ (header_isLine _ _ _ (by decide) h1 (date_no_lf _ h2)),
        linesOf_line _ _ (header_isLine _ _ _ (by decide) h3 (date_no_lf _ h4)),
        linesOf_flatten _ (hunkLines_isLine (fun l hl => (hlines l hl).1) _)]
      simp only [List.append_assoc]
      rw [if_pos ⟨h4' _ rfl _, h4' _ rfl _⟩]
      exact patch_hunks d.A d.B (contextSize d.Context) _ 0 0 [] hh (hunks_within hh) (Nat.zero_le _) (Nat.zero_le _) rfl

/-- Two texts meeting the hypotheses, with two hunks. -/
example : ∀ l, l ∈ [asc "a\n", asc "b\n"] ∨ l ∈ [asc "b\n", asc "c d\n"] → IsLine l ∧ 37 ∉ l := by
  intro l hl
  simp only [List.mem_cons, List.not_mem_nil, or_false] at hl
  rcases hl with (rfl | rfl) | (rfl | rfl)
  · exact ⟨⟨asc "a", rfl, by decide⟩, by decide⟩
  · exact ⟨⟨asc "b", rfl, by decide⟩, by decide⟩
  · exact ⟨⟨asc "b", rfl, by decide⟩, by decide⟩
  · exact ⟨⟨asc "c d", rfl, by decide⟩, by decide⟩

example : unifiedDiff ⟨[asc "a\n", asc "b\n"], asc "f", [], [asc "b\n", asc "c d\n"], asc "g", asc "now", [], 0⟩ =
    some (asc "--- f\n+++ g\tnow\n@@ -1 +0,0 @@\n-a\n@@ -2,0 +2 @@\n+c d\n") := by decide +kernel

/-- C57 fails for lines with percent signs: they are used as formats. -/
theorem percent_not_verbatim : ∃ (d : UnifiedDiff) (text : Bytes), unifiedDiff d = some text ∧
    text = asc "--- f\n+++ g\n@@ -1 +1 @@\n-a\n+%!d(MISSING)\n" ∧ d.B = [asc "%d\n"] ∧
    patch d.A text = some [asc "%!d(MISSING)\n"] :=
  ⟨⟨[asc "a\n"], asc "f", [], [asc "%d\n"], asc "g", [], [], 3⟩, _, by decide +kernel, rfl, rfl, by decide +kernel⟩

/-- A line with every percent sign doubled. -/
def double (s : Bytes) : Bytes := s.flatMap fun c => if c = 37 then [37, 37] else [c]

theorem double_takeWhile (s : Bytes) : (double s).takeWhile (· ≠ 37) = s.takeWhile (· ≠ 37) ∧
    (double s).dropWhile (· ≠ 37) = double (s.dropWhile (· ≠ 37)) := by
  induction s with
  | nil => exact ⟨rfl, rfl⟩
  | cons c s ih =>
    have e : double (c :: s) = (if c = 37 then [37, 37] else [c]) ++ double s := rfl
    by_cases hc : c = 37
    · subst hc
      rw [e, if_pos rfl]
      exact ⟨by simp, by simp [e]⟩
    · rw [e, if_neg hc]
      simp only [List.cons_append, List.nil_append]
      rw [List.takeWhile_cons_of_pos (by simpa using hc), List.dropWhile_cons_of_pos (by simpa using hc),
        List.takeWhile_cons_of_pos (by simpa using hc), List.dropWhile_cons_of_pos (by simpa using hc)]
      exact ⟨by rw [ih.1], ih.2⟩

theorem double_length (s : Bytes) : s.length ≤ (double s).length := by
  induction s with
  | nil => exact Nat.le_refl _
  | cons c s ih =>
    have e : double (c :: s) = (if c = 37 then [37, 37] else [c]) ++ double s := rfl
    rw [e, List.length_append, List.length_cons]
    split <;> simp only [List.length_cons, List.length_nil] <;> omega

theorem sprintfPlain_double : ∀ (fuel : Nat) (s : Bytes), s.length < fuel → sprintfPlain fuel (double s) = some s := by
  intro fuel
  induction fuel with
  | zero => intro s h; omega
  | succ n ih =>
    intro s hlen
    obtain ⟨e1, e2⟩ := double_takeWhile s
    rw [sprintfPlain]
    simp only [e1, e2]
    have hsplit := List.takeWhile_append_dropWhile (p := fun c : UInt8 => decide (c ≠ 37)) (l := s)
    cases hd : s.dropWhile (fun c => decide (c ≠ 37)) with
    | nil =>
      rw [hd, List.append_nil] at hsplit
      show some _ = some s
      rw [hsplit]
    | cons c rest =>
      have hc : c = 37 := by
        have hne : s.dropWhile (fun c => decide (c ≠ 37)) ≠ [] := by rw [hd]; simp
        have h := List.head_dropWhile_not (l := s) (fun c : UInt8 => decide (c ≠ 37)) hne
        have e : (s.dropWhile (fun c => decide (c ≠ 37))).head hne = c := by simp only [hd, List.head_cons]
        rw [e] at h
        simpa using h
      subst hc
      have hl : rest.length < n := by
        have := congrArg List.length hsplit
        rw [hd, List.length_append, List.length_cons] at this
        omega
      show ((sprintfVerb (sprintfPlain n) .flags (37 :: double rest)).map fun t => s.takeWhile (fun c => decide (c ≠ 37)) ++ t) = some s
      have e3 : sprintfVerb (sprintfPlain n) .flags (37 :: double rest) = (sprintfPlain n (double rest)).map fun t => 37 :: t := rfl
      rw [e3, ih rest hl]
      rw [hd] at hsplit
      exact congrArg some hsplit

/-- C57: what becomes of percent signs.  A line is shown as it is if its percent signs are doubled, in which case they are shown
once. -/
theorem percent_doubled (s : Bytes) : sprintf0 (double s) = some s :=
  sprintfPlain_double _ s (by have := double_length s; omega)

example : sprintf0 (asc " 100%% of %% it\n") = some (asc " 100% of % it\n") := by decide +kernel

theorem sprintfPlain_plain (n : Nat) (s : Bytes) (h : 37 ∉ s) : sprintfPlain (n + 1) s = some s := by
  have hall : ∀ c ∈ s, (decide (c ≠ 37)) = true := by
    intro c hc
    simp only [ne_eq, decide_not, Bool.not_eq_eq_eq_not, Bool.not_true, decide_eq_false_iff_not]
    rintro rfl
    exact h hc
  obtain ⟨e1, e2⟩ := span_append (fun c => decide (c ≠ 37)) s [] hall (by simp)
  rw [List.append_nil] at e1 e2
  rw [sprintfPlain, e1, e2]

/-- A letter. -/
def Letter (c : UInt8) : Prop := (65 ≤ c ∧ c ≤ 90) ∨ (97 ≤ c ∧ c ≤ 122)

/-- A digit. -/
def Digit (c : UInt8) : Prop := c ∈ asc "0123456789"

theorem letter_not {c : UInt8} (h : Letter c) : (48 ≤ c && c ≤ 57) = false ∧ c ≠ 42 ∧ c ≠ 91 ∧ ¬ 128 ≤ c ∧ c ≠ 37 ∧ c ≠ 46 ∧ ¬ (c = 35 ∨ c = 48 ∨ c = 43 ∨ c = 45 ∨ c = 32) := by
  unfold Letter at h
  have hall : ∀ n : Fin 256, ((65 ≤ UInt8.ofNat n.val ∧ UInt8.ofNat n.val ≤ 90) ∨ (97 ≤ UInt8.ofNat n.val ∧ UInt8.ofNat n.val ≤ 122)) →
      (48 ≤ UInt8.ofNat n.val && UInt8.ofNat n.val ≤ 57) = false ∧ UInt8.ofNat n.val ≠ 42 ∧ UInt8.ofNat n.val ≠ 91 ∧ ¬ 128 ≤ UInt8.ofNat n.val ∧ UInt8.ofNat n.val ≠ 37 ∧ UInt8.ofNat n.val ≠ 46 ∧
      ¬ (UInt8.ofNat n.val = 35 ∨ UInt8.ofNat n.val = 48 ∨ UInt8.ofNat n.val = 43 ∨ UInt8.ofNat n.val = 45 ∨ UInt8.ofNat n.val = 32) := by decide +kernel
  have := hall ⟨c.toNat, c.toNat_lt⟩
  simp only [UInt8.ofNat_toNat] at this
  exact this h

theorem digit_is {c : UInt8} (h : Digit c) : (48 ≤ c && c ≤ 57) = true ∧ c ≠ 46 := by
  have hall : ∀ c ∈ asc "0123456789", (48 ≤ c && c ≤ 57) = true ∧ c ≠ 46 := by decide +kernel
  exact hall c h

theorem verb_letter (plain : Bytes → Option Bytes) (p : VerbPart) (c : UInt8) (rest t : Bytes) (h : Letter c) (hr : plain rest = some t) :
    sprintfVerb plain p (c :: rest) = some (asc "%!" ++ c :: asc "(MISSING)" ++ t) := by
  obtain ⟨h1, h2, h3, h4, h5, h6, h7⟩ := letter_not h
  have hv : ¬ (c = 42 ∨ c = 91 ∨ 128 ≤ c) := by
    rintro (h | h | h)
    · exact h2 h
    · exact h3 h
    · exact h4 h
  cases p <;> rw [sprintfVerb] <;> simp only [h1, hv, h5, h6, h7, if_false, hr, Option.map_some, Bool.false_eq_true]

theorem verb_prec (plain : Bytes → Option Bytes) (ds : Bytes) (k : Nat) (rest : Bytes) (hd : ∀ c ∈ ds, Digit c) (hk : k + ds.length ≤ 6) :
    sprintfVerb plain (.prec k) (ds ++ rest) = sprintfVerb plain (.prec (k + ds.length)) rest := by
  induction ds generalizing k with
  | nil => rfl
  | cons c ds ih =>
    rw [List.length_cons] at hk
    rw [List.cons_append, sprintfVerb]
    simp only [(digit_is (hd c (List.mem_cons_self ..))).1, if_true]
    rw [if_pos (by omega), ih (k + 1) (fun x hx => hd x (List.mem_cons_of_mem _ hx)) (by omega), List.length_cons]
    congr 2
    omega

theorem verb_width (plain : Bytes → Option Bytes) (ds : Bytes) (k : Nat) (rest : Bytes) (hd : ∀ c ∈ ds, Digit c) (hk : k + ds.length ≤ 6) :
    sprintfVerb plain (.width k) (ds ++ rest) = sprintfVerb plain (.width (k + ds.length)) rest := by
  induction ds generalizing k with
  | nil => rfl
  | cons c ds ih =>
    rw [List.length_cons] at hk
    rw [List.cons_append, sprintfVerb]
    simp only [(digit_is (hd c (List.mem_cons_self ..))).1, if_true]
    rw [if_pos (by omega), ih (k + 1) (fun x hx => hd x (List.mem_cons_of_mem _ hx)) (by omega), List.length_cons]
    congr 2
    omega

/-- C57: what becomes of other verbs in a line: flags, width and precision vanish, and the verb is reported as lacking its argument. -/
theorem percent_missing (pre flags width prec post : Bytes) (dot : Bool) (c : UInt8) (hpre : 37 ∉ pre) (hflags : ∀ c ∈ flags, c ∈ asc "#0+- ") (hwidth : ∀ c ∈ width, Digit c)
    (hfirst : width.head? ≠ some 48) (hw : width.length ≤ 6) (hprec : ∀ c ∈ prec, Digit c) (hp : prec.length ≤ 6)
    (hc : Letter c) (hpost : 37 ∉ post) :
    sprintf0 (pre ++ 37 :: flags ++ width ++ (if dot then 46 :: prec else []) ++ c :: post) = some (pre ++ asc "%!" ++ c :: asc "(MISSING)" ++ post) := by
  have hplain : ∀ n, sprintfPlain (n + 1) post = some post := fun n => sprintfPlain_plain n post hpost
  -- the precision and the verb
  have hend : ∀ n p, sprintfVerb (sprintfPlain (n + 1)) p ((if dot then 46 :: prec else []) ++ c :: post) = some (asc "%!" ++ c :: asc "(MISSING)" ++ post) ∨ (∃ k, p = .prec k) := by
    intro n p
    cases hd : dot with
    | false =>
      left
      simp only [Bool.false_eq_true, if_false, List.nil_append]
      exact verb_letter _ p c post post hc (hplain n)
    | true =>
      cases p with
      | prec k => exact .inr ⟨k, rfl⟩
      | flags =>
        left
        simp only [if_true, List.cons_append]
        rw [sprintfVerb]
        simp only [if_true]
        rw [if_neg (by decide), if_neg (by decide), verb_prec _ prec 0 _ hprec (by omega)]
        exact verb_letter _ _ c post post hc (hplain n)
      | width k =>
        left
        simp only [if_true, List.cons_append]
        rw [sprintfVerb]
        simp only [if_true]
        rw [if_neg (by decide), verb_prec _ prec 0 _ hprec (by omega)]
        exact verb_letter _ _ c post post hc (hplain n)
  have hwid : ∀ n, sprintfVerb (sprintfPlain (n + 1)) .flags (width ++ ((if dot then 46 :: prec else []) ++ c :: post)) = some (asc "%!" ++ c :: asc "(MISSING)" ++ post) := by
    intro n
    cases width with
    | nil => exact (hend n .flags).resolve_right (by rintro ⟨k, h⟩; cases h)
    | cons d ds =>
      have hd := hwidth d (List.mem_cons_self ..)
      have hne : d ≠ 48 := fun e => hfirst (by rw [e]; rfl)
      have hnf : ¬ (d = 35 ∨ d = 48 ∨ d = 43 ∨ d = 45 ∨ d = 32) := by
        have hall : ∀ d ∈ asc "0123456789", d ≠ 48 → ¬ (d = 35 ∨ d = 48 ∨ d = 43 ∨ d = 45 ∨ d = 32) := by decide +kernel
        exact hall d hd hne
      rw [List.length_cons] at hw
      rw [List.cons_append, sprintfVerb]
      rw [if_neg hnf]
      simp only [(digit_is hd).1, if_true]
      rw [verb_width _ ds 1 _ (fun x hx => hwidth x (List.mem_cons_of_mem _ hx)) (by omega)]
      exact (hend n _).resolve_right (by rintro ⟨k, h⟩; cases h)
  have hfl : ∀ n (fl : Bytes), (∀ c ∈ fl, c ∈ asc "#0+- ") →
      sprintfVerb (sprintfPlain (n + 1)) .flags (fl ++ (width ++ ((if dot then 46 :: prec else []) ++ c :: post))) = some (asc "%!" ++ c :: asc "(MISSING)" ++ post) := by
    intro n fl
    induction fl with
    | nil => intro _; exact hwid n
    | cons d fl ih =>
      intro h
      have hd : d = 35 ∨ d = 48 ∨ d = 43 ∨ d = 45 ∨ d = 32 := by
        have hall : ∀ d ∈ asc "#0+- ", d = 35 ∨ d = 48 ∨ d = 43 ∨ d = 45 ∨ d = 32 := by decide +kernel
        exact hall d (h d (List.mem_cons_self ..))
      rw [List.cons_append, sprintfVerb]
      rw [if_pos hd]
      exact ih fun x hx => h x (List.mem_cons_of_mem _ hx)
  have e : pre ++ 37 :: flags ++ width ++ (if dot then 46 :: prec else []) ++ c :: post =
      pre ++ 37 :: (flags ++ (width ++ ((if dot then 46 :: prec else []) ++ c :: post))) := by simp
  rw [e]
  unfold sprintf0
  have hall : ∀ x ∈ pre, (decide (x ≠ 37)) = true := by
    intro x hx
    simp only [ne_eq, decide_not, Bool.not_eq_eq_eq_not, Bool.not_true, decide_eq_false_iff_not]
    rintro rfl
    exact hpre hx
  obtain ⟨e1, e2⟩ := span_append (fun c => decide (c ≠ 37)) pre (37 :: (flags ++ (width ++ ((if dot then 46 :: prec else []) ++ c :: post)))) hall (by simp)
  obtain ⟨m, hm⟩ : ∃ m, (pre ++ 37 :: (flags ++ (width ++ ((if dot then 46 :: prec else []) ++ c :: post)))).length = m + 1 := ⟨_, by simp only [List.length_append, List.length_cons]; rfl⟩
  rw [hm, sprintfPlain, e1, e2]
  show (sprintfVerb (sprintfPlain (m + 1)) .flags _).map _ = _
  rw [hfl m flags hflags]
  simp

example : sprintf0 (asc "+at %-08.10s\n") = some (asc "+at %!s(MISSING)\n") :=
  percent_missing (asc "+at ") (asc "-0") (asc "8") (asc "10") (asc "\n") true 115 (by decide) (by decide) (by unfold Digit; decide) (by decide) (by decide) (by unfold Digit; decide) (by decide)
    (by unfold Letter; decide) (by decide)

/-- C57: a percent sign at the very end, as in a last line without line end, is reported as lacking its verb. -/
theorem percent_last (pre : Bytes) (hpre : 37 ∉ pre) : sprintf0 (pre ++ [37]) = some (pre ++ asc "%!(NOVERB)") := by
  have e1 : ∀ pre : Bytes, 37 ∉ pre → (pre ++ [37]).takeWhile (· ≠ 37) = pre := by
    intro pre h
    induction pre with
    | nil => rfl
    | cons c pre ih => simp_all [List.takeWhile_cons]; intro h'; exact absurd h'.symm h.1
  have e2 : ∀ pre : Bytes, 37 ∉ pre → (pre ++ [37]).dropWhile (· ≠ 37) = [37] := by
    intro pre h
    induction pre with
    | nil => rfl
    | cons c pre ih => simp_all [List.dropWhile_cons]; intro h'; exact absurd h'.symm h.1
  unfold sprintf0
  rw [sprintfPlain, e1 pre hpre, e2 pre hpre]
  rfl

example : sprintf0 (asc "+100%") = some (asc "+100%!(NOVERB)") := percent_last (asc "+100") (by decide)

/-- No diff means equal lines. -/
theorem unified_diff_empty (d : UnifiedDiff) (hlines : ∀ l, l ∈ d.A ∨ l ∈ d.B → IsLine l ∧ 37 ∉ l)
    (h1 : 10 ∉ d.FromFile) (h2 : 10 ∉ d.FromDate) (h3 : 10 ∉ d.ToFile) (h4 : 10 ∉ d.ToDate)
    (heol : d.Eol = [] ∨ d.Eol = asc "\n") (h : unifiedDiff d = some []) : d.A = d.B := by
  obtain ⟨text, e1, e2⟩ := unified_diff_partial d hlines h1 h2 h3 h4 heol
  rw [h] at e1
  injection e1 with e1
  subst e1
  injection e2

/-! ### C58 -/

theorem splitAfter_spec : ∀ s : Bytes, ∃ init last, splitAfter s = init ++ [last] ∧ init.flatten ++ last = s ∧
    (∀ l ∈ init, IsLine l) ∧ 10 ∉ last := by
  intro s
  induction s with
  | nil => exact ⟨[], [], rfl, rfl, by simp, by simp⟩
  | cons c s ih =>
    obtain ⟨init, last, h1, h2, h3, h4⟩ := ih
    rw [splitAfter]
    by_cases hc : c = 10
    · subst hc
      rw [if_pos rfl, h1]
      refine ⟨[10] :: init, last, rfl, by simp [h2], ?_, h4⟩
      intro l hl
      rcases List.mem_cons.mp hl with rfl | hl
      · exact ⟨[], rfl, by simp⟩
      · exact h3 l hl
    · rw [if_neg hc, h1]
      cases init with
      | nil =>
        refine ⟨[], c :: last, rfl, by simp at h2; simp [h2], by simp, ?_⟩
        simp only [List.mem_cons, not_or]
        exact ⟨Ne.symm hc, h4⟩
      | cons l init =>
        refine ⟨(c :: l) :: init, last, rfl, by simp at h2; simp [h2], ?_, h4⟩
        intro x hx
        rcases List.mem_cons.mp hx with rfl | hx
        · exact (h3 l (List.mem_cons_self ..)).prepend [c] (by simpa using Ne.symm hc)
        · exact h3 x (List.mem_cons_of_mem _ hx)

/-- C58: joined, the lines of every text are the text and one line feed; every line ends
with its only line feed. -/
theorem split_lines (s : Bytes) : (splitLines s).flatten = s ++ asc "\n" ∧ (∀ l ∈ splitLines s, IsLine l) := by
  obtain ⟨init, last, h1, h2, h3, h4⟩ := splitAfter_spec s
  have e : splitLines s = init ++ [last ++ asc "\n"] := by
    unfold splitLines
    simp [h1]
  rw [e]
  constructor
  · rw [List.flatten_append, ← h2]
    simp
  · intro l hl
    rcases List.mem_append.mp hl with hl | hl
    · exact h3 l hl
    · simp only [List.mem_singleton] at hl
      subst hl
      exact ⟨last, rfl, h4⟩

example : splitLines (asc "a\n\nb") = [asc "a\n", asc "\n", asc "b\n"] := by decide +kernel

/-- C57 for whole texts: the diff of two texts without percent signs, applied to the lines of
the first, gives the lines of the second. -/
theorem text_diff_partial (x y : Bytes) (hx : 37 ∉ x) (hy : 37 ∉ y) (n : Int) :
    ∃ text, unifiedDiff ⟨splitLines x, asc "Expected", [], splitLines y, asc "Actual", [], [], n⟩ = some text ∧
      patch (splitLines x) text = some (splitLines y) := by
  have hp : ∀ z : Bytes, 37 ∉ z → ∀ l ∈ splitLines z, 37 ∉ l := by
    intro z hz l hl h
    have : (37 : UInt8) ∈ (splitLines z).flatten := List.mem_flatten.mpr ⟨l, hl, h⟩
    rw [(split_lines z).1, List.mem_append] at this
    rcases this with h | h
    · exact hz h
    · revert h; decide
  refine unified_diff_partial ⟨splitLines x, asc "Expected", [], splitLines y, asc "Actual", [], [], n⟩ ?_
    (show 10 ∉ asc "Expected" by decide) (show 10 ∉ [] by decide) (show 10 ∉ asc "Actual" by decide)
    (show 10 ∉ [] by decide) (Or.inl rfl)
  rintro l (hl | hl)
  · exact ⟨(split_lines x).2 l hl, hp x hx l hl⟩
  · exact ⟨(split_lines y).2 l hl, hp y hy l hl⟩

end Verif.Difflib
