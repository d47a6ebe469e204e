import Verif.Assert.Collections

/-!
# C96 and C97: panics, errors, and the text of a failure

Model of `Panics`, `PanicsWithValue`, `NotPanics`, `NoError`, `Error`, `EqualError` and of `Fail` with `labeledOutput` in
test/testify/assert/assertions.go.
-/

namespace Verif.Assert

/-! ### Model -/

/-- What a function does when it is called (assertions.go 782).  Simplified: `runtime.Goexit` is left out. -/
inductive Call where
  | returns
  | panics (v : Option V)

/-- `didPanic`, assertions.go 769-788: what `recover` gives decides (776), which is nil after `panic(nil)` in the versions of Go this
code is written for. -/
def didPanic : Call → Bool × Option V
  | .returns => (false, none)
  | .panics none => (false, none)
  | .panics (some v) => (true, some v)

/-- `Panics`, assertions.go 793-800. -/
def panics (msgOk : Bool) (f : Call) : Outcome := if !(didPanic f).1 then fail msgOk else .ret true false

/-- `NotPanics`, assertions.go 822-829. -/
def notPanics (msgOk : Bool) (f : Call) : Outcome := if (didPanic f).1 then fail msgOk else .ret true false

mutual

/-- Go's `==` on interfaces (assertions.go 812); `none` is a panic because the type cannot be compared.  Simplified: fields and
elements are compared in order; an empty array of things that cannot be compared can be. -/
def goEq : V → V → Option Bool
  | .bool i a, .bool j b => some (i == j && a == b)
  | .int k i a, .int l j b => some (k == l && i == j && a == b)
  | .float k i a, .float l j b => some (k == l && i == j && a.eq b)
  | .str i a, .str j b => some (i == j && a == b)
  | .chan i a _, .chan j b _ => some (i == j && a == b)
  | .uptr i a, .uptr j b => some (i == j && a == b)
  | .ptr i a _, .ptr j b _ => some (i == j && a == b)
  | .func i _, .func j _ => if i = j then none else some false
  | .slice i _ _, .slice j _ _ => if i = j then none else some false
  | .map i _ _, .map j _ _ => if i = j then none else some false
  | .array i vs, .array j ws => if i = j then goEqs vs ws else some false
  | .struct i vs, .struct j ws => if i = j then goEqs vs ws else some false
  | .nilIface i, .nilIface j => some (i == j)
  | .iface i v, .iface j w => if i = j then goEq v w else some false
  | _, _ => some false

/-- Go's `==` (assertions.go 812), element by element. -/
def goEqs : Vs → Vs → Option Bool
  | .nil, .nil => some true
  | .cons v vs, .cons w ws =>
    match goEq v w with
    | some true => goEqs vs ws
    | o => o
  | _, _ => some false

end

/-- Go's `==` with nil (assertions.go 812). -/
def ifaceEq : Option V → Option V → Option Bool
  | none, none => some true
  | some v, some w => goEq v w
  | _, _ => some false

/-- `PanicsWithValue`, assertions.go 806-817. -/
def panicsWithValue (msgOk : Bool) (expected : Option V) (f : Call) : Outcome :=
  if !(didPanic f).1 then fail msgOk
  else
    match ifaceEq (didPanic f).2 expected with
    | none => .panic
    | some false => fail msgOk
    | some true => .ret true false

/-- An error: nil, or what `Error` returns (assertions.go 1064). -/
abbrev Err := Option Bytes

/-- `NoError`, assertions.go 1031-1037. -/
def noError (msgOk : Bool) (err : Err) : Outcome := if err ≠ none then fail msgOk else .ret true false

/-- `Error`, assertions.go 1045-1052. -/
def assertError (msgOk : Bool) (err : Err) : Outcome := if err = none then fail msgOk else .ret true false

/-- `EqualError`, assertions.go 1059-1072. -/
def equalError (msgOk : Bool) (theError : Err) (errString : Bytes) : Outcome :=
  match assertError msgOk theError with
  | .panic => .panic
  | .ret false f => .ret false f
  | .ret true _ => if theError ≠ some errString then fail msgOk else .ret true false

/-- The lines `bufio.Scanner` finds before it looks at their length and at carriage returns (assertions.go 193): an empty last line
is not one. -/
def rawLines : Bytes → Bytes → List Bytes
  | [], acc => if acc = [] then [] else [acc]
  | c :: s, acc => if c = 10 then acc :: rawLines s [] else rawLines s (acc ++ [c])

/-- A carriage return at the end is dropped by `bufio.ScanLines` (assertions.go 193). -/
def dropCR (l : Bytes) : Bytes := if l.getLast? = some 13 then l.dropLast else l

/-- `bufio.Scanner` (assertions.go 193): it stops for good at a line of 65536 bytes or more. -/
def scan (message : Bytes) : List Bytes := ((rawLines message []).takeWhile fun l => l.length < 65536).map dropCR

/-- What separates the lines of a message (assertions.go 197). -/
def lineSep (longest : Nat) : Bytes := [10, 13, 9] ++ List.replicate (longest + 1) 32 ++ [9]

/-- `indentMessageLines`, assertions.go 190-203. -/
def indentMessageLines (message : Bytes) (longest : Nat) : Bytes := (lineSep longest).intercalate (scan message)

/-- One element of the output (assertions.go 266). -/
def labelLine (longest : Nat) (c : Bytes × Bytes) : Bytes :=
  [13, 9] ++ c.1 ++ [58] ++ List.replicate (longest - c.1.length) 32 ++ [9] ++ indentMessageLines c.2 longest ++ [10]

/-- The longest label (assertions.go 258-263). -/
def longestLabel : List (Bytes × Bytes) → Nat
  | [] => 0
  | c :: cs => max c.1.length (longestLabel cs)

/-- `labeledOutput`, assertions.go 257-269. -/
def labeledOutput (cs : List (Bytes × Bytes)) : Bytes := cs.flatMap (labelLine (longestLabel cs))

/-- What `Fail` reports (assertions.go 229-236), apart from the white space at its beginning. -/
def failOutput (failure message : Bytes) : Bytes :=
  labeledOutput ((asc "Error", failure) :: if message.length > 0 then [(asc "Messages", message)] else [])

/-! ### C96: panics and errors -/

/-- C96 (partly): `Panics` accepts exactly functions that panic and `NotPanics` exactly those that return, unless they panic with
nil, see `panics_nil`. -/
theorem panics_partial (f : Call) (h : f ≠ .panics none) :
    (panics true f = .ret true false ↔ ∃ v, f = .panics v) ∧ (notPanics true f = .ret true false ↔ f = .returns) ∧
    Reported (panics true f) ∧ Reported (notPanics true f) := by
  cases f with
  | returns => simp [panics, notPanics, didPanic, fail, Reported]
  | panics v =>
    cases v with
    | none => exact absurd rfl h
    | some v => simp [panics, notPanics, didPanic, fail, Reported]

example : panics true (.panics (some (.str 0 (asc "crazy error")))) = .ret true false := by decide +kernel

/-- C96 is false of `panic(nil)`. -/
theorem panics_nil : panics true (.panics none) = .ret false true ∧ notPanics true (.panics none) = .ret true false := by decide

mutual

/-- What the language calls equal: the same type, and the same content, place of pointers and channels, or elements and fields.  NaN equals nothing. -/
inductive Identical : V → V → Prop
  | bool i b : Identical (.bool i b) (.bool i b)
  | int k i n : Identical (.int k i n) (.int k i n)
  | float d i f : f ≠ .nan → Identical (.float d i f) (.float d i f)
  | str i s : Identical (.str i s) (.str i s)
  | chan i a n m : Identical (.chan i a n) (.chan i a m)
  | uptr i a : Identical (.uptr i a) (.uptr i a)
  | ptr i a v w : Identical (.ptr i a v) (.ptr i a w)
  | array i vs ws : IdenticalAll vs ws → Identical (.array i vs) (.array i ws)
  | struct i vs ws : IdenticalAll vs ws → Identical (.struct i vs) (.struct i ws)
  | nilIface i : Identical (.nilIface i) (.nilIface i)
  | iface i v w : Identical v w → Identical (.iface i v) (.iface i w)

/-- Of elements. -/
inductive IdenticalAll : Vs → Vs → Prop
  | nil : IdenticalAll .nil .nil
  | cons v vs w ws : Identical v w → IdenticalAll vs ws → IdenticalAll (.cons v vs) (.cons w ws)

end

mutual

/-- Values that the language can compare: no functions, slices and maps in them. -/
inductive Comparable : V → Prop
  | bool i b : Comparable (.bool i b)
  | int k i n : Comparable (.int k i n)
  | float d i f : Comparable (.float d i f)
  | str i s : Comparable (.str i s)
  | chan i a n : Comparable (.chan i a n)
  | uptr i a : Comparable (.uptr i a)
  | ptr i a v : Comparable (.ptr i a v)
  | array i vs : ComparableAll vs → Comparable (.array i vs)
  | struct i vs : ComparableAll vs → Comparable (.struct i vs)
  | nilIface i : Comparable (.nilIface i)
  | iface i v : Comparable v → Comparable (.iface i v)

/-- Of elements. -/
inductive ComparableAll : Vs → Prop
  | nil : ComparableAll .nil
  | cons v vs : Comparable v → ComparableAll vs → ComparableAll (.cons v vs)

end

mutual

theorem goEq_identical : ∀ (v w : V), Comparable w → goEq v w = some true ∧ Identical v w ∨ goEq v w = some false ∧ ¬Identical v w
  | .bool i b, w, hw => by
    cases hw <;> first | exact .inr ⟨rfl, fun h => (nomatch h)⟩ | skip
    rename_i j c
    by_cases h : i = j ∧ b = c
    · obtain ⟨rfl, rfl⟩ := h
      exact .inl ⟨by simp [goEq], .bool _ _⟩
    · exact .inr ⟨by simpa [goEq] using h, fun hs => by cases hs; exact h ⟨rfl, rfl⟩⟩
  | .int k i n, w, hw => by
    cases hw <;> first | exact .inr ⟨rfl, fun h => (nomatch h)⟩ | skip
    rename_i l j m
    by_cases h : (k = l ∧ i = j) ∧ n = m
    · obtain ⟨⟨rfl, rfl⟩, rfl⟩ := h
      exact .inl ⟨by simp [goEq], .int _ _ _⟩
    · exact .inr ⟨by simpa [goEq] using h, fun hs => by cases hs; exact h ⟨⟨rfl, rfl⟩, rfl⟩⟩
  | .float k i b, w, hw => by
    cases hw <;> first | exact .inr ⟨rfl, fun h => (nomatch h)⟩ | skip
    rename_i l j c
    by_cases hb : b = .nan
    · subst hb
      exact .inr ⟨by simp [goEq, Fl.eq], fun hs => by cases hs; contradiction⟩
    · by_cases h : (k = l ∧ i = j) ∧ b = c
      · obtain ⟨⟨rfl, rfl⟩, rfl⟩ := h
        exact .inl ⟨by simp [goEq, Fl.eq, hb], .float _ _ _ hb⟩
      · exact .inr ⟨by simpa [goEq, Fl.eq, hb] using h, fun hs => by cases hs; exact h ⟨⟨rfl, rfl⟩, rfl⟩⟩
  | .str i b, w, hw => by
    cases hw <;> first | exact .inr ⟨rfl, fun h => (nomatch h)⟩ | skip
    rename_i j c
    by_cases h : i = j ∧ b = c
    · obtain ⟨rfl, rfl⟩ := h
      exact .inl ⟨by simp [goEq], .str _ _⟩
    · exact .inr ⟨by simpa [goEq] using h, fun hs => by cases hs; exact h ⟨rfl, rfl⟩⟩
  | .chan i b n, w, hw => by
    cases hw <;> first | exact .inr ⟨rfl, fun h => (nomatch h)⟩ | skip
    rename_i j c m
    by_cases h : i = j ∧ b = c
    · obtain ⟨rfl, rfl⟩ := h
      exact .inl ⟨by simp [goEq], .chan _ _ _ _⟩
    · exact .inr ⟨by simpa [goEq] using h, fun hs => by cases hs; exact h ⟨rfl, rfl⟩⟩
  | .uptr i b, w, hw => by
    cases hw <;> first | exact .inr ⟨rfl, fun h => (nomatch h)⟩ | skip
    rename_i j c
    by_cases h : i = j ∧ b = c
    · obtain ⟨rfl, rfl⟩ := h
      exact .inl ⟨by simp [goEq], .uptr _ _⟩
    · exact .inr ⟨by simpa [goEq] using h, fun hs => by cases hs; exact h ⟨rfl, rfl⟩⟩
  | .ptr i b v, w, hw => by
    cases hw <;> first | exact .inr ⟨rfl, fun h => (nomatch h)⟩ | skip
    rename_i j c u
    by_cases h : i = j ∧ b = c
    · obtain ⟨rfl, rfl⟩ := h
      exact .inl ⟨by simp [goEq], .ptr _ _ _ _⟩
    · exact .inr ⟨by simpa [goEq] using h, fun hs => by cases hs; exact h ⟨rfl, rfl⟩⟩
  | .func i a, w, hw => by cases hw <;> exact .inr ⟨rfl, fun h => (nomatch h)⟩
  | .slice i a vs, w, hw => by cases hw <;> exact .inr ⟨rfl, fun h => (nomatch h)⟩
  | .map i a es, w, hw => by cases hw <;> exact .inr ⟨rfl, fun h => (nomatch h)⟩
  | .nilIface i, w, hw => by
    cases hw <;> first | exact .inr ⟨rfl, fun h => (nomatch h)⟩ | skip
    rename_i j
    by_cases h : i = j
    · subst h
      exact .inl ⟨by simp [goEq], .nilIface _⟩
    · exact .inr ⟨by simpa [goEq] using h, fun hs => by cases hs; exact h rfl⟩
  | .array i vs, w, hw => by
    cases hw with
    | array j ws hws =>
      by_cases h : i = j
      · subst h
        rcases goEqs_identical vs ws hws with ⟨h1, h2⟩ | ⟨h1, h2⟩
        · exact .inl ⟨by simp [goEq, h1], .array _ _ _ h2⟩
        · exact .inr ⟨by simp [goEq, h1], fun hs => by cases hs; exact h2 (by assumption)⟩
      · exact .inr ⟨by simp [goEq, h], fun hs => by cases hs; exact h rfl⟩
    | _ => exact .inr ⟨rfl, fun h => (nomatch h)⟩
  | .struct i vs, w, hw => by
    cases hw with
    | struct j ws hws =>
      by_cases h : i = j
      · subst h
        rcases goEqs_identical vs ws hws with ⟨h1, h2⟩ | ⟨h1, h2⟩
        · exact .inl ⟨by simp [goEq, h1], .struct _ _ _ h2⟩
        · exact .inr ⟨by simp [goEq, h1], fun hs => by cases hs; exact h2 (by assumption)⟩
      · exact .inr ⟨by simp [goEq, h], fun hs => by cases hs; exact h rfl⟩
    | _ => exact .inr ⟨rfl, fun h => (nomatch h)⟩
  | .iface i v, w, hw => by
    cases hw with
    | iface j w hw =>
      by_cases h : i = j
      · subst h
        rcases goEq_identical v w hw with ⟨h1, h2⟩ | ⟨h1, h2⟩
        · exact .inl ⟨by simp [goEq, h1], .iface _ _ _ h2⟩
        · exact .inr ⟨by simp [goEq, h1], fun hs => by cases hs; exact h2 (by assumption)⟩
      · exact .inr ⟨by simp [goEq, h], fun hs => by cases hs; exact h rfl⟩
    | _ => exact .inr ⟨rfl, fun h => (nomatch h)⟩

theorem goEqs_identical : ∀ (vs ws : Vs), ComparableAll ws → goEqs vs ws = some true ∧ IdenticalAll vs ws ∨ goEqs vs ws = some false ∧ ¬IdenticalAll vs ws
  | .nil, .nil, _ => .inl ⟨rfl, .nil⟩
  | .nil, .cons _ _, _ => .inr ⟨rfl, fun h => (nomatch h)⟩
  | .cons _ _, .nil, _ => .inr ⟨rfl, fun h => (nomatch h)⟩
  | .cons v vs, .cons w ws, hw => by
    cases hw with
    | cons _ _ h1 h2 =>
      rcases goEq_identical v w h1 with ⟨g1, g2⟩ | ⟨g1, g2⟩
      · rcases goEqs_identical vs ws h2 with ⟨k1, k2⟩ | ⟨k1, k2⟩
        · exact .inl ⟨by simp [goEqs, g1, k1], .cons _ _ _ _ g2 k2⟩
        · exact .inr ⟨by simp [goEqs, g1, k1], fun hs => by cases hs; exact k2 (by assumption)⟩
      · exact .inr ⟨by simp [goEqs, g1], fun hs => by cases hs; exact g2 (by assumption)⟩

end

/-- C96 (partly): with a value that the language can compare, `PanicsWithValue` accepts exactly functions that panic with a value equal to it in the sense of the
language.  Missing: pointers to equal values, which `Equal` accepts (`panicsWithValue_pointer`), and values that cannot be compared (`panicsWithValue_slice`). -/
theorem panicsWithValue_partial (e : V) (f : Call) (he : Comparable e) :
    ((∃ v, f = .panics (some v) ∧ Identical v e) → panicsWithValue true (some e) f = .ret true false) ∧
    ((¬∃ v, f = .panics (some v) ∧ Identical v e) → panicsWithValue true (some e) f = .ret false true) := by
  constructor
  · rintro ⟨v, rfl, hs⟩
    rcases goEq_identical v e he with ⟨h, _⟩ | ⟨_, h⟩
    · simp [panicsWithValue, didPanic, ifaceEq, h]
    · exact absurd hs h
  · intro hn
    cases f with
    | returns => rfl
    | panics v =>
      cases v with
      | none => rfl
      | some v =>
        rcases goEq_identical v e he with ⟨_, h⟩ | ⟨h, _⟩
        · exact absurd ⟨v, rfl, h⟩ hn
        · simp [panicsWithValue, didPanic, ifaceEq, h, fail]

example : Comparable (.struct 3 (.cons (.ptr 1 5 (.int .int 0 1)) (.cons (.str 0 (asc "a")) .nil))) :=
  .struct _ _ (.cons _ _ (.ptr _ _ _) (.cons _ _ (.str _ _) .nil))

example : panicsWithValue true (some (.str 0 (asc "crazy error"))) (.panics (some (.str 0 (asc "crazy error")))) = .ret true false ∧
    panicsWithValue true (some (.int .int 0 1)) (.panics (some (.int .int8 0 1))) = .ret false true := by decide +kernel

/-- C96: with nil expected, every function is reported, and a function that panics with nil always is. -/
theorem panicsWithValue_nil (v : V) : panicsWithValue true none (.panics (some v)) = .ret false true ∧ panicsWithValue true none .returns = .ret false true ∧
    panicsWithValue true none (.panics none) = .ret false true ∧ panicsWithValue true (some v) (.panics none) = .ret false true := ⟨rfl, rfl, rfl, rfl⟩

/-- C96: pointers must be identical, unlike in `Equal`. -/
theorem panicsWithValue_pointer (i a b : Nat) (v w : V) (h : a ≠ b) : panicsWithValue true (some (.ptr i a v)) (.panics (some (.ptr i b w))) = .ret false true := by
  have : (b == a) = false := by simpa using fun h' => h h'.symm
  simp [panicsWithValue, didPanic, ifaceEq, goEq, this, fail]

/-- C96 is false of slices, maps and functions: the assertion itself panics, even if the value is the expected one. -/
theorem panicsWithValue_slice (m : Bool) (i a : Nat) (vs : Vs) : panicsWithValue m (some (.slice i a vs)) (.panics (some (.slice i a vs))) = .panic := by
  simp [panicsWithValue, didPanic, ifaceEq, goEq]

/-- C96: the assertions about errors. -/
theorem errors_iff (err : Err) (s : Bytes) : (noError true err = .ret true false ↔ err = none) ∧ (assertError true err = .ret true false ↔ err ≠ none) ∧
    (equalError true err s = .ret true false ↔ err = some s) ∧
    Reported (noError true err) ∧ Reported (assertError true err) ∧ Reported (equalError true err s) := by
  cases err with
  | none => simp [noError, assertError, equalError, fail, Reported]
  | some e => by_cases h : e = s <;> simp [noError, assertError, equalError, fail, Reported, h]

/-! ### C97: the text of a failure -/

/-- Texts ended by line feeds. -/
def terminated : Bytes → Bytes → List Bytes
  | [], _ => []
  | c :: s, acc => if c = 10 then acc :: terminated s [] else terminated s (acc ++ [c])

/-- A row of the table: carriage return and tab, a column of `w` bytes, a tab, and the text. -/
def readRow (w : Nat) (l : Bytes) : Option (Bytes × Bytes) :=
  if l.take 2 = [13, 9] ∧ (l.drop (w + 2)).take 1 = [9] then some ((l.drop 2).take w, l.drop (w + 3)) else none

/-- How a reader of the table sees it. -/
def readRows (w : Nat) (s : Bytes) : List (Option (Bytes × Bytes)) := (terminated s []).map (readRow w)

/-- A line that is shown as it is. -/
def GoodLine (l : Bytes) : Prop := 10 ∉ l ∧ l.getLast? ≠ some 13 ∧ l.length < 65536

/-- The lines of a message, which does not end in a line feed. -/
def GoodLines (ls : List Bytes) : Prop := ls ≠ [] ∧ (∀ l ∈ ls, GoodLine l) ∧ (ls = [[]] ∨ ls.getLast? ≠ some [])

theorem rawLines_append : ∀ (l s acc : Bytes), 10 ∉ l → rawLines (l ++ s) acc = rawLines s (acc ++ l) := by
  intro l
  induction l with
  | nil => intro s acc _; simp
  | cons c l ih =>
    intro s acc h
    have hc : c ≠ 10 := fun e => h (e ▸ List.mem_cons_self ..)
    rw [List.cons_append, rawLines, if_neg hc, ih s _ (fun h' => h (List.mem_cons_of_mem _ h'))]
    simp

theorem intercalate_cons (sep a b : Bytes) (ls : List Bytes) : sep.intercalate (a :: b :: ls) = a ++ (sep ++ sep.intercalate (b :: ls)) := by
  simp [List.intercalate, List.intersperse]

theorem rawLines_lines : ∀ ls : List Bytes, (∀ l ∈ ls, 10 ∉ l) → ls ≠ [] → ls.getLast? ≠ some [] → rawLines (([10] : Bytes).intercalate ls) [] = ls := by
  intro ls
  induction ls with
  | nil => intro _ h; exact absurd rfl h
  | cons a ls ih =>
    intro h _ hlast
    cases ls with
    | nil =>
      have ha : a ≠ [] := by simpa using hlast
      have := rawLines_append a [] [] (h a (List.mem_cons_self ..))
      simp only [List.append_nil, List.nil_append] at this
      simp [List.intercalate, this, rawLines, ha]
    | cons b ls =>
      rw [intercalate_cons, rawLines_append a _ [] (h a (List.mem_cons_self ..)), List.nil_append]
      show rawLines (10 :: ([10] : Bytes).intercalate (b :: ls)) a = _
      rw [rawLines, if_pos rfl, ih (fun l hl => h l (List.mem_cons_of_mem _ hl)) (by simp) (by simpa using hlast)]

/-- A message without surprises is shown line by line. -/
theorem indent_lines (ls : List Bytes) (w : Nat) (h : GoodLines ls) :
    indentMessageLines (([10] : Bytes).intercalate ls) w = (lineSep w).intercalate ls := by
  obtain ⟨hne, hg, hl⟩ := h
  unfold indentMessageLines scan
  rcases hl with rfl | hl
  · rfl
  · rw [rawLines_lines ls (fun l hl => (hg l hl).1) hne hl]
    have h1 : (ls.takeWhile fun l => decide (l.length < 65536)) = ls := by
      have := List.takeWhile_append_of_pos (l₂ := []) (fun k hk => decide_eq_true (hg k hk).2.2 : ∀ k ∈ ls, decide (k.length < 65536) = true)
      simpa using this
    rw [h1]
    have h2 : ls.map dropCR = ls := by
      conv_rhs => rw [← List.map_id ls]
      apply List.map_congr_left
      intro l hm
      unfold dropCR
      rw [if_neg (hg l hm).2.1]
      rfl
    rw [h2]

theorem terminated_append : ∀ (l s acc : Bytes), 10 ∉ l → terminated (l ++ 10 :: s) acc = (acc ++ l) :: terminated s [] := by
  intro l
  induction l with
  | nil => intro s acc _; simp [terminated]
  | cons c l ih =>
    intro s acc h
    have hc : c ≠ 10 := fun e => h (e ▸ List.mem_cons_self ..)
    rw [List.cons_append, terminated, if_neg hc, ih s _ (fun h' => h (List.mem_cons_of_mem _ h'))]
    simp

theorem readRow_row (col text : Bytes) (w : Nat) (h : col.length = w) : readRow w ([13, 9] ++ col ++ [9] ++ text) = some (col, text) := by
  unfold readRow
  have e1 : List.drop (w + 2) ([13, 9] ++ col ++ [9] ++ text) = 9 :: text := by
    rw [show ([13, 9] : Bytes) ++ col ++ [9] ++ text = ([13, 9] ++ col) ++ (9 :: text) by simp]
    rw [List.drop_left' (by simp [h])]
  have e2 : List.drop (w + 3) ([13, 9] ++ col ++ [9] ++ text) = text := by
    rw [List.drop_left' (by simp [h])]
  rw [if_pos ⟨by simp, by rw [e1]; rfl⟩, e2]
  congr 2
  rw [show ([13, 9] : Bytes) ++ col ++ [9] ++ text = [13, 9] ++ (col ++ ([9] ++ text)) by simp, List.drop_left' (by simp), List.take_left' h]

/-- The rows of a text with its label. -/
def labelRows (w : Nat) (label : Bytes) (ls : List Bytes) : List (Option (Bytes × Bytes)) :=
  (ls.head?.map fun l => some (label, l)).toList ++ ls.tail.map fun l => some (List.replicate w 32, l)

theorem rows_lines (w : Nat) : ∀ (ls : List Bytes) (col s : Bytes), ls ≠ [] → (∀ l ∈ ls, 10 ∉ l) → col.length = w + 1 → 10 ∉ col →
    readRows (w + 1) ([13, 9] ++ col ++ [9] ++ (lineSep w).intercalate ls ++ 10 :: s) = labelRows (w + 1) col ls ++ readRows (w + 1) s := by
  intro ls
  induction ls with
  | nil => intro _ _ h; exact absurd rfl h
  | cons a ls ih =>
    intro col s _ h hc hn
    have ha : 10 ∉ ([13, 9] ++ col ++ [9] ++ a : Bytes) := by
      simp only [List.mem_append, not_or]
      exact ⟨⟨⟨by decide, hn⟩, by decide⟩, h a (List.mem_cons_self ..)⟩
    cases ls with
    | nil =>
      have e : (lineSep w).intercalate [a] = a := by simp [List.intercalate]
      rw [e]
      unfold readRows
      rw [terminated_append _ s [] ha, List.nil_append, List.map_cons, readRow_row col a _ hc]
      rfl
    | cons b ls =>
      rw [intercalate_cons]
      have e : [13, 9] ++ col ++ [9] ++ (a ++ (lineSep w ++ (lineSep w).intercalate (b :: ls))) ++ 10 :: s =
          ([13, 9] ++ col ++ [9] ++ a) ++ 10 :: ([13, 9] ++ List.replicate (w + 1) 32 ++ [9] ++ (lineSep w).intercalate (b :: ls) ++ 10 :: s) := by
        simp [lineSep]
      have hi := ih (List.replicate (w + 1) 32) s (by simp) (fun l hl => h l (List.mem_cons_of_mem _ hl)) (by simp)
        (fun h' => by have := List.eq_of_mem_replicate h'; revert this; decide)
      rw [e]
      unfold readRows at hi ⊢
      rw [terminated_append _ _ [] ha, List.nil_append, List.map_cons, hi, readRow_row col a _ hc]
      simp [labelRows]

theorem failOutput_message (failure message : Bytes) (h : message ≠ []) :
    failOutput failure message = [13, 9] ++ asc "Error:   " ++ [9] ++ indentMessageLines failure 8 ++ 10 ::
      ([13, 9] ++ asc "Messages:" ++ [9] ++ indentMessageLines message 8 ++ 10 :: []) := by
  unfold failOutput
  rw [if_pos (List.length_pos_of_ne_nil h)]
  unfold labeledOutput
  have hl : longestLabel [(asc "Error", failure), (asc "Messages", message)] = 8 := rfl
  rw [hl]
  have l1 : asc "Error:   " = asc "Error" ++ [58] ++ List.replicate (8 - (asc "Error").length) 32 := by decide +kernel
  have l2 : asc "Messages:" = asc "Messages" ++ [58] ++ List.replicate (8 - (asc "Messages").length) 32 := by decide +kernel
  rw [l1, l2]
  simp only [List.flatMap_cons, List.flatMap_nil, labelLine, List.append_assoc, List.nil_append, List.append_nil, List.cons_append]

theorem failOutput_none (failure : Bytes) :
    failOutput failure [] = [13, 9] ++ asc "Error:" ++ [9] ++ indentMessageLines failure 5 ++ 10 :: [] := by
  unfold failOutput labeledOutput
  have hl : longestLabel ((asc "Error", failure) :: if ([] : Bytes).length > 0 then [(asc "Messages", [])] else []) = 5 := rfl
  rw [hl, if_neg (by simp)]
  have l1 : asc "Error:" = asc "Error" ++ [58] ++ List.replicate (5 - (asc "Error").length) 32 := by decide +kernel
  rw [l1]
  simp only [List.flatMap_cons, List.flatMap_nil, labelLine, List.append_assoc, List.nil_append, List.append_nil, List.cons_append]

/-- C97 (partly): the rows of the report are the lines of the failure beside "Error:", and those of the message beside "Messages:"
if there is one, provided that no line is longer than 65535 bytes or ends in a carriage return, and no text ends in a line feed.
Missing: all other texts, see `report_long` and `report_cr`. -/
theorem report_partial (fs ms : List Bytes) (hf : GoodLines fs) (hm : GoodLines ms) :
    (ms ≠ [[]] → readRows 9 (failOutput (([10] : Bytes).intercalate fs) (([10] : Bytes).intercalate ms)) =
      labelRows 9 (asc "Error:   ") fs ++ labelRows 9 (asc "Messages:") ms) ∧
    readRows 6 (failOutput (([10] : Bytes).intercalate fs) []) = labelRows 6 (asc "Error:") fs := by
  constructor
  · intro h
    have hne : ([10] : Bytes).intercalate ms ≠ [] := by
      obtain ⟨hne, _, hl⟩ := hm
      rcases hl with hl | hl
      · exact absurd hl h
      · cases ms with
        | nil => exact absurd rfl hne
        | cons a ms =>
          cases ms with
          | nil => simpa [List.intercalate] using hl
          | cons b ms => rw [intercalate_cons]; simp
    rw [failOutput_message _ _ hne, indent_lines fs 8 hf, indent_lines ms 8 hm,
      rows_lines 8 fs _ _ hf.1 (fun l hl => (hf.2.1 l hl).1) (by decide +kernel) (by decide +kernel),
      rows_lines 8 ms _ _ hm.1 (fun l hl => (hm.2.1 l hl).1) (by decide +kernel) (by decide +kernel)]
    simp [readRows, terminated]
  · rw [failOutput_none, indent_lines fs 5 hf, rows_lines 5 fs _ _ hf.1 (fun l hl => (hf.2.1 l hl).1) (by decide +kernel) (by decide +kernel)]
    simp [readRows, terminated]

/-- Lines meeting the hypotheses, one of them empty. -/
example : GoodLines [asc "Not equal: ", [], asc "actual  : 1"] := by
  refine ⟨by simp, ?_, ?_⟩
  · intro l hl
    simp only [List.mem_cons, List.not_mem_nil, or_false] at hl
    rcases hl with rfl | rfl | rfl <;> exact ⟨by decide +kernel, by decide +kernel, by decide +kernel⟩
  · exact .inr (by decide +kernel)

/-- C97 is false of long lines: from a line of 65536 bytes on, the text is missing from the report. -/
theorem report_long (l rest : Bytes) (w : Nat) (hn : 10 ∉ l) (hl : 65536 ≤ l.length) (ls : List Bytes) (h : ∀ k ∈ ls, GoodLine k) :
    indentMessageLines (l ++ 10 :: rest) w = [] ∧
    indentMessageLines (([10] : Bytes).intercalate (ls ++ [l])) w = (lineSep w).intercalate ls := by
  have hlne : l ≠ [] := by rintro rfl; simp at hl
  constructor
  · unfold indentMessageLines scan
    rw [rawLines_append l _ [] hn, List.nil_append, rawLines, if_pos rfl, List.takeWhile_cons_of_neg (by simpa using hl)]
    rfl
  · unfold indentMessageLines scan
    rw [rawLines_lines (ls ++ [l]) ?_ (by simp) (by simpa using hlne)]
    · have h1 : ((ls ++ [l]).takeWhile fun l => decide (l.length < 65536)) = ls := by
        rw [List.takeWhile_append_of_pos (fun k hk => decide_eq_true (h k hk).2.2), List.takeWhile_cons_of_neg (by simpa using hl)]
        simp
      rw [h1]
      have h2 : ls.map dropCR = ls := by
        conv_rhs => rw [← List.map_id ls]
        apply List.map_congr_left
        intro k hm
        unfold dropCR
        rw [if_neg (h k hm).2.1]
        rfl
      rw [h2]
    · intro k hk
      rcases List.mem_append.mp hk with hk | hk
      · exact (h k hk).1
      · rw [List.mem_singleton.mp hk]; exact hn

/-- A line that is too long. -/
example : 10 ∉ List.replicate 65536 (120 : UInt8) ∧ 65536 ≤ (List.replicate 65536 (120 : UInt8)).length := by
  constructor
  · intro h; have := List.eq_of_mem_replicate h; revert this; decide
  · rw [List.length_replicate]

/-- C97 is false of carriage returns at the end of a line and of a line feed at the end: they are missing. -/
theorem report_cr : failOutput (asc "a\r\nb") [] = failOutput (asc "a\nb") [] ∧ failOutput (asc "a\n") [] = failOutput (asc "a") [] := by decide +kernel

end Verif.Assert
