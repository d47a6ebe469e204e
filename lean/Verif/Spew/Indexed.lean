import Verif.Spew.Printf

/-!
# C150: formats that name their arguments by number

`Printf` and the like (test/go-spew/spew/spew.go 32-138, config.go 115-221) make one formatter for each argument and leave the format to package fmt, which takes
`%[2]v` for the second argument.  One formatter may so print several times, and it keeps its state.  What package fmt does with such formats is modelled here, with
arguments that have states.
-/

namespace Verif.Spew

/-! ### Model -/

/-- Arguments of `Fprintf` of package fmt (called by spew.go 92): how many, how the one at an index is printed for a directive (`none`: printing does not end) and what
becomes of the state of all, its value if it is an integer, its type (`none` for nil). -/
structure Args (σ : Type) where
  count : Nat
  arg : Direc → Nat → σ → Option (Bytes × σ)
  int : Nat → Option Int
  type : Nat → Option Bytes

/-- `argNum`, `afterIndex`, `goodArgNum` and `reordered` of `doPrintf` of package fmt (called by spew.go 92). -/
structure Cursor where
  num : Nat
  after : Bool
  good : Bool
  named : Bool
deriving DecidableEq

/-- `parseArgNumber` of package fmt (called by spew.go 92): the number in brackets, `none` if there is no proper one, and the rest of the format. -/
def bracket (s : Bytes) : Option Nat × Bytes :=
  if s.length < 3 then (none, s.tail)
  else
    let inner := s.tail.takeWhile fun c => c != 93
    let rest := s.tail.dropWhile fun c => c != 93
    if rest = [] then (none, s.tail)
    else match sizeAt inner with
      | (some m, []) => (some m, rest.tail)
      | _ => (none, rest.tail)

/-- `argNumber` of package fmt (called by spew.go 92). -/
def argNumber (count : Nat) (c : Cursor) (s : Bytes) : Cursor × Bytes :=
  if s.head? = some 91 then
    match (bracket s).1 with
    | some m =>
      if 1 ≤ m ∧ m ≤ count then ({ c with num := m - 1, after := true, named := true }, (bracket s).2)
      else ({ c with after := true, good := false, named := true }, (bracket s).2)
    | none => ({ c with after := false, good := false, named := true }, (bracket s).2)
  else ({ c with after := false }, s)

/-- `intFromArg` of package fmt (called by spew.go 92): the number if it is an integer that is not too large. -/
def intFromArg {σ : Type} (P : Args σ) (c : Cursor) : Option Int × Cursor :=
  if c.num < P.count then
    ((P.int c.num).bind fun z => if z > 1000000 ∨ z < -1000000 then none else some z, { c with num := c.num + 1, after := false })
  else (none, { c with after := false })

/-- The width of a directive in `doPrintf` of package fmt (called by spew.go 92): what is written, the directive, the variables, the rest. -/
def widthI {σ : Type} (P : Args σ) (d : Direc) (c : Cursor) (s : Bytes) : (Bytes × Direc × Cursor) × Bytes :=
  if s.head? = some 42 then
    let x := intFromArg P c
    match x.1 with
    | none => ((asc "%!(BADWIDTH)", d, x.2), s.tail)
    | some z =>
      if z < 0 then (([], { d with wid := some z.natAbs, minus := true, zero := false }, x.2), s.tail)
      else (([], { d with wid := some z.natAbs }, x.2), s.tail)
  else (([], { d with wid := (sizeAt s).1 }, { c with good := c.good && !(c.after && (sizeAt s).1.isSome) }), (sizeAt s).2)

/-- The precision of a directive in `doPrintf` of package fmt (called by spew.go 92). -/
def precI {σ : Type} (P : Args σ) (d : Direc) (c : Cursor) (s : Bytes) : (Bytes × Direc × Cursor) × Bytes :=
  if s.head? = some 46 then
    let n := argNumber P.count { c with good := c.good && !c.after } s.tail
    if n.2.head? = some 42 then
      let x := intFromArg P n.1
      match x.1 with
      | none => ((asc "%!(BADPREC)", d, x.2), n.2.tail)
      | some z => if z < 0 then ((asc "%!(BADPREC)", d, x.2), n.2.tail) else (([], { d with prec := some z.natAbs }, x.2), n.2.tail)
    else (([], { d with prec := some ((sizeAt n.2).1.getD 0) }, n.1), (sizeAt n.2).2)
  else (([], d, c), s)

/-- The verb of a directive in `doPrintf` of package fmt (called by spew.go 92). -/
def verbI {σ : Type} (P : Args σ) (d : Direc) (c : Cursor) (st : σ) : Bytes → Option (Bytes × Cursor × σ × Bytes)
  | [] => some (asc "%!(NOVERB)", c, st, [])
  | v :: r =>
    if v = 37 then some (asc "%", c, st, r)
    else if c.good = false then some (asc "%!" ++ [v] ++ asc "(BADINDEX)", c, st, r)
    else if P.count ≤ c.num then some (asc "%!" ++ [v] ++ asc "(MISSING)", c, st, r)
    else (P.arg { d with verb := v } c.num st).map fun x => (x.1, { c with num := c.num + 1 }, x.2, r)

/-- One directive behind its `%` in `doPrintf` of package fmt (called by spew.go 92).  Simplified: verbs are bytes; the short way for lower case verbs without sizes
and numbers is not kept apart, it does the same. -/
def directiveI {σ : Type} (P : Args σ) (c : Cursor) (st : σ) (s : Bytes) : Option (Bytes × Cursor × σ × Bytes) :=
  let f := readFlags ⟨false, false, false, false, false, none, none, 0⟩ s
  let a := argNumber P.count { c with good := true } f.2
  let w := widthI P f.1 a.1 a.2
  let p := precI P w.1.2.1 w.1.2.2 w.2
  let b := if p.1.2.2.after then (p.1.2.2, p.2) else argNumber P.count p.1.2.2 p.2
  (verbI P p.1.2.1 b.1 st b.2).map fun x => (w.1.1 ++ p.1.1 ++ x.1, x.2)

/-- The loop of `doPrintf` of package fmt (called by spew.go 92), with fuel. -/
def runI {σ : Type} (P : Args σ) : Nat → Cursor → σ → Bytes → Option (Bytes × Cursor × σ)
  | 0, c, st, _ => some ([], c, st)
  | _ + 1, c, st, [] => some ([], c, st)
  | n + 1, c, st, b :: s =>
    if b = 37 then (directiveI P c st s).bind fun x => (runI P n x.2.1 x.2.2.1 x.2.2.2).map fun y => (x.1 ++ y.1, y.2)
    else (runI P n c st s).map fun y => (b :: y.1, y.2)

/-- Arguments behind the last directive, at the end of `doPrintf` of package fmt (called by spew.go 92). -/
def extrasI {σ : Type} (P : Args σ) : σ → List Nat → Option (List Bytes)
  | _, [] => some []
  | st, i :: is =>
    match P.type i with
    | none => (extrasI P st is).map fun ts => asc "<nil>" :: ts
    | some ty => (P.arg plainV i st).bind fun x => (extrasI P x.2 is).map fun ts => (ty ++ asc "=" ++ x.1) :: ts

/-- `doPrintf` of package fmt (called by spew.go 92): arguments left over are told unless a number was used. -/
def sprintfI {σ : Type} (P : Args σ) (st : σ) (f : Bytes) : Option Bytes :=
  (runI P f.length ⟨0, false, true, false⟩ st f).bind fun x =>
    if x.2.1.named = true ∨ P.count ≤ x.2.1.num then some x.1
    else (extrasI P x.2.2 ((List.range P.count).drop x.2.1.num)).map fun ts => x.1 ++ asc "%!(EXTRA " ++ (asc ", ").intercalate ts ++ asc ")"

/-- The formatters of spew (`convertArgs`, spew.go 142-148), each with its state, as package fmt prints them: see `spewPrinter`.  Only `%v` changes the state
(format.go 371-390). -/
def spewArgs (E : Env) (n : Nat) (S : Printer (Option Val)) (own : Direc → Bytes) (as : List (Option Val)) : Args (Nat → St) where
  count := as.length
  arg d i σ :=
    if d.verb = 84 ∨ d.verb = 112 then some (own d, σ)
    else if d.verb = 118 then (formatOn E ⟨d.plus, d.sharp⟩ n (σ i) (as.getD i none)).map fun x => (x.1, fun j => if j = i then x.2 else σ j)
    else (sprintf S (constructOrigFormat d) [as.getD i none]).map fun t => (t, σ)
  int _ := none
  type _ := some (asc "*spew.formatState")

/-- `spew.Sprintf`, spew.go 125-127, with new formatters (format.go 394-398); `Errorf`, `Fprintf` and `Printf` (33, 57, 92) give or write the same text. -/
def spewPrintf (E : Env) (n : Nat) (S : Printer (Option Val)) (own : Direc → Bytes) (f : Bytes) (as : List (Option Val)) : Option Bytes :=
  sprintfI (spewArgs E n S own as) (fun _ => St.init) f

/-- The values themselves as arguments of package fmt (which spew.go 32-138 compare themselves with). -/
def stdArgs {α : Type} (S : Printer α) (as : List α) : Args Unit where
  count := as.length
  arg d i _ := as[i]?.bind fun a => (S.arg d a).map fun t => (t, ())
  int i := as[i]?.bind S.int
  type i := as[i]?.bind S.type

/-! ### Specification -/

/-- A decimal number. -/
inductive Numeral : Bytes → Nat → Prop
  | one {c} : 48 ≤ c ∧ c ≤ 57 → Numeral [c] (c.toNat - 48)
  | more {ds n c} : Numeral ds n → 48 ≤ c ∧ c ≤ 57 → Numeral (ds ++ [c]) (n * 10 + (c.toNat - 48))

/-- A text for a format, directive by directive.  The argument of a directive is that whose number is in brackets before the verb, otherwise the one behind that of the
directive before; `text` puts it into words; an argument that is missing or has no proper number is said to.  Parameters: the number of arguments passed by, whether
numbers were used, the format, the arguments picked (counted from zero) with their directives, the text. -/
inductive Picked {α : Type} (as : List α) (text : Direc → α → Bytes → Prop) : Nat → Bool → Bytes → List (Nat × Direc) → Bytes → Prop
  | nil {k b} : b = true ∨ as.length ≤ k → Picked as text k b [] [] []
  | lit {k b c f ps o} : c ≠ 37 → Picked as text k b f ps o → Picked as text k b (c :: f) ps (c :: o)
  | percent {k b f ps o} : Picked as text k b f ps o → Picked as text k b (37 :: 37 :: f) ps (37 :: o)
  | next {k b t v d a x f ps o} : readDirec (37 :: (t ++ [v])) = some d → IsVerb v → v ≠ 37 → as[k]? = some a → text d a x →
      Picked as text (k + 1) b f ps o → Picked as text k b (37 :: (t ++ v :: f)) ((k, d) :: ps) (x ++ o)
  | number {k b t ds m v d a x f ps o} : readDirec (37 :: (t ++ [v])) = some d → IsVerb v → v ≠ 37 → Numeral ds (m + 1) → m < 10000000 → as[m]? = some a →
      text d a x → Picked as text (m + 1) true f ps o → Picked as text k b (37 :: (t ++ (asc "[" ++ ds ++ asc "]" ++ v :: f))) ((m, d) :: ps) (x ++ o)
  | short {k b t v d f ps o} : readDirec (37 :: (t ++ [v])) = some d → IsVerb v → v ≠ 37 → as.length ≤ k →
      Picked as text k b f ps o → Picked as text k b (37 :: (t ++ v :: f)) ps (asc "%!" ++ [v] ++ asc "(MISSING)" ++ o)
  | wrong {k b t ds v d f ps o} : readDirec (37 :: (t ++ [v])) = some d → IsVerb v → v ≠ 37 → 93 ∉ ds → (∀ m, Numeral ds m → m = 0 ∨ as.length < m) →
      Picked as text k true f ps o →
      Picked as text k b (37 :: (t ++ (asc "[" ++ ds ++ asc "]" ++ v :: f))) ps (asc "%!" ++ [v] ++ asc "(BADINDEX)" ++ o)

/-- The arguments that are picked more than once for `%v` are nil, pointers, or without pointers inside, and are printed without `#`. -/
def Gentle (E : Env) (as : List (Option Val)) (ps : List (Nat × Direc)) : Prop :=
  ∀ i, (ps.filter fun p => p.1 = i ∧ p.2.verb = 118).length ≤ 1 ∨
    ((∀ d, (i, d) ∈ ps → d.verb = 118 → d.sharp = false) ∧ ∀ w, as[i]? = some (some w) → IsPtr w ∨ NoPtr E w)

/-! ### Proofs: package fmt -/

theorem numeral_digits {ds : Bytes} {m : Nat} (h : Numeral ds m) : ds ≠ [] ∧ (∀ c ∈ ds, 48 ≤ c ∧ c ≤ 57) ∧
    ds.foldl (fun n c => n * 10 + (c.toNat - 48)) 0 = m := by
  induction h with
  | one h => exact ⟨by simp, by simpa using h, by simp⟩
  | more _ h ih =>
    obtain ⟨h1, h2, h3⟩ := ih
    refine ⟨by simp, fun c hc => ?_, by rw [List.foldl_append, h3]; rfl⟩
    rcases List.mem_append.mp hc with hc | hc
    · exact h2 c hc
    · rw [List.mem_singleton.mp hc]; exact h

theorem numeral_size {ds : Bytes} {m : Nat} (h : Numeral ds m) : sizeAt ds = if m / 10 ≤ 1000000 then (some m, []) else (none, []) := by
  obtain ⟨h1, h2, h3⟩ := numeral_digits h
  have ht : ds.takeWhile (fun c : UInt8 => 48 ≤ c && c ≤ 57) = ds := by
    have := List.takeWhile_append_of_pos (p := fun c : UInt8 => 48 ≤ c && c ≤ 57) (l₁ := ds) (l₂ := []) (fun c hc => by simpa using h2 c hc)
    simpa using this
  have hd : ds.dropWhile (fun c : UInt8 => 48 ≤ c && c ≤ 57) = [] := by
    have := List.dropWhile_append_of_pos (p := fun c : UInt8 => 48 ≤ c && c ≤ 57) (l₁ := ds) (l₂ := []) (fun c hc => by simpa using h2 c hc)
    simpa using this
  unfold sizeAt Difflib.readNum
  simp only [ht, hd, if_neg h1, h3]

theorem bracket_numeral {ds : Bytes} {m : Nat} (h : Numeral ds m) (r : Bytes) :
    bracket (asc "[" ++ ds ++ asc "]" ++ r) = (if m / 10 ≤ 1000000 then some m else none, r) := by
  obtain ⟨h1, h2, _⟩ := numeral_digits h
  have h93 : ∀ c ∈ ds, (c != 93) = true := by
    intro c hc
    have := (h2 c hc).2
    simp only [bne_iff_ne]
    rintro rfl
    exact absurd this (by decide)
  have e : asc "[" ++ ds ++ asc "]" ++ r = 91 :: (ds ++ 93 :: r) := by simp [asc]
  have hl : ¬(91 :: (ds ++ 93 :: r)).length < 3 := by
    have : 0 < ds.length := List.length_pos_of_ne_nil h1
    simp only [List.length_cons, List.length_append]
    omega
  have ht : (ds ++ 93 :: r).takeWhile (fun c => c != 93) = ds := by
    rw [List.takeWhile_append_of_pos h93]; simp
  have hd : (ds ++ 93 :: r).dropWhile (fun c => c != 93) = 93 :: r := by
    rw [List.dropWhile_append_of_pos h93]; simp
  rw [e]
  unfold bracket
  simp only [if_neg hl, List.tail_cons, ht, hd, numeral_size h]
  by_cases hm : m / 10 ≤ 1000000
  · simp [hm]
  · simp [hm]

theorem digits_numeral (ds : Bytes) (h1 : ds ≠ []) (h2 : ∀ c ∈ ds, 48 ≤ c ∧ c ≤ 57) : Numeral ds (ds.foldl (fun n c => n * 10 + (c.toNat - 48)) 0) := by
  have key : ∀ (ds : Bytes) (n : Nat) (pre : Bytes), Numeral pre n → (∀ c ∈ ds, 48 ≤ c ∧ c ≤ 57) →
      Numeral (pre ++ ds) (ds.foldl (fun n c => n * 10 + (c.toNat - 48)) n) := by
    intro ds
    induction ds with
    | nil => intro n pre h _; rw [List.append_nil]; exact h
    | cons c ds ih =>
      intro n pre h hd
      have := ih _ (pre ++ [c]) (.more h (hd c List.mem_cons_self)) (fun x hx => hd x (List.mem_cons_of_mem _ hx))
      rw [List.append_assoc] at this
      exact this
  cases ds with
  | nil => exact absurd rfl h1
  | cons c ds =>
    have h0 : 0 * 10 + (c.toNat - 48) = c.toNat - 48 := by omega
    have := key ds (c.toNat - 48) [c] (.one (h2 c List.mem_cons_self)) (fun x hx => h2 x (List.mem_cons_of_mem _ hx))
    rw [List.foldl_cons, h0]
    exact this

theorem size_numeral {ds : Bytes} {m : Nat} (h : sizeAt ds = (some m, [])) : Numeral ds m := by
  unfold sizeAt Difflib.readNum at h
  simp only at h
  by_cases h0 : (ds.takeWhile fun c => 48 ≤ c && c ≤ 57) = []
  · rw [if_pos h0] at h; cases h
  · rw [if_neg h0] at h
    simp only at h
    split at h
    · injection h with h1 h2
      injection h1 with h1
      have ht := List.takeWhile_append_dropWhile (p := fun c : UInt8 => 48 ≤ c && c ≤ 57) (l := ds)
      rw [h2, List.append_nil] at ht
      rw [ht] at h0 h1
      rw [← h1]
      refine digits_numeral ds h0 fun c hc => ?_
      rw [← ht] at hc
      simpa using List.all_eq_true.mp (List.all_takeWhile (p := fun c : UInt8 => 48 ≤ c && c ≤ 57) (l := ds)) c hc
    · cases h

theorem bracket_wrong {ds : Bytes} (h : 93 ∉ ds) (v : UInt8) (r : Bytes) :
    ∃ w, bracket (asc "[" ++ ds ++ asc "]" ++ v :: r) = (w, v :: r) ∧ ∀ m, w = some m → Numeral ds m := by
  have h93 : ∀ c ∈ ds, (c != 93) = true := by
    intro c hc
    simp only [bne_iff_ne]
    rintro rfl
    exact h hc
  have e : asc "[" ++ ds ++ asc "]" ++ v :: r = 91 :: (ds ++ 93 :: v :: r) := by simp [asc]
  have hl : ¬(91 :: (ds ++ 93 :: v :: r)).length < 3 := by
    simp only [List.length_cons, List.length_append]
    omega
  have ht : (ds ++ 93 :: v :: r).takeWhile (fun c => c != 93) = ds := by
    rw [List.takeWhile_append_of_pos h93]; simp
  have hd : (ds ++ 93 :: v :: r).dropWhile (fun c => c != 93) = 93 :: v :: r := by
    rw [List.dropWhile_append_of_pos h93]; simp
  rw [e]
  unfold bracket
  simp only [if_neg hl, List.tail_cons, ht, hd]
  rw [if_neg (by simp)]
  split
  · rename_i m hm
    exact ⟨_, rfl, fun m' h' => by cases h'; exact size_numeral hm⟩
  · exact ⟨_, rfl, fun m' h' => by cases h'⟩

/-- What stops flags and numbers. -/
def Stops (c : UInt8) : Prop := (48 ≤ c && c ≤ 57) = false ∧ c ≠ 35 ∧ c ≠ 43 ∧ c ≠ 45 ∧ c ≠ 32

theorem IsVerb.stops {v : UInt8} (h : IsVerb v) : Stops v := ⟨h.1, h.2.1, h.2.2.1, h.2.2.2.1, h.2.2.2.2.1⟩

theorem flags_stop {c : UInt8} (hc : Stops c) (z : Bytes) : ∀ (t : Bytes) (e : Direc),
    readFlags e (t ++ c :: z) = ((readFlags e t).1, (readFlags e t).2 ++ c :: z) := by
  obtain ⟨h1, h2, h3, h4, h5⟩ := hc
  have h0 : c ≠ 48 := by rintro rfl; exact absurd h1 (by decide)
  intro t
  induction t with
  | nil => intro e; simp [readFlags, h0, h2, h3, h4, h5]
  | cons b t ih =>
    intro e
    rw [List.cons_append, readFlags, readFlags]
    (repeat' split) <;> first | exact ih _ | rfl

theorem while_stop {α : Type} (p : α → Bool) (c : α) (z : List α) (hc : p c = false) : ∀ t : List α,
    (t ++ c :: z).takeWhile p = t.takeWhile p ∧ (t ++ c :: z).dropWhile p = t.dropWhile p ++ c :: z := by
  intro t
  induction t with
  | nil => simp [hc]
  | cons b t ih =>
    by_cases hb : p b = true
    · simp [hb, ih]
    · simp [hb]

theorem size_stop {v : UInt8} (hv : Stops v) {u s' : Bytes} {w : Option Nat} (h : readSize (u ++ [v]) = some (w, s')) :
    ∃ s, s' = s ++ [v] ∧ (∀ c z, Stops c → sizeAt (u ++ c :: z) = (w, s ++ c :: z)) ∧ (w = none → s = u) := by
  have hw := while_stop (fun c : UInt8 => 48 ≤ c && c ≤ 57)
  refine ⟨u.dropWhile fun c => 48 ≤ c && c ≤ 57, ?_⟩
  unfold readSize Difflib.readNum at h
  simp only [(hw v [] hv.1 u).1, (hw v [] hv.1 u).2] at h
  by_cases h0 : (u.takeWhile fun c => 48 ≤ c && c ≤ 57) = []
  · rw [if_pos h0] at h
    have hu : (u.dropWhile fun c => 48 ≤ c && c ≤ 57) = u := by
      have := List.takeWhile_append_dropWhile (p := fun c : UInt8 => 48 ≤ c && c ≤ 57) (l := u)
      rw [h0, List.nil_append] at this
      exact this
    cases h
    refine ⟨by rw [hu], fun c z hc => ?_, fun _ => hu⟩
    unfold sizeAt Difflib.readNum
    simp only [(hw c z hc.1 u).1, if_pos h0, hu]
  · rw [if_neg h0] at h
    simp only at h
    split at h
    · rename_i hle
      cases h
      refine ⟨rfl, fun c z hc => ?_, fun h => (by cases h)⟩
      unfold sizeAt Difflib.readNum
      simp only [(hw c z hc.1 u).1, (hw c z hc.1 u).2, if_neg h0, if_pos hle]
    · cases h

theorem size_none {v : UInt8} (hv : Stops v) (r : Bytes) : sizeAt (v :: r) = (none, v :: r) := by
  unfold sizeAt
  rw [show Difflib.readNum (v :: r) = none by
    unfold Difflib.readNum
    simp only
    rw [List.takeWhile_cons_of_neg (p := fun c : UInt8 => 48 ≤ c && c ≤ 57) (by rw [hv.1]; simp), if_pos rfl]]

theorem argNumber_not {count : Nat} {c : Cursor} {s : Bytes} (h : s.head? ≠ some 91) : argNumber count c s = ({ c with after := false }, s) := if_neg h

theorem argNumber_after {count : Nat} (c : Cursor) (b : Bool) (s : Bytes) : argNumber count { c with after := b } s = argNumber count c s := by
  unfold argNumber
  split
  · split
    · split <;> rfl
    · rfl
  · rfl

/-- A directive with or without a number before its verb: `z` is what stands there. -/
theorem directiveI_verb {σ : Type} (P : Args σ) {t : Bytes} {v : UInt8} {d : Direc} (h : readDirec (37 :: (t ++ [v])) = some d) (hv : IsVerb v) (c : Cursor) (st : σ)
    {z r : Bytes} {b : UInt8} {q : Bytes} (hz : z = b :: q) (hb : Stops b) (h46 : b ≠ 46) {c' : Cursor}
    (ha : argNumber P.count { c with good := true } z = (c', v :: r)) :
    ∃ e, { e with verb := v } = d ∧ directiveI P c st (t ++ z) = verbI P e c' st (v :: r) := by
  obtain ⟨e, u', wid, s', prec, h1, h2, h3, h4, h5, h6⟩ := readDirec_steps h
  have hvs := hv.stops
  obtain ⟨g1, g2⟩ : (readFlags ⟨false, false, false, false, false, none, none, 0⟩ t).1 = e ∧ (readFlags ⟨false, false, false, false, false, none, none, 0⟩ t).2 ++ [v] = u' := by
    have := flags_stop hvs [] t ⟨false, false, false, false, false, none, none, 0⟩
    rw [this] at h1
    exact ⟨congrArg Prod.fst h1, congrArg Prod.snd h1⟩
  have heprec : e.prec = none := by
    have := flags_prec t ⟨false, false, false, false, false, none, none, 0⟩
    rw [g1] at this
    exact this
  have hewid : e.wid = none := by
    have : ∀ (t : Bytes) (e : Direc), (readFlags e t).1.wid = e.wid := by
      intro t
      induction t with
      | nil => intro e; rfl
      | cons c t ih =>
        intro e
        rw [readFlags]
        repeat' split
        all_goals first | rw [ih] | rfl
    have := this t ⟨false, false, false, false, false, none, none, 0⟩
    rw [g1] at this
    exact this
  generalize hu : (readFlags ⟨false, false, false, false, false, none, none, 0⟩ t).2 = u at g2
  have hf : readFlags ⟨false, false, false, false, false, none, none, 0⟩ (t ++ z) = (e, u ++ z) := by
    rw [hz, flags_stop hb, g1, hu]
  subst g2
  obtain ⟨s, hs1, hs2, hs3⟩ := size_stop hvs h2
  have hdv : d.verb = v := by
    rcases h3 with ⟨hh, p, hp, _⟩ | ⟨hh, _⟩
    · rw [hs1] at hp hh
      cases s with
      | nil => simp at hh; exact absurd hh hv.2.2.2.2.2.1
      | cons a s =>
        obtain ⟨s2, k1, _⟩ := size_stop hvs (u := s) hp
        cases s2 with
        | nil => simpa using k1
        | cons _ s2 => simp at k1
    · rw [hs1] at hh
      cases s with
      | nil => simpa using hh.symm
      | cons _ s => simp at hh
  -- once the number is read
  have hc'v : (if c'.after = true then (c', v :: r) else argNumber P.count c' (v :: r)) = (c', v :: r) := by
    cases hca : c'.after with
    | true => rfl
    | false =>
      rw [if_neg (by decide), argNumber_not (by simpa using hv.2.2.2.2.2.2.2)]
      cases c'
      simp only at hca
      rw [hca]
  have hgood : ∀ cc : Cursor, { cc with good := cc.good && !(cc.after && (none : Option Nat).isSome) } = cc := by
    intro cc; cases cc; simp
  by_cases hu0 : u = []
  · -- the number follows the flags
    subst hu0
    rw [List.nil_append] at hf h2
    have hw0 : wid = none ∧ s = [] := by
      have := hs2 v [] hvs
      rw [List.nil_append, size_none hvs] at this
      have hh : wid = none := (congrArg Prod.fst this).symm
      exact ⟨hh, hs3 hh⟩
    have hp0 : prec = none := by
      rcases h3 with ⟨hh, _⟩ | ⟨_, hh, _⟩
      · rw [hs1, hw0.2] at hh; simp at hh; exact absurd hh hv.2.2.2.2.2.1
      · exact hh
    refine ⟨e, ?_, ?_⟩
    · rw [h6, hw0.1, hp0, hdv]
      simp only [heprec, hewid]
    · unfold directiveI
      simp only [hf, ha]
      have hw : widthI P e c' (v :: r) = (([], e, c'), v :: r) := by
        unfold widthI
        rw [if_neg (by simpa using hv.2.2.2.2.2.2.1)]
        simp only [size_none hvs, hgood]
        rw [← hewid]
      simp only [hw]
      have hp : precI P e c' (v :: r) = (([], e, c'), v :: r) := by
        unfold precI
        rw [if_neg (by simpa using hv.2.2.2.2.2.1)]
      simp only [hp, hc'v]
      simp
  · -- it does not
    have hu91 : (u ++ z).head? ≠ some 91 ∧ (u ++ z).head? ≠ some 42 := by
      cases u with
      | nil => exact absurd rfl hu0
      | cons x u =>
        rw [List.cons_append, List.head?_cons]
        have key : ∀ y : UInt8, (48 ≤ y && y ≤ 57) = false → y ≠ 46 → x ≠ y := by
          rintro y hy hy46 rfl
          have : readSize (x :: u ++ [v]) = some (none, x :: u ++ [v]) := by
            unfold readSize
            rw [show Difflib.readNum (x :: u ++ [v]) = none by
              unfold Difflib.readNum
              simp only [List.cons_append]
              rw [List.takeWhile_cons_of_neg (p := fun c : UInt8 => 48 ≤ c && c ≤ 57) (by rw [hy]; simp), if_pos rfl]]
          rw [this] at h2
          cases h2
          rcases h3 with ⟨hh, _⟩ | ⟨hh, _⟩
          · simp at hh; exact hy46 hh
          · simp at hh
        exact ⟨fun hh => key 91 (by decide) (by decide) (Option.some.inj hh), fun hh => key 42 (by decide) (by decide) (Option.some.inj hh)⟩
    have hw : widthI P e { c with good := true, after := false } (u ++ z) = (([], { e with wid := wid }, { c with good := true, after := false }), s ++ z) := by
      unfold widthI
      rw [if_neg hu91.2, hz, hs2 b q hb]
      simp
    have ha' : argNumber P.count { c with good := true, after := false } z = (c', v :: r) := by
      rw [← ha]; exact argNumber_after { c with good := true } false z
    refine ⟨{ e with wid := wid, prec := prec }, ?_, ?_⟩
    · rw [h6, hdv]
    · unfold directiveI
      simp only [hf, argNumber_not hu91.1, hw]
      by_cases hs0 : s = []
      · -- no precision
        have hp0 : prec = none := by
          rcases h3 with ⟨hh, _⟩ | ⟨_, hh, _⟩
          · rw [hs1, hs0] at hh; simp at hh; exact absurd hh hv.2.2.2.2.2.1
          · exact hh
        have hp : precI P { e with wid := wid } { c with good := true, after := false } (s ++ z) =
            (([], { e with wid := wid, prec := prec }, { c with good := true, after := false }), z) := by
          unfold precI
          rw [hs0, List.nil_append, if_neg (by rw [hz]; simpa using h46), hp0, ← heprec]
        simp only [hp, ha']
        simp
      · rcases h3 with ⟨hh, p, hp, hpp⟩ | ⟨hh, _⟩
        · cases s with
          | nil => exact absurd rfl hs0
          | cons x s =>
            have hx : x = 46 := by rw [hs1] at hh; simpa using hh
            subst hx
            rw [hs1, hdv] at hp
            have hp : readSize (s ++ [v]) = some (p, [v]) := hp
            obtain ⟨s2, k1, k2, k3⟩ := size_stop hvs hp
            have k1 : s2 = [] := by
              cases s2 with
              | nil => rfl
              | cons _ s2 => simp at k1
            subst k1
            have hprecI : ∀ cc zz, argNumber P.count { c with good := true, after := false } (s ++ z) = (cc, zz) → zz.head? ≠ some 42 → sizeAt zz = (p, (sizeAt zz).2) →
                precI P { e with wid := wid } { c with good := true, after := false } (46 :: s ++ z) =
                  (([], { e with wid := wid, prec := prec }, cc), (sizeAt zz).2) := by
              intro cc zz e1 e2 e3
              unfold precI
              rw [List.cons_append, List.head?_cons, if_pos rfl]
              simp only [List.tail_cons, Bool.not_false, Bool.and_true, e1, if_neg e2]
              rw [e3, hpp]
            by_cases hsn : s = []
            · subst hsn
              have hpn : p = none := by
                have := k2 v [] hvs
                rw [List.nil_append, size_none hvs] at this
                exact (congrArg Prod.fst this).symm
              rw [List.nil_append] at hprecI
              have := hprecI c' (v :: r) ha' (by simpa using hv.2.2.2.2.2.2.1) (by rw [size_none hvs, hpn])
              simp only [this, size_none hvs, hc'v]
              simp
            · have hs91 : (s ++ z).head? ≠ some 91 ∧ (s ++ z).head? ≠ some 42 := by
                cases s with
                | nil => exact absurd rfl hsn
                | cons x s =>
                  rw [List.cons_append, List.head?_cons]
                  have key : ∀ y : UInt8, (48 ≤ y && y ≤ 57) = false → x ≠ y := by
                    rintro y hy rfl
                    have : readSize (x :: s ++ [v]) = some (none, x :: s ++ [v]) := by
                      unfold readSize
                      rw [show Difflib.readNum (x :: s ++ [v]) = none by
                        unfold Difflib.readNum
                        simp only [List.cons_append]
                        rw [List.takeWhile_cons_of_neg (p := fun c : UInt8 => 48 ≤ c && c ≤ 57) (by rw [hy]; simp), if_pos rfl]]
                    rw [this] at hp
                    injection hp with hp
                    injection hp with _ hp
                    simp at hp
                  exact ⟨fun hh => key 91 (by decide) (Option.some.inj hh), fun hh => key 42 (by decide) (Option.some.inj hh)⟩
              have e3 : sizeAt (s ++ z) = (p, z) := by rw [hz]; exact k2 b q hb
              have := hprecI { c with good := true, after := false } (s ++ z) (argNumber_not hs91.1) hs91.2 (by rw [e3])
              simp only [this, e3, ha']
              simp
        · rw [hs1] at hh
          cases s with
          | nil => exact absurd rfl hs0
          | cons _ s => simp at hh

theorem directive_next {σ : Type} (P : Args σ) {t : Bytes} {v : UInt8} {d : Direc} (h : readDirec (37 :: (t ++ [v])) = some d) (hv : IsVerb v) (c : Cursor) (st : σ)
    (r : Bytes) : ∃ e, { e with verb := v } = d ∧ directiveI P c st (t ++ v :: r) = verbI P e { c with good := true, after := false } st (v :: r) :=
  directiveI_verb P h hv c st rfl hv.stops hv.2.2.2.2.2.1 (argNumber_not (by simpa using hv.2.2.2.2.2.2.2))

theorem directive_number {σ : Type} (P : Args σ) {t ds : Bytes} {v : UInt8} {d : Direc} {m : Nat} (h : readDirec (37 :: (t ++ [v])) = some d) (hv : IsVerb v)
    (hm : Numeral ds m) (h1 : 1 ≤ m) (h2 : m ≤ P.count) (h3 : m / 10 ≤ 1000000) (c : Cursor) (st : σ) (r : Bytes) :
    ∃ e, { e with verb := v } = d ∧
      directiveI P c st (t ++ (asc "[" ++ ds ++ asc "]" ++ v :: r)) = verbI P e ⟨m - 1, true, true, true⟩ st (v :: r) := by
  have hb := bracket_numeral hm (v :: r)
  have hz : asc "[" ++ ds ++ asc "]" ++ v :: r = 91 :: (ds ++ asc "]" ++ v :: r) := by simp [asc]
  have h91 : (asc "[" ++ ds ++ asc "]" ++ v :: r).head? = some 91 := by rw [hz]; rfl
  refine directiveI_verb P h hv c st hz ⟨by decide, by decide, by decide, by decide, by decide⟩ (by decide) ?_
  unfold argNumber
  rw [if_pos h91, hb, if_pos h3]
  simp only [if_pos (And.intro h1 h2)]

theorem directive_wrong {σ : Type} (P : Args σ) {t ds : Bytes} {v : UInt8} {d : Direc} (h : readDirec (37 :: (t ++ [v])) = some d) (hv : IsVerb v)
    (h93 : 93 ∉ ds) (hm : ∀ m, Numeral ds m → m = 0 ∨ P.count < m) (c : Cursor) (st : σ) (r : Bytes) :
    ∃ e b, { e with verb := v } = d ∧
      directiveI P c st (t ++ (asc "[" ++ ds ++ asc "]" ++ v :: r)) = verbI P e ⟨c.num, b, false, true⟩ st (v :: r) := by
  obtain ⟨w, hb, hw⟩ := bracket_wrong h93 v r
  have hz : asc "[" ++ ds ++ asc "]" ++ v :: r = 91 :: (ds ++ asc "]" ++ v :: r) := by simp [asc]
  have h91 : (asc "[" ++ ds ++ asc "]" ++ v :: r).head? = some 91 := by rw [hz]; rfl
  have hstep : ∃ b, argNumber P.count { c with good := true } (asc "[" ++ ds ++ asc "]" ++ v :: r) = (⟨c.num, b, false, true⟩, v :: r) := by
    unfold argNumber
    rw [if_pos h91, hb]
    cases w with
    | none => exact ⟨false, rfl⟩
    | some m =>
      have := hm m (hw m rfl)
      simp only [if_neg (show ¬(1 ≤ m ∧ m ≤ P.count) by omega)]
      exact ⟨true, rfl⟩
  obtain ⟨b, hstep⟩ := hstep
  obtain ⟨e, he, hd⟩ := directiveI_verb P h hv c st hz ⟨by decide, by decide, by decide, by decide, by decide⟩ (by decide) hstep
  exact ⟨e, b, he, hd⟩

/-- Formats are filled, if the states of the arguments allow to print those that are still to be picked. -/
theorem runI_picked {σ α : Type} (P : Args σ) (as : List α) (hP : P.count = as.length) {text : Direc → α → Bytes → Prop} (I : List (Nat × Direc) → σ → Prop)
    (step : ∀ t m d a x ps st, readDirec (37 :: t) = some d → d.verb ≠ 37 → as[m]? = some a → text d a x → I ((m, d) :: ps) st →
      ∃ st', P.arg d m st = some (x, st') ∧ I ps st')
    {k : Nat} {b : Bool} {f : Bytes} {ps : List (Nat × Direc)} {o : Bytes} (h : Picked as text k b f ps o) :
    ∀ n c st, f.length ≤ n → c.num = k → c.named = b → I ps st →
      ∃ c' st', runI P n c st f = some (o, c', st') ∧ (c'.named = true ∨ as.length ≤ c'.num) := by
  have more : ∀ {n : Nat} {c : Cursor} {st : σ} {s x o : Bytes} {y : Cursor × σ × Bytes}, directiveI P c st s = some (x, y) →
      (∃ c' st', runI P n y.1 y.2.1 y.2.2 = some (o, c', st') ∧ (c'.named = true ∨ as.length ≤ c'.num)) →
      ∃ c' st', runI P (n + 1) c st (37 :: s) = some (x ++ o, c', st') ∧ (c'.named = true ∨ as.length ≤ c'.num) := by
    intro n c st s x o y hd hr
    obtain ⟨c', st', hr, hc⟩ := hr
    refine ⟨c', st', ?_, hc⟩
    rw [runI, if_pos rfl, hd, Option.bind_some, hr]
    rfl
  induction h with
  | nil hk =>
    intro n c st _ hc hb _
    refine ⟨c, st, by cases n <;> rfl, ?_⟩
    rw [hb, hc]; exact hk
  | lit hc _ ih =>
    intro n c st hn h1 h2 hI
    cases n with
    | zero => cases hn
    | succ n =>
      obtain ⟨c', st', hr, hc'⟩ := ih n c st (by simpa using hn) h1 h2 hI
      exact ⟨c', st', by rw [runI, if_neg hc, hr]; rfl, hc'⟩
  | percent _ ih =>
    intro n c st hn h1 h2 hI
    cases n with
    | zero => cases hn
    | succ n =>
      rename_i k b f ps o _
      have hd : directiveI P c st (37 :: f) = some ([37], { c with good := true, after := false }, st, f) := by
        have h91 : (37 :: f).head? ≠ some 91 := by simp
        have hs : sizeAt (37 :: f) = (none, 37 :: f) := size_none ⟨by decide, by decide, by decide, by decide, by decide⟩ f
        unfold directiveI
        simp [readFlags, argNumber_not h91, widthI, hs, precI, verbI]
        rfl
      exact more hd (ih n _ _ (by simp at hn; omega) h1 h2 hI)
  | next h1 h2 h3 h4 h5 _ ih =>
    intro n c st hn hk hb hI
    cases n with
    | zero => cases hn
    | succ n =>
      rename_i k b t v d a x f ps o _
      obtain ⟨e, he, hd⟩ := directive_next P h1 h2 c st f
      have hdv : d.verb = v := by rw [← he]
      obtain ⟨st', ha, hI'⟩ := step _ k d a x ps st h1 (hdv ▸ h3) h4 h5 hI
      have hlt : k < as.length := (List.getElem?_eq_some_iff.mp h4).1
      rw [verbI, if_neg h3, if_neg (by simp), if_neg (by rw [hP]; show ¬as.length ≤ c.num; omega), he, hk, ha] at hd
      exact more hd (ih n _ _ (by simp at hn; omega) rfl hb hI')
  | number h1 h2 h3 h4 h4' h5 h6 _ ih =>
    intro n c st hn hk hb hI
    cases n with
    | zero => cases hn
    | succ n =>
      rename_i k b t ds m v d a x f ps o _
      have hlt : m < as.length := (List.getElem?_eq_some_iff.mp h5).1
      obtain ⟨e, he, hd⟩ := directive_number P h1 h2 h4 (by omega) (by omega) (by omega) c st f
      have hdv : d.verb = v := by rw [← he]
      obtain ⟨st', ha, hI'⟩ := step _ m d a x ps st h1 (hdv ▸ h3) h5 h6 hI
      rw [verbI, if_neg h3, if_neg (by simp), if_neg (by rw [hP]; show ¬as.length ≤ m + 1 - 1; omega), he] at hd
      simp only [Nat.add_sub_cancel, ha] at hd
      exact more hd (ih n _ _ (by simp at hn; omega) rfl rfl hI')
  | short h1 h2 h3 h4 _ ih =>
    intro n c st hn hk hb hI
    cases n with
    | zero => cases hn
    | succ n =>
      rename_i k b t v d f ps o _
      obtain ⟨e, he, hd⟩ := directive_next P h1 h2 c st f
      rw [verbI, if_neg h3, if_neg (by simp), if_pos (by rw [hP]; show as.length ≤ c.num; omega)] at hd
      exact more hd (ih n _ _ (by simp at hn; omega) hk hb hI)
  | wrong h1 h2 h3 h4 h5 _ ih =>
    intro n c st hn hk hb hI
    cases n with
    | zero => cases hn
    | succ n =>
      rename_i k b t ds v d f ps o _
      obtain ⟨e, b', he, hd⟩ := directive_wrong P h1 h2 h4 (by rw [hP]; exact h5) c st f
      rw [verbI, if_neg h3, if_pos rfl] at hd
      exact more hd (ih n _ _ (by simp at hn; omega) hk rfl hI)

theorem sprintfI_picked {σ α : Type} (P : Args σ) (as : List α) (hP : P.count = as.length) {text : Direc → α → Bytes → Prop} (I : List (Nat × Direc) → σ → Prop)
    (step : ∀ t m d a x ps st, readDirec (37 :: t) = some d → d.verb ≠ 37 → as[m]? = some a → text d a x → I ((m, d) :: ps) st →
      ∃ st', P.arg d m st = some (x, st') ∧ I ps st')
    {f : Bytes} {ps : List (Nat × Direc)} {o : Bytes} (h : Picked as text 0 false f ps o) (st : σ) (hI : I ps st) : sprintfI P st f = some o := by
  obtain ⟨c', st', hr, hc⟩ := runI_picked P as hP I step h f.length ⟨0, false, true, false⟩ st (Nat.le_refl _) rfl rfl hI
  unfold sprintfI
  rw [hr, Option.bind_some]
  exact if_pos (by rw [hP]; exact hc)

/-- Package fmt itself picks the arguments as said, with its own texts. -/
theorem std_picked {α : Type} (S : Printer α) {f : Bytes} {as : List α} {ps : List (Nat × Direc)} {o : Bytes}
    (h : Picked as (fun d a x => S.arg d a = some x) 0 false f ps o) : sprintfI (stdArgs S as) () f = some o := by
  refine sprintfI_picked (stdArgs S as) as rfl (fun _ _ => True) ?_ h () trivial
  intro t m d a x ps st _ _ ha hx _
  refine ⟨(), ?_, trivial⟩
  show (as[m]?.bind fun a => (S.arg d a).map fun t => (t, ())) = _
  rw [ha, Option.bind_some, hx]
  rfl

/-! ### Proofs: formatters -/

/-- One more use of a formatter, for pointers and for values without pointers: it prints what a new one prints. -/
theorem again_prints {E : Env} {F : Flags} {n : Nat} {s : St} {v : Val} {x : Bytes} (hs : F.sharp = false) (hv : IsPtr v ∨ NoPtr E v)
    (hd : s.depth = 0) (hx : formatV E F n (some v) = some x) : ∃ r, formatOn E F n s (some v) = some (x, r) ∧ format E F n { s with out := [] } v = some r := by
  have hx : (format E F n St.init v).map St.out = some x := hx
  obtain ⟨q, hq, hqx⟩ := Option.map_eq_some_iff.mp hx
  have no : F.sharp = true → False := fun h => by rw [hs] at h; cases h
  have goal : ∃ r, format E F n { s with out := [] } v = some r ∧ r.out = q.out := by
    rcases hv with hv | hv
    · cases v with
      | ptr ty a =>
        cases n with
        | zero => cases hq
        | succ n =>
          have hq : formatPtr E F (format E F n) n St.init ty a = some q := hq
          show ∃ r, formatPtr E F (format E F n) n { s with out := [] } ty a = some r ∧ _
          rw [formatPtr_eq] at hq ⊢
          by_cases h0 : a = 0
          · rw [if_pos ⟨h0, .inl hs⟩] at hq ⊢
            cases hq
            exact ⟨_, rfl, rfl⟩
          · rw [if_neg (fun h => h0 h.1)] at hq ⊢
            have e : prune s.depth s.ptrs = prune St.init.depth St.init.ptrs := by
              rw [hd]
              funext b
              unfold prune
              cases s.ptrs b <;> simp [St.init]
            obtain ⟨c, hc, hq⟩ := Option.bind_eq_some_iff.mp hq
            have hc' : chase E s.depth n (prune s.depth s.ptrs) [] 0 (.ptr ty a) = some c := by rw [e, hd]; exact hc
            obtain ⟨r, k1, k2⟩ := after_sim (E := E) (format_sim E F true n) (s := { St.init with ptrs := c.ptrs })
              (t := { s with out := [], ptrs := c.ptrs }) ⟨rfl, hd, fun _ => rfl, fun h => (no h).elim⟩ hq
            exact ⟨r, Option.bind_eq_some_iff.mpr ⟨c, hc', k1⟩, k2.out⟩
      | _ => exact hv.elim
    · obtain ⟨r, k1, k2⟩ := format_sim E F false n St.init { s with out := [] } v q
        ⟨rfl, hd, fun h => (by cases h), fun h => (no h).elim⟩ (fun _ => hv) hq
      exact ⟨r, k1, k2.out⟩
  obtain ⟨r, h1, h2⟩ := goal
  refine ⟨r, ?_, h1⟩
  show (format E F n { s with out := [] } v).map (fun r => (r.out, r)) = _
  rw [h1, Option.map_some, h2, hqx]

/-- The state of a formatter allows to print what is still to be picked. -/
def Ready (E : Env) (as : List (Option Val)) (ps : List (Nat × Direc)) (σ : Nat → St) : Prop :=
  ∀ i, (ps.filter fun p => p.1 = i ∧ p.2.verb = 118).length = 0 ∨ ((ps.filter fun p => p.1 = i ∧ p.2.verb = 118).length ≤ 1 ∧ σ i = St.init) ∨
    ((σ i).depth = 0 ∧ Finite (σ i) ∧ (∀ d, (i, d) ∈ ps → d.verb = 118 → d.sharp = false) ∧ ∀ w, as[i]? = some (some w) → IsPtr w ∨ NoPtr E w)

theorem Ready.tail {E : Env} {as : List (Option Val)} {p : Nat × Direc} {ps : List (Nat × Direc)} {σ : Nat → St} (h : Ready E as (p :: ps) σ) : Ready E as ps σ := by
  intro i
  have hle : (ps.filter fun p => p.1 = i ∧ p.2.verb = 118).length ≤ ((p :: ps).filter fun p => p.1 = i ∧ p.2.verb = 118).length :=
    ((List.sublist_cons_self p ps).filter _).length_le
  rcases h i with h | ⟨h, h'⟩ | ⟨h1, h2, h3, h4⟩
  · exact .inl (by omega)
  · exact .inr (.inl ⟨by omega, h'⟩)
  · exact .inr (.inr ⟨h1, h2, fun d hd => h3 d (List.mem_cons_of_mem _ hd), h4⟩)

/-- C150, part: in formats that pick their arguments by number or one after the other, `%v` shows the argument picked as a new formatter does, and the other verbs
(but `T` and `p`) what package fmt shows for it, if no argument is printed by `%v` a second time unless it is nil, a pointer or a value without pointers, and without
`#`.  Missing: other arguments printed twice (`picked_twice`, `picked_type`), and sizes taken from arguments, `%T` and `%p`, where the formatters themselves show (C137). -/
theorem indexed_partial (E : Env) (n : Nat) (S : Printer (Option Val)) (own : Direc → Bytes) {f : Bytes} {as : List (Option Val)} {ps : List (Nat × Direc)} {o : Bytes}
    (h : Picked as (fun d a x => Promised E n S d a x ∧ Kept d) 0 false f ps o) (hg : Gentle E as ps) : spewPrintf E n S own f as = some o := by
  refine sprintfI_picked (spewArgs E n S own as) as rfl (Ready E as) ?_ h _ ?_
  · rintro t m d a x ps st hr hp ha ⟨hx, hk⟩ hI
    have hget : as.getD m none = a := by rw [List.getD_eq_getElem?_getD, ha]; rfl
    unfold Promised at hx
    have hT : ¬(d.verb = 84 ∨ d.verb = 112) := by rintro (h | h); exact hk.2.2.1 h; exact hk.2.2.2 h
    by_cases hv : d.verb = 118
    · rw [if_pos hv] at hx
      have harg : (spewArgs E n S own as).arg d m st =
          (formatOn E ⟨d.plus, d.sharp⟩ n (st m) a).map fun x => (x.1, fun j => if j = m then x.2 else st j) := by
        show (if d.verb = 84 ∨ d.verb = 112 then _ else _) = _
        rw [if_neg hT, if_pos hv, hget]
      rw [harg]
      have hlen : (((m, d) :: ps).filter fun p => p.1 = m ∧ p.2.verb = 118).length = (ps.filter fun p => p.1 = m ∧ p.2.verb = 118).length + 1 := by
        rw [List.filter_cons_of_pos (by simpa using hv)]; rfl
      have fin : ∀ (y : Bytes × St), formatOn E ⟨d.plus, d.sharp⟩ n (st m) a = some y → y.1 = x →
          ((ps.filter fun p => p.1 = m ∧ p.2.verb = 118).length = 0 ∨
            (y.2.depth = 0 ∧ Finite y.2 ∧ (∀ d, (m, d) ∈ ps → d.verb = 118 → d.sharp = false) ∧ ∀ w, as[m]? = some (some w) → IsPtr w ∨ NoPtr E w)) →
          ∃ st', ((formatOn E ⟨d.plus, d.sharp⟩ n (st m) a).map fun x => (x.1, fun j => if j = m then x.2 else st j)) = some (x, st') ∧ Ready E as ps st' := by
        intro y hy hyx hyr
        refine ⟨fun j => if j = m then y.2 else st j, by rw [hy, Option.map_some, hyx], fun i => ?_⟩
        by_cases hi : i = m
        · subst hi
          simp only [if_true]
          rcases hyr with hyr | hyr
          · exact .inl hyr
          · exact .inr (.inr hyr)
        · simp only [if_neg hi]
          exact Ready.tail hI i
      rcases hI m with h0 | ⟨h1, h2⟩ | ⟨h1, h2, h3, h4⟩
      · omega
      · have h0 : (ps.filter fun p => p.1 = m ∧ p.2.verb = 118).length = 0 := by omega
        rw [h2]
        cases a with
        | none =>
          have := fin ((if d.sharp then asc "(interface {})" else []) ++ asc "<nil>", St.init) (by rw [h2]; rfl) (Option.some.inj hx) (.inl h0)
          rwa [h2] at this
        | some w =>
          have hx : (format E ⟨d.plus, d.sharp⟩ n St.init w).map St.out = some x := hx
          obtain ⟨q, hq, hqx⟩ := Option.map_eq_some_iff.mp hx
          have := fin (q.out, q) (by
            rw [h2]
            show (format E ⟨d.plus, d.sharp⟩ n St.init w).map (fun r => (r.out, r)) = _
            rw [hq]; rfl) hqx (.inl h0)
          rwa [h2] at this
      · have hs : d.sharp = false := h3 d List.mem_cons_self hv
        have h3' : ∀ d, (m, d) ∈ ps → d.verb = 118 → d.sharp = false := fun d hd => h3 d (List.mem_cons_of_mem _ hd)
        cases a with
        | none => exact fin ((if d.sharp then asc "(interface {})" else []) ++ asc "<nil>", st m) rfl (Option.some.inj hx) (.inr ⟨h1, h2, h3', h4⟩)
        | some w =>
          obtain ⟨r, hr1, hr2⟩ := again_prints (F := ⟨d.plus, d.sharp⟩) hs (h4 w ha) h1 hx
          obtain ⟨K, hK⟩ := h2
          exact fin (x, r) hr1 rfl (.inr ⟨(format_depth (F := ⟨d.plus, d.sharp⟩) hs hr2 K hK).trans h1, format_finite (F := ⟨d.plus, d.sharp⟩) hs hr2 ⟨K, hK⟩, h3', h4⟩)
    · rw [if_neg hv] at hx
      refine ⟨st, ?_, Ready.tail hI⟩
      show (if d.verb = 84 ∨ d.verb = 112 then _ else _) = _
      rw [if_neg hT, if_neg hv, hget, sprintf_one S (handed_on hr hk.1) hp hx]
      rfl
  · intro i
    rcases hg i with h | ⟨h1, h2⟩
    · exact .inr (.inl ⟨h, rfl⟩)
    · exact .inr (.inr ⟨rfl, ⟨[], fun _ h => absurd rfl h⟩, h1, h2⟩)

/-- If no argument is picked twice, all values and flags are allowed. -/
theorem indexed_once (E : Env) (n : Nat) (S : Printer (Option Val)) (own : Direc → Bytes) {f : Bytes} {as : List (Option Val)} {ps : List (Nat × Direc)} {o : Bytes}
    (h : Picked as (fun d a x => Promised E n S d a x ∧ Kept d) 0 false f ps o) (hn : (ps.map Prod.fst).Nodup) : spewPrintf E n S own f as = some o := by
  refine indexed_partial E n S own h fun i => .inl ?_
  clear h
  induction ps with
  | nil => exact Nat.zero_le _
  | cons p ps ih =>
    rw [List.map_cons, List.nodup_cons] at hn
    by_cases hp : p.1 = i ∧ p.2.verb = 118
    · have h0 : (ps.filter fun p => p.1 = i ∧ p.2.verb = 118) = [] := by
        rw [List.filter_eq_nil_iff]
        intro q hq h
        have h : q.1 = i ∧ q.2.verb = 118 := by simpa using h
        exact hn.1 (List.mem_map.mpr ⟨q, hq, h.1.trans hp.1.symm⟩)
      rw [List.filter_cons_of_pos (by simpa using hp), List.length_cons, h0]
      exact Nat.le_refl _
    · rw [List.filter_cons_of_neg (by simpa using hp)]
      exact ih hn.2

/-! ### Disagreements and concrete cases -/

/-- C150 fails: an argument with pointers inside, printed a second time, takes a pointer for one shown further up. -/
theorem picked_twice :
    spewPrintf twiceEnv 9 showStd (fun _ => []) (asc "%v %[1]v") [some twice] = some (asc "{{<*>5} <*>5} {{<*><shown>} <*>5}") ∧
    formatV twiceEnv ⟨false, false⟩ 9 (some twice) = some (asc "{{<*>5} <*>5}") := by
  constructor <;> decide +kernel

/-- C150 fails with `#`: the second time the type is missing. -/
theorem picked_type :
    spewPrintf lossyEnv 9 showStd (fun _ => []) (asc "%#v %#[1]v") [some (.slice (asc "[]*int") 1 1)] = some (asc "([]*int)[<nil>] [<nil>]") ∧
    formatV lossyEnv ⟨false, true⟩ 9 (some (.slice (asc "[]*int") 1 1)) = some (asc "([]*int)[<nil>]") := by
  constructor <;> decide +kernel

/-- C150 fails: a width from an argument picked by number is not taken; package fmt takes it. -/
theorem picked_width :
    spewPrintf ring 9 showStd (fun _ => []) (asc "%[2]*[1]d") [some (.num (asc "int") (asc "7")), some (.num (asc "int") (asc "5"))] = some (asc "%!(BADWIDTH)%d=7") ∧
    sprintfI (stdArgs showStd [some (.num (asc "int") (asc "7")), some (.num (asc "int") (asc "5"))]) () (asc "%[2]*[1]d") = some (asc "%5d=7") := by
  constructor <;> decide +kernel

/-- `Sprintf("%[2]d of %[1]v, %v, again %+[1]v", &ring, 5)`: the number is the third argument picked as well. -/
example : spewPrintf ring 9 showStd (fun _ => []) (asc "%[2]d of %[1]v, %v, again %+[1]v%%") [some (.ptr (asc "*main.Node") 1), some (.num (asc "int") (asc "5"))] =
    some (asc "%d=5 of <*>{<*>{<*><shown>}}, 5, again <*>(0x1){Next:<*>(0x2){Next:<*>(0x1)<shown>}}%") := by decide +kernel

/-- The hypotheses of `indexed_partial` for a call that prints one pointer twice. -/
example : ∃ ps, Picked [some (.ptr (asc "*main.Node") 1), some (.num (asc "int") (asc "5"))] (fun d a x => Promised ring 9 showStd d a x ∧ Kept d) 0 false
      (asc "%v %5.2[2]d %+[1]v %[7]v") ps (asc "<*>{<*>{<*><shown>}} %5.2d=5 <*>(0x1){Next:<*>(0x2){Next:<*>(0x1)<shown>}} %!v(BADINDEX)") ∧
    Gentle ring [some (.ptr (asc "*main.Node") 1), some (.num (asc "int") (asc "5"))] ps := by
  refine ⟨_, .next (t := []) (v := 118) (d := plainV) (x := asc "<*>{<*>{<*><shown>}}") (by decide +kernel) (by decide) (by decide) rfl
    ⟨by unfold Promised; rw [if_pos (by rfl)]; decide +kernel, by decide, by decide, by decide, by decide⟩ (.lit (by decide)
    (.number (t := asc "5.2") (ds := asc "2") (m := 1) (v := 100) (d := ⟨false, false, false, false, false, some 5, some 2, 100⟩) (x := asc "%5.2d=5") (by decide +kernel)
      (by decide) (by decide) (.one (by decide)) (by decide) rfl ⟨by unfold Promised; rw [if_neg (by decide)]; decide +kernel, by decide, by decide, by decide, by decide⟩ (.lit (by decide)
    (.number (t := asc "+") (ds := asc "1") (m := 0) (v := 118) (d := ⟨false, false, true, false, false, none, none, 118⟩)
      (x := asc "<*>(0x1){Next:<*>(0x2){Next:<*>(0x1)<shown>}}") (by decide +kernel)
      (by decide) (by decide) (.one (by decide)) (by decide) rfl ⟨by unfold Promised; rw [if_pos (by rfl)]; decide +kernel, by decide, by decide, by decide, by decide⟩ (.lit (by decide)
    (.wrong (t := []) (ds := asc "7") (v := 118) (d := plainV) (by decide +kernel) (by decide) (by decide) (by decide +kernel)
      (fun m hm => .inr (by rw [← (numeral_digits hm).2.2]; decide +kernel)) (.nil (.inl rfl)))))))), fun i => ?_⟩
  refine .inr ⟨fun d hd hv => ?_, fun w hw => ?_⟩
  · simp only [List.mem_cons, Prod.mk.injEq, List.not_mem_nil, or_false] at hd
    rcases hd with ⟨_, rfl⟩ | ⟨_, rfl⟩ | ⟨_, rfl⟩ <;> rfl
  · match i with
    | 0 => cases hw; exact .inl trivial
    | 1 =>
      cases hw
      refine .inr fun w h => ?_
      have : w = .num (asc "int") (asc "5") := by
        induction h with
        | refl => rfl
        | part _ h ih => subst ih; simp [Part, parts] at h
        | target _ h ih => subst ih; obtain ⟨ty, a, h, _⟩ := h; cases h
      subst this
      exact id
    | i + 2 => cases hw

/-- The corners of package fmt: numbers that do not fit, brackets that are not closed or empty, sizes behind a number, arguments left over. -/
example :
    let P := stdArgs showStd [some (Val.num (asc "int") (asc "5")), none]
    sprintfI P () (asc "%[0]d %d %d") = some (asc "%!d(BADINDEX) %d=5 %d") ∧ sprintfI P () (asc "%[1d") = some (asc "%!d(BADINDEX)") ∧
    sprintfI P () (asc "%[]d") = some (asc "%!d(BADINDEX)") ∧ sprintfI P () (asc "%[x]d") = some (asc "%!d(BADINDEX)") ∧ sprintfI P () (asc "%[1]5d") = some (asc "%!d(BADINDEX)") ∧
    sprintfI P () (asc "%[1].2d") = some (asc "%!d(BADINDEX)") ∧ sprintfI P () (asc "%.[1]*d") = some (asc "%.5d") ∧
    sprintfI P () (asc "%[2]d%d") = some (asc "%d%!d(MISSING)") ∧ sprintfI P () (asc "%d") = some (asc "%d=5%!(EXTRA <nil>)") ∧
    sprintfI P () (asc "%[1]d") = some (asc "%d=5") ∧ sprintfI P () (asc "%[") = some (asc "%!(NOVERB)") ∧ sprintfI P () (asc "%[]") = some (asc "%!](BADINDEX)") := by
  decide +kernel

end Verif.Spew
