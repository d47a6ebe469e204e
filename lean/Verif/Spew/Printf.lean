import Verif.Spew.Verb
import Verif.Spew.Reuse

/-!
# C137 and C138: printing with formats and without

The functions of test/go-spew/spew/spew.go 32-138 and config.go 115-221 hand a formatter for each argument to the function of package fmt
with the same name.  What package fmt does with a format is modelled here as far as it touches the arguments.
-/

namespace Verif.Spew

/-! ### Model -/

/-- What package fmt needs to know about arguments (called by spew.go 33-137): how one is printed for a directive (`none`: printing does not
end), its value if it is an integer, its type (`none` for nil). -/
structure Printer (α : Type) where
  arg : Direc → α → Option Bytes
  int : α → Option Int
  type : α → Option Bytes
  isString : α → Bool

/-- `parsenum` of package fmt (called by spew.go 126): too large a number ends the format. -/
def sizeAt (s : Bytes) : Option Nat × Bytes :=
  match Difflib.readNum s with
  | none => (none, s)
  | some (n, r) => if n / 10 ≤ 1000000 then (some n, r) else (none, [])

/-- `intFromArg` of package fmt for a width that is `*` (called by spew.go 126). -/
def starWidth {α : Type} (P : Printer α) (d : Direc) : List α → Bytes × Direc × List α
  | [] => (asc "%!(BADWIDTH)", d, [])
  | a :: as =>
    match P.int a with
    | none => (asc "%!(BADWIDTH)", d, as)
    | some z =>
      if z > 1000000 ∨ z < -1000000 then (asc "%!(BADWIDTH)", d, as)
      else if z < 0 then ([], { d with wid := some z.natAbs, minus := true, zero := false }, as)
      else ([], { d with wid := some z.natAbs }, as)

/-- `intFromArg` of package fmt for a precision that is `*` (called by spew.go 126). -/
def starPrec {α : Type} (P : Printer α) (d : Direc) : List α → Bytes × Direc × List α
  | [] => (asc "%!(BADPREC)", d, [])
  | a :: as =>
    match P.int a with
    | none => (asc "%!(BADPREC)", d, as)
    | some z => if z > 1000000 ∨ z < 0 then (asc "%!(BADPREC)", d, as) else ([], { d with prec := some z.natAbs }, as)

/-- The width of a directive in `doPrintf` of package fmt (called by spew.go 126). -/
def widthPart {α : Type} (P : Printer α) (d : Direc) (as : List α) (s : Bytes) : (Bytes × Direc × List α) × Bytes :=
  if s.head? = some 42 then (starWidth P d as, s.tail)
  else (([], { d with wid := (sizeAt s).1 }, as), (sizeAt s).2)

/-- The precision of a directive in `doPrintf` of package fmt (called by spew.go 126). -/
def precPart {α : Type} (P : Printer α) (d : Direc) (as : List α) (s : Bytes) : (Bytes × Direc × List α) × Bytes :=
  if s.head? = some 46 then
    if s.tail.head? = some 42 then (starPrec P d as, s.tail.tail)
    else (([], { d with prec := some ((sizeAt s.tail).1.getD 0) }, as), (sizeAt s.tail).2)
  else (([], d, as), s)

/-- The verb of a directive in `doPrintf` of package fmt (called by spew.go 126). -/
def verbPart {α : Type} (P : Printer α) (d : Direc) (as : List α) : Bytes → Option (Bytes × List α × Bytes)
  | [] => some (asc "%!(NOVERB)", as, [])
  | v :: r =>
    if v = 37 then some (asc "%", as, r)
    else match as with
      | [] => some (asc "%!" ++ [v] ++ asc "(MISSING)", [], r)
      | a :: as => (P.arg { d with verb := v } a).map fun t => (t, as, r)

/-- One directive behind its `%` in `doPrintf` of package fmt (called by spew.go 126): what is written, the arguments and the format that
are left.  Simplified: verbs are bytes, and there are no numbers of arguments in brackets. -/
def directive {α : Type} (P : Printer α) (as : List α) (s : Bytes) : Option (Bytes × List α × Bytes) :=
  let f := readFlags ⟨false, false, false, false, false, none, none, 0⟩ s
  let w := widthPart P f.1 as f.2
  let p := precPart P w.1.2.1 w.1.2.2 w.2
  (verbPart P p.1.2.1 p.1.2.2 p.2).map fun x => (w.1.1 ++ p.1.1 ++ x.1, x.2)

/-- The loop of `doPrintf` of package fmt (called by spew.go 126), with fuel. -/
def runFormat {α : Type} (P : Printer α) : Nat → List α → Bytes → Option (Bytes × List α)
  | 0, as, _ => some ([], as)
  | _ + 1, as, [] => some ([], as)
  | n + 1, as, c :: s =>
    if c = 37 then (directive P as s).bind fun x => (runFormat P n x.2.1 x.2.2).map fun y => (x.1 ++ y.1, y.2)
    else (runFormat P n as s).map fun y => (c :: y.1, y.2)

/-- The plain directive `%v` (spew.go 45 and 115 through package fmt). -/
def plainV : Direc := ⟨false, false, false, false, false, none, none, 118⟩

/-- Arguments behind the last directive, at the end of `doPrintf` of package fmt (called by spew.go 126). -/
def extras {α : Type} (P : Printer α) : List α → Option (List Bytes)
  | [] => some []
  | a :: as => (match P.type a with
      | none => some (asc "<nil>")
      | some ty => (P.arg plainV a).map fun t => ty ++ asc "=" ++ t).bind fun t => (extras P as).map fun ts => t :: ts

/-- `fmt.Sprintf` (called by spew.go 126); `Errorf`, `Fprintf` and `Printf` (33, 57, 92) give or write the same text. -/
def sprintf {α : Type} (P : Printer α) (f : Bytes) (as : List α) : Option Bytes :=
  (runFormat P f.length as f).bind fun x =>
    if x.2.isEmpty then some x.1
    else (extras P x.2).map fun ts => x.1 ++ asc "%!(EXTRA " ++ (asc ", ").intercalate ts ++ asc ")"

/-- How package fmt prints the formatter for an argument: `%T` and `%p` are about the formatter itself (`own`), all else is left to its `Format`
(format.go 371-390): `%v` is its own, other verbs are handed back to package fmt with the value.  A formatter is a pointer to a struct
(format.go 394-397), so neither an integer nor a string. -/
def spewPrinter (E : Env) (n : Nat) (S : Printer (Option Val)) (own : Direc → Bytes) : Printer (Option Val) where
  arg d a :=
    if d.verb = 84 ∨ d.verb = 112 then some (own d)
    else if d.verb = 118 then formatV E ⟨d.plus, d.sharp⟩ n a
    else sprintf S (constructOrigFormat d) [a]
  int _ := none
  type _ := some (asc "*spew.formatState")
  isString _ := false

/-- The loop of `doPrint` of package fmt (called by spew.go 115); the Boolean tells whether a blank may follow. -/
def printLoop {α : Type} (P : Printer α) : Bool → List α → Option Bytes
  | _, [] => some []
  | gap, a :: as => (P.arg plainV a).bind fun t => (printLoop P (!P.isString a) as).map fun r =>
      (if gap && !P.isString a then asc " " else []) ++ t ++ r

/-- `fmt.Sprint` (called by spew.go 115); `Fprint` and `Print` (45, 80) write the same text. -/
def sprint {α : Type} (P : Printer α) (as : List α) : Option Bytes := printLoop P false as

/-- The loop of `doPrintln` of package fmt (called by spew.go 137). -/
def printlnLoop {α : Type} (P : Printer α) : Bool → List α → Option Bytes
  | _, [] => some (asc "\n")
  | gap, a :: as => (P.arg plainV a).bind fun t => (printlnLoop P true as).map fun r => (if gap then asc " " else []) ++ t ++ r

/-- `fmt.Sprintln` (called by spew.go 137); `Fprintln` and `Println` (68, 104) write the same text. -/
def sprintln {α : Type} (P : Printer α) (as : List α) : Option Bytes := printlnLoop P false as

/-- `fdump`, dump.go 453-468: one after the other.  `Dump`, `Fdump` and `Sdump` (472-509, config.go 246-283) write or return this text. -/
def sdumpAll (E : Env) (n : Nat) : List (Option Val) → Option Bytes
  | [] => some []
  | a :: as => (sdump E n a).bind fun t => (sdumpAll E n as).map fun r => t ++ r

/-! ### Specification -/

/-- A text for a format, directive by directive: the rest stays, `%%` is `%`, and every other directive takes one argument, which `text` puts
into words, or says that it is missing if there are no more. -/
inductive Filled {α : Type} (text : Direc → α → Bytes → Prop) : Bytes → List α → Bytes → Prop
  | nil : Filled text [] [] []
  | lit {c f as o} : c ≠ 37 → Filled text f as o → Filled text (c :: f) as (c :: o)
  | percent {f as o} : Filled text f as o → Filled text (37 :: 37 :: f) as (37 :: o)
  | dir {t d f a as x o} : readDirec (37 :: t) = some d → d.verb ≠ 37 → text d a x → Filled text f as o →
      Filled text (37 :: (t ++ f)) (a :: as) (x ++ o)
  | short {t d f o} : readDirec (37 :: t) = some d → d.verb ≠ 37 → Filled text f [] o →
      Filled text (37 :: (t ++ f)) [] (asc "%!" ++ [d.verb] ++ asc "(MISSING)" ++ o)

/-- What spew promises for one directive: `%v` with its flags is the text of a new formatter, every other verb is as in package fmt. -/
def Promised (E : Env) (n : Nat) (S : Printer (Option Val)) (d : Direc) (a : Option Val) (x : Bytes) : Prop :=
  if d.verb = 118 then formatV E ⟨d.plus, d.sharp⟩ n a = some x else S.arg d a = some x

/-- Verbs for which the promise is kept: ASCII characters that are no signs, except `T` and `p`. -/
def Kept (d : Direc) : Prop := IsVerb d.verb ∧ d.verb < 128 ∧ d.verb ≠ 84 ∧ d.verb ≠ 112

/-! ### Proofs -/

theorem while_append {α : Type} (p : α → Bool) (r : List α) : ∀ t : List α, t.dropWhile p ≠ [] →
    (t ++ r).takeWhile p = t.takeWhile p ∧ (t ++ r).dropWhile p = t.dropWhile p ++ r := by
  intro t
  induction t with
  | nil => intro h; exact absurd rfl h
  | cons c t ih =>
    intro h
    by_cases hc : p c = true
    · rw [List.dropWhile_cons_of_pos hc] at h
      simp [hc, ih h]
    · simp [hc]

theorem readNum_append {t : Bytes} (r : Bytes) (h : (t.dropWhile fun c => 48 ≤ c && c ≤ 57) ≠ []) :
    Difflib.readNum (t ++ r) = (Difflib.readNum t).map fun x => (x.1, x.2 ++ r) := by
  obtain ⟨h1, h2⟩ := while_append (fun c : UInt8 => 48 ≤ c && c ≤ 57) r t h
  unfold Difflib.readNum
  simp only [h1, h2]
  split <;> rfl

theorem size_append {t t' : Bytes} {w : Option Nat} (r : Bytes) (h : readSize t = some (w, t')) (ht : t' ≠ []) :
    sizeAt (t ++ r) = (w, t' ++ r) := by
  have hd : (t.dropWhile fun c => 48 ≤ c && c ≤ 57) ≠ [] := by
    unfold readSize Difflib.readNum at h
    simp only at h
    by_cases h0 : (t.takeWhile fun c => 48 ≤ c && c ≤ 57) = []
    · rw [if_pos h0] at h
      cases h
      have := List.takeWhile_append_dropWhile (p := fun c : UInt8 => 48 ≤ c && c ≤ 57) (l := t)
      rw [h0, List.nil_append] at this
      rwa [this]
    · rw [if_neg h0] at h
      simp only at h
      split at h
      · cases h; exact ht
      · cases h
  unfold sizeAt
  rw [readNum_append r hd]
  unfold readSize at h
  cases hn : Difflib.readNum t with
  | none => rw [hn] at h; cases h; rfl
  | some x =>
    rw [hn] at h
    simp only [Option.map_some] at h ⊢
    split at h
    · rename_i hle
      cases h
      rw [if_pos hle]
    · cases h

theorem flags_append (r : Bytes) : ∀ (t : Bytes) (e : Direc), (readFlags e t).2 ≠ [] →
    readFlags e (t ++ r) = ((readFlags e t).1, (readFlags e t).2 ++ r) := by
  intro t
  induction t with
  | nil => intro e h; exact absurd rfl h
  | cons c t ih =>
    intro e h
    rw [List.cons_append, readFlags, readFlags]
    rw [readFlags] at h
    split
    · rename_i hc; rw [if_pos hc] at h; exact ih _ h
    · rename_i h1
      rw [if_neg h1] at h
      split
      · rename_i hc; rw [if_pos hc] at h; exact ih _ h
      · rename_i h1
        rw [if_neg h1] at h
        split
        · rename_i hc; rw [if_pos hc] at h; exact ih _ h
        · rename_i h1
          rw [if_neg h1] at h
          split
          · rename_i hc; rw [if_pos hc] at h; exact ih _ h
          · rename_i h1
            rw [if_neg h1] at h
            split
            · rename_i hc; rw [if_pos hc] at h; exact ih _ h
            · rfl

theorem flags_prec : ∀ (t : Bytes) (e : Direc), (readFlags e t).1.prec = e.prec := by
  intro t
  induction t with
  | nil => intro e; rfl
  | cons c t ih =>
    intro e
    rw [readFlags]
    repeat' split
    all_goals first | rw [ih] | rfl

/-- The steps of reading a directive that is the whole format. -/
theorem readDirec_steps {t : Bytes} {d : Direc} (h : readDirec (37 :: t) = some d) :
    ∃ e u wid s prec, readFlags ⟨false, false, false, false, false, none, none, 0⟩ t = (e, u) ∧ readSize u = some (wid, s) ∧
      ((s.head? = some 46 ∧ ∃ p, readSize s.tail = some (p, [d.verb]) ∧ prec = some (p.getD 0)) ∨ (s = [d.verb] ∧ prec = none ∧ d.verb ≠ 46)) ∧
      d.verb ≠ 42 ∧ d.verb ≠ 91 ∧ d = { e with wid := wid, prec := prec, verb := d.verb } := by
  rw [readDirec, if_pos rfl] at h
  cases hf : readFlags ⟨false, false, false, false, false, none, none, 0⟩ t with
  | mk e u =>
    rw [hf] at h
    simp only at h
    cases hs : readSize u with
    | none => rw [hs] at h; cases h
    | some x =>
      obtain ⟨wid, s⟩ := x
      rw [hs] at h
      simp only at h
      split at h
      · rename_i prec verb hm
        split at h
        · cases h
        · rename_i hv
          cases h
          refine ⟨e, u, wid, s, prec, rfl, hs, ?_, fun h => hv (.inl h), fun h => hv (.inr h), rfl⟩
          split at hm
          · rename_i s
            obtain ⟨⟨p, s'⟩, h1, h2⟩ := Option.map_eq_some_iff.mp hm
            cases h2
            exact .inl ⟨rfl, p, h1, rfl⟩
          · rename_i hne
            cases hm
            exact .inr ⟨rfl, rfl, fun h => hne [] (congrArg (fun x => [x]) h)⟩
      · cases h

theorem directive_verb {α : Type} (P : Printer α) {t : Bytes} {d : Direc} (h : readDirec (37 :: t) = some d) (as : List α) (r : Bytes) :
    ∃ e, { e with verb := d.verb } = d ∧ directive P as (t ++ r) = verbPart P e as (d.verb :: r) := by
  obtain ⟨e, u, wid, s, prec, h1, h2, h3, h4, h5, h6⟩ := readDirec_steps h
  have hs0 : s ≠ [] := by
    rcases h3 with ⟨h, _⟩ | ⟨h, _⟩ <;> (rintro rfl; cases h)
  have hu : u ≠ [] := by
    rintro rfl
    have : readSize [] = some (none, []) := rfl
    rw [this] at h2
    cases h2
    exact hs0 rfl
  have hf := flags_append r t ⟨false, false, false, false, false, none, none, 0⟩ (by rw [h1]; exact hu)
  rw [h1] at hf
  have hu42 : u.head? ≠ some 42 := by
    cases u with
    | nil => exact absurd rfl hu
    | cons c u =>
      rintro he
      cases he
      rw [readSize_none (by decide)] at h2
      cases h2
      rcases h3 with ⟨h, _⟩ | ⟨h, _⟩
      · cases h
      · injection h with h _; exact h4 h.symm
  have hw : widthPart P e as (u ++ r) = (([], { e with wid := wid }, as), s ++ r) := by
    unfold widthPart
    rw [if_neg (by rw [List.head?_append_of_ne_nil _ hu]; exact hu42), size_append r h2 hs0]
  have hpp : precPart P { e with wid := wid } as (s ++ r) = (([], { e with wid := wid, prec := prec }, as), d.verb :: r) := by
    unfold precPart
    rw [List.head?_append_of_ne_nil _ hs0]
    rcases h3 with ⟨h, p, hp1, rfl⟩ | ⟨rfl, rfl, hv⟩
    · rw [if_pos h]
      have ht : (s ++ r).tail = s.tail ++ r := by cases s with
        | nil => exact absurd rfl hs0
        | cons c s => rfl
      have ht0 : s.tail ≠ [] := by
        intro he
        rw [he] at hp1
        cases hp1
      have h42 : s.tail.head? ≠ some 42 := by
        generalize s.tail = q at *
        cases q with
        | nil => exact absurd rfl ht0
        | cons c q =>
          rintro he
          cases he
          rw [readSize_none (by decide)] at hp1
          injection hp1 with hp1
          injection hp1 with _ hp1
          injection hp1 with hp1 _
          exact h4 hp1.symm
      rw [ht, List.head?_append_of_ne_nil _ ht0, if_neg h42, size_append r hp1 (by simp)]
      rfl
    · have he : e.prec = none := by
        have := flags_prec t ⟨false, false, false, false, false, none, none, 0⟩
        rw [h1] at this
        exact this
      rw [if_neg (by simpa using hv), ← he]
      rfl
  refine ⟨{ e with wid := wid, prec := prec }, h6.symm, ?_⟩
  unfold directive
  simp only [hf, hw, hpp]
  simp

theorem directive_reads {α : Type} (P : Printer α) {t : Bytes} {d : Direc} (h : readDirec (37 :: t) = some d) (hp : d.verb ≠ 37) (a : α) (as : List α)
    (r : Bytes) : directive P (a :: as) (t ++ r) = (P.arg d a).map fun x => (x, as, r) := by
  obtain ⟨e, he, hd⟩ := directive_verb P h (a :: as) r
  rw [hd, verbPart, if_neg hp]
  simp only [he]

theorem directive_short {α : Type} (P : Printer α) {t : Bytes} {d : Direc} (h : readDirec (37 :: t) = some d) (hp : d.verb ≠ 37) (r : Bytes) :
    directive P [] (t ++ r) = some (asc "%!" ++ [d.verb] ++ asc "(MISSING)", [], r) := by
  obtain ⟨e, _, hd⟩ := directive_verb P h [] r
  rw [hd, verbPart, if_neg hp]

/-- Formats are filled. -/
theorem run_filled {α : Type} (P : Printer α) {text : Direc → α → Bytes → Prop}
    (hP : ∀ t d a x, readDirec (37 :: t) = some d → text d a x → P.arg d a = some x) {f : Bytes} {as : List α} {o : Bytes}
    (h : Filled text f as o) : ∀ n, f.length ≤ n → runFormat P n as f = some (o, []) := by
  induction h with
  | nil => intro n _; cases n <;> rfl
  | lit hc _ ih =>
    intro n hn
    cases n with
    | zero => cases hn
    | succ n =>
      rw [runFormat, if_neg hc, ih n (by simpa using hn)]
      rfl
  | percent _ ih =>
    intro n hn
    cases n with
    | zero => cases hn
    | succ n =>
      rename_i f as o _
      have hd : directive P as (37 :: f) = some (asc "%", as, f) := rfl
      rw [runFormat, if_pos rfl, hd, Option.bind_some, ih n (by simp at hn; omega)]
      rfl
  | dir h1 h2 h3 _ ih =>
    intro n hn
    cases n with
    | zero => cases hn
    | succ n =>
      rw [runFormat, if_pos rfl, directive_reads P h1 h2, hP _ _ _ _ h1 h3, Option.map_some, Option.bind_some,
        ih n (by simp at hn; omega)]
      rfl
  | short h1 h2 _ ih =>
    intro n hn
    cases n with
    | zero => cases hn
    | succ n =>
      rw [runFormat, if_pos rfl, directive_short P h1 h2, Option.bind_some, ih n (by simp at hn; omega)]
      rfl

theorem sprintf_filled {α : Type} (P : Printer α) {text : Direc → α → Bytes → Prop}
    (hP : ∀ t d a x, readDirec (37 :: t) = some d → text d a x → P.arg d a = some x) {f : Bytes} {as : List α} {o : Bytes}
    (h : Filled text f as o) : sprintf P f as = some o := by
  unfold sprintf
  rw [run_filled P hP h _ (Nat.le_refl _)]
  rfl

theorem flags_sane : ∀ (t : Bytes) (e : Direc), ¬(e.zero = true ∧ e.minus = true) →
    ¬((readFlags e t).1.zero = true ∧ (readFlags e t).1.minus = true) ∧ (readFlags e t).2.head? ≠ some 48 := by
  intro t
  induction t with
  | nil => intro e h; exact ⟨h, by simp [readFlags]⟩
  | cons c t ih =>
    intro e h
    rw [readFlags]
    split
    · exact ih _ h
    · split
      · exact ih _ (by cases hm : e.minus <;> simp)
      · rename_i hz
        split
        · exact ih _ h
        · split
          · exact ih _ (by simp)
          · split
            · exact ih _ h
            · exact ⟨h, by simpa using hz⟩

theorem fold_ge : ∀ (ds : Bytes) (n : Nat), n ≤ ds.foldl (fun n c => n * 10 + (c.toNat - 48)) n := by
  intro ds
  induction ds with
  | nil => intro n; exact Nat.le_refl _
  | cons c ds ih =>
    intro n
    exact Nat.le_trans (show n ≤ n * 10 + (c.toNat - 48) by omega) (ih _)

theorem readNum_pos {u s : Bytes} {w : Nat} (hu : u.head? ≠ some 48) (h : Difflib.readNum u = some (w, s)) : w ≠ 0 := by
  unfold Difflib.readNum at h
  simp only at h
  cases u with
  | nil => cases h
  | cons c u =>
    by_cases hc : (48 ≤ c && c ≤ 57) = true
    · rw [List.takeWhile_cons_of_pos (p := fun c : UInt8 => 48 ≤ c && c ≤ 57) hc, if_neg (by simp)] at h
      simp only [Option.some.injEq, Prod.mk.injEq] at h
      have h2 := fold_ge (u.takeWhile fun c => 48 ≤ c && c ≤ 57) (0 * 10 + (c.toNat - 48))
      rw [← h.1, List.foldl_cons]
      have h3 : 48 < c.toNat := by
        have h48 : (48 : UInt8).toNat = 48 := rfl
        simp only [Bool.and_eq_true, decide_eq_true_eq] at hc
        have h4 : 48 ≤ c.toNat := hc.1
        have h5 : c.toNat ≠ 48 := fun he => hu (by rw [List.head?_cons, UInt8.toNat.inj (he.trans h48.symm)])
        omega
      omega
    · rw [List.takeWhile_cons_of_neg (p := fun c : UInt8 => 48 ≤ c && c ≤ 57) hc, if_pos rfl] at h
      cases h

theorem readSize_small {u s : Bytes} {w : Option Nat} (h : readSize u = some (w, s)) : ∀ x, w = some x → Difflib.readNum u = some (x, s) ∧ x / 10 ≤ 1000000 := by
  intro x hx
  unfold readSize at h
  cases hn : Difflib.readNum u with
  | none => rw [hn] at h; cases h; cases hx
  | some y =>
    rw [hn] at h
    simp only at h
    split at h
    · rename_i hle
      cases h
      cases hx
      exact ⟨rfl, hle⟩
    · cases h

/-- Directives that were read are such that the one handed on is read as the same. -/
theorem handed_on {t : Bytes} {d : Direc} (h : readDirec (37 :: t) = some d) (hv : IsVerb d.verb) : readDirec (constructOrigFormat d) = some d := by
  obtain ⟨e, u, wid, s, prec, h1, h2, h3, h4, h5, h6⟩ := readDirec_steps h
  have hs := flags_sane t ⟨false, false, false, false, false, none, none, 0⟩ (by decide)
  rw [h1] at hs
  have hwid : d.wid = wid := by rw [h6]
  have hprec : d.prec = prec := by rw [h6]
  refine orig_format_partial ?_ ⟨fun w hw => ?_, fun p hp => ?_⟩ ?_ hv
  · rw [h6]; exact hs.1
  · exact (readSize_small h2 w (hwid.symm.trans hw)).2
  · rcases h3 with ⟨_, q, hq, rfl⟩ | ⟨_, rfl, _⟩
    · rw [hprec] at hp
      cases q with
      | none => cases hp; decide
      | some q => cases hp; exact (readSize_small hq q rfl).2
    · rw [hprec] at hp; cases hp
  · intro hw
    exact readNum_pos hs.2 (readSize_small h2 0 (hwid.symm.trans hw)).1 rfl

/-- One directive handed on alone. -/
theorem sprintf_one {α : Type} (P : Printer α) {d : Direc} (hr : readDirec (constructOrigFormat d) = some d) (hp : d.verb ≠ 37) {a : α} {x : Bytes}
    (hx : P.arg d a = some x) : sprintf P (constructOrigFormat d) [a] = some x := by
  have he : constructOrigFormat d = 37 :: ((chunks d).flatten ++ []) := by rw [List.append_nil]; rfl
  rw [he] at hr ⊢
  rw [List.append_nil] at hr
  have := sprintf_filled P (text := fun d a x => P.arg d a = some x) (fun _ _ _ _ _ h => h) (Filled.dir hr hp hx .nil)
  simpa using this

/-- C137, part: a format whose directives use verbs other than `T` and `p`, with arguments for some of them from the first on, is filled as
promised: `%v` by spew, other verbs as by package fmt, and what is missing is said to be.  Missing: `%T`, `%p` (`own_type`), widths and precisions from arguments (`star_width`), and arguments left over
(`extra_shown`), where the formatters themselves show. -/
theorem printf_partial (E : Env) (n : Nat) (S : Printer (Option Val)) (own : Direc → Bytes) {f : Bytes} {as : List (Option Val)} {o : Bytes}
    (h : Filled (fun d a x => Promised E n S d a x ∧ Kept d) f as o) : sprintf (spewPrinter E n S own) f as = some o := by
  have key : ∀ t d a x, readDirec (37 :: t) = some d → (d.verb ≠ 37 ∧ Promised E n S d a x ∧ Kept d) → (spewPrinter E n S own).arg d a = some x := by
    rintro t d a x hr ⟨hp, hx, hk⟩
    show (if d.verb = 84 ∨ d.verb = 112 then _ else _) = _
    rw [if_neg (by rintro (h | h); exact hk.2.2.1 h; exact hk.2.2.2 h)]
    unfold Promised at hx
    by_cases hv : d.verb = 118
    · rw [if_pos hv] at hx ⊢; exact hx
    · rw [if_neg hv] at hx ⊢
      exact sprintf_one S (handed_on hr hk.1) hp hx
  refine sprintf_filled _ key ?_
  clear key
  induction h with
  | nil => exact .nil
  | lit hc _ ih => exact .lit hc ih
  | percent _ ih => exact .percent ih
  | dir h1 h2 h3 _ ih => exact .dir h1 h2 ⟨h2, h3⟩ ih
  | short h1 h2 _ ih => exact .short h1 h2 ih

/-- Package fmt itself fills formats with its own texts. -/
theorem std_filled {α : Type} (S : Printer α) {f : Bytes} {as : List α} {o : Bytes} (h : Filled (fun d a x => S.arg d a = some x) f as o) :
    sprintf S f as = some o := sprintf_filled S (fun _ _ _ _ _ h => h) h

/-- Without `%v`, `%T` and `%p`, spew prints what package fmt prints. -/
theorem printf_same (E : Env) (n : Nat) (S : Printer (Option Val)) (own : Direc → Bytes) {f : Bytes} {as : List (Option Val)} {o : Bytes}
    (h : Filled (fun d a x => S.arg d a = some x ∧ Kept d ∧ d.verb ≠ 118) f as o) :
    sprintf (spewPrinter E n S own) f as = some o ∧ sprintf S f as = some o := by
  constructor
  · apply printf_partial
    induction h with
    | nil => exact .nil
    | lit hc _ ih => exact .lit hc ih
    | percent _ ih => exact .percent ih
    | dir h1 h2 h3 _ ih => exact .dir h1 h2 ⟨by unfold Promised; rw [if_neg h3.2.2]; exact h3.1, h3.2.1⟩ ih
    | short h1 h2 _ ih => exact .short h1 h2 ih
  · apply std_filled
    induction h with
    | nil => exact .nil
    | lit hc _ ih => exact .lit hc ih
    | percent _ ih => exact .percent ih
    | dir h1 h2 h3 _ ih => exact .dir h1 h2 h3.1 ih
    | short h1 h2 _ ih => exact .short h1 h2 ih

/-- C138: `Sprint` prints the texts of the arguments, each that of a new formatter, with blanks between all of them. -/
theorem sprint_blanks (E : Env) (n : Nat) (S : Printer (Option Val)) (own : Direc → Bytes) {as : List (Option Val)} {ts : List Bytes}
    (h : List.Forall₂ (fun a t => formatV E ⟨false, false⟩ n a = some t) as ts) : sprint (spewPrinter E n S own) as = some (blanks ts) := by
  have key : ∀ gap, printLoop (spewPrinter E n S own) gap as = some (gaps (!gap) ts) := by
    induction h with
    | nil => intro gap; cases gap <;> rfl
    | @cons a t as ts h _ ih =>
      intro gap
      have ha : (spewPrinter E n S own).arg plainV a = formatV E ⟨false, false⟩ n a := rfl
      have hs : (spewPrinter E n S own).isString a = false := rfl
      rw [printLoop, ha, h, Option.bind_some, hs, ih, gaps_cons]
      cases gap <;> simp
  exact key false

/-- C138: `Sprintln` prints the same and a line feed. -/
theorem sprintln_blanks (E : Env) (n : Nat) (S : Printer (Option Val)) (own : Direc → Bytes) {as : List (Option Val)} {ts : List Bytes}
    (h : List.Forall₂ (fun a t => formatV E ⟨false, false⟩ n a = some t) as ts) :
    sprintln (spewPrinter E n S own) as = some (blanks ts ++ asc "\n") := by
  have key : ∀ gap, printlnLoop (spewPrinter E n S own) gap as = some (gaps (!gap) ts ++ asc "\n") := by
    induction h with
    | nil => intro gap; cases gap <;> rfl
    | @cons a t as ts h _ ih =>
      intro gap
      have ha : (spewPrinter E n S own).arg plainV a = formatV E ⟨false, false⟩ n a := rfl
      rw [printlnLoop, ha, h, Option.bind_some, ih, gaps_cons]
      cases gap <;> simp
  exact key false

/-- C138: a dump of several arguments is their dumps one after the other. -/
theorem dump_each (E : Env) (n : Nat) {as : List (Option Val)} {ts : List Bytes} (h : List.Forall₂ (fun a t => sdump E n a = some t) as ts) :
    sdumpAll E n as = some ts.flatten := by
  induction h with
  | nil => rfl
  | cons h _ ih => rw [sdumpAll, h, Option.bind_some, ih]; rfl

/-! ### Disagreements and concrete cases -/

/-- A format that is one directive. -/
theorem sprintf_single {α : Type} (P : Printer α) {t : Bytes} {d : Direc} (hr : readDirec (37 :: t) = some d) (hp : d.verb ≠ 37) (a : α) :
    sprintf P (37 :: t) [a] = P.arg d a := by
  have he : ∀ n, runFormat P n [] [] = some ([], []) := fun n => by cases n <;> rfl
  unfold sprintf
  have hd := directive_reads P hr hp a [] []
  rw [List.append_nil] at hd
  rw [List.length_cons, runFormat, if_pos rfl, hd]
  cases P.arg d a with
  | none => rfl
  | some x => simp [he]

/-- C137 fails: `%T` is about the formatter. -/
theorem own_type (E : Env) (n : Nat) (S : Printer (Option Val)) (own : Direc → Bytes) (a : Option Val) :
    sprintf (spewPrinter E n S own) (asc "%T") [a] = some (own ⟨false, false, false, false, false, none, none, 84⟩) ∧
    sprintf S (asc "%T") [a] = S.arg ⟨false, false, false, false, false, none, none, 84⟩ a :=
  ⟨sprintf_single (spewPrinter E n S own) (t := asc "T") (d := ⟨false, false, false, false, false, none, none, 84⟩) (by decide +kernel) (by decide) a,
    sprintf_single S (t := asc "T") (by decide +kernel) (by decide) a⟩

/-- C137 fails: a width given by an argument is never taken, since the argument is a formatter; package fmt takes it, unless it is more than a
million; a negative one puts the padding on the right. -/
theorem star_width (E : Env) (n : Nat) (S : Printer (Option Val)) (own : Direc → Bytes) (w a : Option Val) (z : Int) (hw : S.int w = some z) :
    sprintf (spewPrinter E n S own) (asc "%*d") [w, a] =
      (S.arg ⟨false, false, false, false, false, none, none, 100⟩ a).map (asc "%!(BADWIDTH)" ++ ·) ∧
    sprintf S (asc "%*d") [w, a] =
      if z.natAbs ≤ 1000000 then S.arg ⟨false, decide (z < 0), false, false, false, some z.natAbs, none, 100⟩ a
      else (S.arg ⟨false, false, false, false, false, none, none, 100⟩ a).map (asc "%!(BADWIDTH)" ++ ·) := by
  have he : ∀ (P : Printer (Option Val)) n, runFormat P n [] [] = some ([], []) := fun P n => by cases n <;> rfl
  constructor
  · have h1 : (spewPrinter E n S own).arg ⟨false, false, false, false, false, none, none, 100⟩ a =
        S.arg ⟨false, false, false, false, false, none, none, 100⟩ a :=
      sprintf_single S (t := asc "d") (by decide +kernel) (by decide) a
    have h2 : directive (spewPrinter E n S own) [w, a] [42, 100] =
        ((spewPrinter E n S own).arg ⟨false, false, false, false, false, none, none, 100⟩ a).map fun t => (asc "%!(BADWIDTH)" ++ t, [], []) := by
      unfold directive
      simp [readFlags, widthPart, starWidth, precPart, verbPart, show (spewPrinter E n S own).int w = none from rfl]
      rfl
    show (runFormat (spewPrinter E n S own) 3 [w, a] [37, 42, 100]).bind _ = _
    rw [runFormat, if_pos rfl, h2, h1]
    cases S.arg ⟨false, false, false, false, false, none, none, 100⟩ a with
    | none => rfl
    | some x => simp [he]
  · show (runFormat S 3 [w, a] [37, 42, 100]).bind _ = _
    by_cases hz : z.natAbs ≤ 1000000
    · have h2 : directive S [w, a] [42, 100] =
          (S.arg ⟨false, decide (z < 0), false, false, false, some z.natAbs, none, 100⟩ a).map fun t => (t, [], []) := by
        have hb : ¬(z > 1000000 ∨ z < -1000000) := by omega
        unfold directive
        by_cases hn : z < 0
        · simp [readFlags, widthPart, starWidth, precPart, verbPart, hw, hb, hn]
          rfl
        · simp [readFlags, widthPart, starWidth, precPart, verbPart, hw, hb, hn]
          rfl
      rw [runFormat, if_pos rfl, h2, if_pos hz]
      cases S.arg ⟨false, decide (z < 0), false, false, false, some z.natAbs, none, 100⟩ a with
      | none => rfl
      | some x => simp [he]
    · have h2 : directive S [w, a] [42, 100] =
          (S.arg ⟨false, false, false, false, false, none, none, 100⟩ a).map fun t => (asc "%!(BADWIDTH)" ++ t, [], []) := by
        have hb : z > 1000000 ∨ z < -1000000 := by omega
        unfold directive
        simp [readFlags, widthPart, starWidth, precPart, verbPart, hw, hb]
        rfl
      rw [runFormat, if_pos rfl, h2, if_neg hz]
      cases S.arg ⟨false, false, false, false, false, none, none, 100⟩ a with
      | none => rfl
      | some x => simp [he]

/-- C137 fails: nor is a precision given by an argument. -/
theorem star_prec (E : Env) (n : Nat) (S : Printer (Option Val)) (own : Direc → Bytes) (w a : Option Val) (z : Int) (hw : S.int w = some z) :
    sprintf (spewPrinter E n S own) (asc "%.*d") [w, a] =
      (S.arg ⟨false, false, false, false, false, none, none, 100⟩ a).map (asc "%!(BADPREC)" ++ ·) ∧
    sprintf S (asc "%.*d") [w, a] =
      if 0 ≤ z ∧ z ≤ 1000000 then S.arg ⟨false, false, false, false, false, none, some z.natAbs, 100⟩ a
      else (S.arg ⟨false, false, false, false, false, none, none, 100⟩ a).map (asc "%!(BADPREC)" ++ ·) := by
  have he : ∀ (P : Printer (Option Val)) n, runFormat P n [] [] = some ([], []) := fun P n => by cases n <;> rfl
  have hz : sizeAt [46, 42, 100] = (none, [46, 42, 100]) := by decide +kernel
  constructor
  · have h1 : (spewPrinter E n S own).arg ⟨false, false, false, false, false, none, none, 100⟩ a =
        S.arg ⟨false, false, false, false, false, none, none, 100⟩ a :=
      sprintf_single S (t := asc "d") (by decide +kernel) (by decide) a
    have h2 : directive (spewPrinter E n S own) [w, a] [46, 42, 100] =
        ((spewPrinter E n S own).arg ⟨false, false, false, false, false, none, none, 100⟩ a).map fun t => (asc "%!(BADPREC)" ++ t, [], []) := by
      unfold directive
      simp [readFlags, widthPart, hz, starPrec, precPart, verbPart, show (spewPrinter E n S own).int w = none from rfl]
      rfl
    show (runFormat (spewPrinter E n S own) 4 [w, a] [37, 46, 42, 100]).bind _ = _
    rw [runFormat, if_pos rfl, h2, h1]
    cases S.arg ⟨false, false, false, false, false, none, none, 100⟩ a with
    | none => rfl
    | some x => simp [he]
  · show (runFormat S 4 [w, a] [37, 46, 42, 100]).bind _ = _
    by_cases hr : 0 ≤ z ∧ z ≤ 1000000
    · have h2 : directive S [w, a] [46, 42, 100] =
          (S.arg ⟨false, false, false, false, false, none, some z.natAbs, 100⟩ a).map fun t => (t, [], []) := by
        have hb : ¬(z > 1000000 ∨ z < 0) := by omega
        unfold directive
        simp [readFlags, widthPart, hz, starPrec, precPart, verbPart, hw, hb]
        rfl
      rw [runFormat, if_pos rfl, h2, if_pos hr]
      cases S.arg ⟨false, false, false, false, false, none, some z.natAbs, 100⟩ a with
      | none => rfl
      | some x => simp [he]
    · have h2 : directive S [w, a] [46, 42, 100] =
          (S.arg ⟨false, false, false, false, false, none, none, 100⟩ a).map fun t => (asc "%!(BADPREC)" ++ t, [], []) := by
        have hb : z > 1000000 ∨ z < 0 := by omega
        unfold directive
        simp [readFlags, widthPart, hz, starPrec, precPart, verbPart, hw, hb]
        rfl
      rw [runFormat, if_pos rfl, h2, if_neg hr]
      cases S.arg ⟨false, false, false, false, false, none, none, 100⟩ a with
      | none => rfl
      | some x => simp [he]

/-- C137 fails: arguments left over are shown as formatters. -/
theorem extra_shown (E : Env) (n : Nat) (S : Printer (Option Val)) (own : Direc → Bytes) (a : Option Val) (x : Bytes)
    (h : formatV E ⟨false, false⟩ n a = some x) :
    sprintf (spewPrinter E n S own) [] [a] = some (asc "%!(EXTRA *spew.formatState=" ++ x ++ asc ")") := by
  have ha : (spewPrinter E n S own).arg plainV a = some x := h
  show ((extras (spewPrinter E n S own) [a]).map fun ts => [] ++ asc "%!(EXTRA " ++ (asc ", ").intercalate ts ++ asc ")") = _
  rw [extras, show (spewPrinter E n S own).type a = some (asc "*spew.formatState") from rfl]
  simp only [ha, extras]
  simp [asc, List.intercalate]

/-- Text without directives is written as it is. -/
theorem runFormat_text {α : Type} (P : Printer α) (as : List α) : ∀ (n : Nat) (f : Bytes), 37 ∉ f → f.length ≤ n →
    runFormat P n as f = some (f, as) := by
  intro n
  induction n with
  | zero => intro f _ hl; rw [List.length_eq_zero_iff.mp (Nat.le_zero.mp hl)]; rfl
  | succ n ih =>
    intro f hf hl
    cases f with
    | nil => rfl
    | cons c f =>
      simp only [List.mem_cons, not_or] at hf
      rw [runFormat, if_neg (Ne.symm hf.1), ih f hf.2 (by simpa using hl)]
      rfl

/-- Any number of arguments behind a text without directives are shown there in their order, as `%v` shows them. -/
theorem extras_shown (E : Env) (n : Nat) (S : Printer (Option Val)) (own : Direc → Bytes) (f : Bytes) (hf : 37 ∉ f)
    (as : List (Option Val)) (xs : List Bytes) (hne : as ≠ []) (h : as.map (formatV E ⟨false, false⟩ n) = xs.map some) :
    sprintf (spewPrinter E n S own) f as =
      some (f ++ asc "%!(EXTRA " ++ (asc ", ").intercalate (xs.map (asc "*spew.formatState=" ++ ·)) ++ asc ")") := by
  have he : ∀ (as : List (Option Val)) (xs : List Bytes), as.map (formatV E ⟨false, false⟩ n) = xs.map some →
      extras (spewPrinter E n S own) as = some (xs.map (asc "*spew.formatState=" ++ ·)) := by
    intro as
    induction as with
    | nil =>
      intro xs h
      cases xs with
      | nil => rfl
      | cons x xs => simp at h
    | cons a as ih =>
      intro xs h
      cases xs with
      | nil => simp at h
      | cons x xs =>
        simp only [List.map_cons, List.cons.injEq] at h
        have ha : (spewPrinter E n S own).arg plainV a = some x := h.1
        rw [extras, show (spewPrinter E n S own).type a = some (asc "*spew.formatState") from rfl]
        simp only [ha, ih xs h.2, Option.map_some, Option.bind_some, List.map_cons, Option.some.injEq, List.cons.injEq, and_true]
        simp [asc]
  rw [sprintf, runFormat_text _ as f.length f hf (Nat.le_refl _), Option.bind_some]
  rw [if_neg (by simpa using hne), he as xs h]
  rfl

/-- A package fmt that shows its directives, for the examples. -/
def showStd : Printer (Option Val) where
  arg d a := if d.verb = 84 then some (asc "int") else some (constructOrigFormat d ++ match a with | some (.num _ t) => asc "=" ++ t | _ => [])
  int a := match a with | some (.num _ _) => some 5 | _ => none
  type a := a.map fun _ => asc "int"
  isString a := match a with | some (.num _ _) => false | _ => true

/-- `Sprintf("n %d, %+v%%", 5, &ring)`. -/
example : sprintf (spewPrinter ring 9 showStd fun _ => asc "*spew.formatState") (asc "n %-05d, %+v%%") [some (.num (asc "int") (asc "5")), some (.ptr (asc "*main.Node") 1)] =
    some (asc "n %-5d=5, <*>(0x1){Next:<*>(0x2){Next:<*>(0x1)<shown>}}%") := by decide +kernel

/-- Two arguments too many. -/
example : [some (.num (asc "int") (asc "5")), some (.num (asc "int") (asc "6"))].map (formatV ring ⟨false, false⟩ 9) = [asc "5", asc "6"].map some ∧
    37 ∉ asc "done" := by decide +kernel

/-- The hypothesis of `printf_partial` for the same call. -/
example : Filled (fun d a x => Promised ring 9 showStd d a x ∧ Kept d) (asc "n %-05d, %+v%%") [some (.num (asc "int") (asc "5")), some (.ptr (asc "*main.Node") 1)]
    (asc "n %-5d=5, <*>(0x1){Next:<*>(0x2){Next:<*>(0x1)<shown>}}%") := by
  refine .lit (by decide) (.lit (by decide) (.dir (t := asc "-05d") (d := ⟨false, true, false, false, false, some 5, none, 100⟩)
    (x := asc "%-5d=5") (by decide +kernel) (by decide) ⟨?_, by decide, by decide, by decide, by decide⟩ ?_))
  · unfold Promised; rw [if_neg (by decide)]; decide +kernel
  · refine .lit (by decide) (.lit (by decide) (.dir (t := asc "+v") (d := ⟨false, false, true, false, false, none, none, 118⟩)
      (x := asc "<*>(0x1){Next:<*>(0x2){Next:<*>(0x1)<shown>}}") (by decide +kernel) (by decide) ⟨?_, by decide, by decide, by decide, by decide⟩ (.percent .nil)))
    unfold Promised; rw [if_pos rfl]; decide +kernel

/-- An argument is missing. -/
example : Filled (fun d a x => Promised ring 9 showStd d a x ∧ Kept d) (asc "%5v.") [] (asc "%!v(MISSING).") :=
  .short (t := asc "5v") (d := ⟨false, false, false, false, false, some 5, none, 118⟩) (by decide +kernel) (by decide) (.lit (by decide) .nil)

/-- Sizes from arguments, types and arguments left over; and what package fmt would print. -/
example :
    let P := spewPrinter ring 9 showStd fun _ => asc "*spew.formatState"
    let five := some (Val.num (asc "int") (asc "5"))
    sprintf P (asc "%*d") [five, five] = some (asc "%!(BADWIDTH)%d=5") ∧ sprintf showStd (asc "%*d") [five, five] = some (asc "%5d=5") ∧
    sprintf P (asc "%T") [five] = some (asc "*spew.formatState") ∧ sprintf showStd (asc "%T") [five] = some (asc "int") ∧
    sprintf P (asc "%d") [five, five] = some (asc "%d=5%!(EXTRA *spew.formatState=5)") ∧
    sprintf P (asc "%d %") [] = some (asc "%!d(MISSING) %!(NOVERB)") ∧
    sprintf showStd (asc "%1000000d") [five] = some (asc "%1000000d=5") ∧ sprintf showStd (asc "%.100000000d") [five] = some (asc "%!(NOVERB)%!(EXTRA int=%v=5)") ∧
    sprintf showStd [] [none, five] = some (asc "%!(EXTRA <nil>, int=%v=5)") := by decide +kernel

/-- `Sprint` of texts: package fmt puts no blank between strings, spew does. -/
example : sprint (spewPrinter ring 9 showStd fun _ => []) [none, none] = some (asc "<nil> <nil>") ∧ sprint showStd [none, none] = some (asc "%v%v") ∧
    sprint showStd [some (.num (asc "int") (asc "5")), none] = some (asc "%v=5%v") ∧
    sprintln (spewPrinter ring 9 showStd fun _ => []) [none, some (.num (asc "int") (asc "5"))] = some (asc "<nil> 5\n") ∧
    List.Forall₂ (fun a t => formatV ring ⟨false, false⟩ 9 a = some t) [none, some (.num (asc "int") (asc "5"))] [asc "<nil>", asc "5"] ∧
    sdumpAll ring 9 [none, some (.num (asc "int") (asc "5"))] = some (asc "(interface {}) <nil>\n(int) 5\n") := by
  refine ⟨by decide +kernel, by decide +kernel, by decide +kernel, by decide +kernel, .cons (by decide +kernel) (.cons (by decide +kernel) .nil), by decide +kernel⟩

end Verif.Spew
