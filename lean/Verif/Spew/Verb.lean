import Verif.Spew.FormatEnds

/-!
# go-spew: handing other verbs on to package fmt

Models `constructOrigFormat` (/repo/test/go-spew/spew/format.go 65-87): the formatter only knows `%v`; for
every other verb it puts the directive together again from what `fmt.State` tells and calls
`fmt.Fprintf`.  The buffer for it is made from the package variable `percentBytes` (common.go 57), which
all calls share.
-/

namespace Verif.Spew

/-- What `Format(fs fmt.State, verb rune)`, format.go 371, gets told about a directive: the flags, width and
precision of `fs`, and the verb.  Simplification: the verb is one byte. -/
structure Direc where
  zero : Bool
  minus : Bool
  plus : Bool
  sharp : Bool
  space : Bool
  wid : Option Nat
  prec : Option Nat
  verb : UInt8
deriving DecidableEq

/-- The calls of `buf.Write…` at format.go 68-83, in order; `supportedFlags` is `"0-+# "` (format.go 28). -/
def chunks (d : Direc) : List Bytes :=
  (if d.zero then [asc "0"] else []) ++ (if d.minus then [asc "-"] else []) ++ (if d.plus then [asc "+"] else []) ++
  (if d.sharp then [asc "#"] else []) ++ (if d.space then [asc " "] else []) ++
  (match d.wid with | some w => [Difflib.decimal w] | none => []) ++
  (match d.prec with | some p => [asc ".", Difflib.decimal p] | none => []) ++ [[d.verb]]

/-- `constructOrigFormat`, format.go 65-87, for a call that has the buffer to itself. -/
def constructOrigFormat (d : Direc) : Bytes := asc "%" ++ (chunks d).flatten

/-! ## Specification: how package fmt reads a directive -/

/-- The flags, in any order; zeros pad only on the left. -/
def readFlags : Direc → Bytes → Direc × Bytes
  | d, [] => (d, [])
  | d, c :: s =>
    if c = 35 then readFlags { d with sharp := true } s
    else if c = 48 then readFlags { d with zero := !d.minus } s
    else if c = 43 then readFlags { d with plus := true } s
    else if c = 45 then readFlags { d with minus := true, zero := false } s
    else if c = 32 then readFlags { d with space := true } s
    else (d, c :: s)

/-- A number if there is one; package fmt takes no further digit once it is above a million. -/
def readSize (s : Bytes) : Option (Option Nat × Bytes) :=
  match Difflib.readNum s with
  | none => some (none, s)
  | some (n, s) => if n / 10 ≤ 1000000 then some (some n, s) else none

/-- One directive that is the whole format: flags, width, a point and the precision, the verb.  `none` if it
is something else (of that, package fmt also takes numbers of arguments in brackets and `*` for sizes). -/
def readDirec : Bytes → Option Direc
  | [] => none
  | c :: s =>
    if c = 37 then
      let (d, s) := readFlags ⟨false, false, false, false, false, none, none, 0⟩ s
      match readSize s with
      | none => none
      | some (wid, s) =>
        match (match s with
          | 46 :: s => (readSize s).map fun (p, s) => (some (p.getD 0), s)
          | s => some (none, s)) with
        | some (prec, [verb]) => if verb = 42 ∨ verb = 91 then none else some { d with wid := wid, prec := prec, verb := verb }
        | _ => none
    else none

/-- What can be a verb: no digit, no flag, and none of `.`, `*` and `[`. -/
def IsVerb (c : UInt8) : Prop :=
  (48 ≤ c && c ≤ 57) = false ∧ c ≠ 35 ∧ c ≠ 43 ∧ c ≠ 45 ∧ c ≠ 32 ∧ c ≠ 46 ∧ c ≠ 42 ∧ c ≠ 91

instance (c : UInt8) : Decidable (IsVerb c) := by unfold IsVerb; infer_instance

/-- The sizes are ones that package fmt takes. -/
def Sized (d : Direc) : Prop := (∀ w, d.wid = some w → w / 10 ≤ 1000000) ∧ ∀ p, d.prec = some p → p / 10 ≤ 1000000

/-! ## Proofs -/

theorem readSize_decimal {n : Nat} (h : n / 10 ≤ 1000000) {s : Bytes} (hs : Difflib.NoDigit s) :
    readSize (Difflib.decimal n ++ s) = some (some n, s) := by
  rw [readSize, Difflib.readNum_decimal n s hs]
  exact if_pos h

theorem readSize_none {c : UInt8} {s : Bytes} (h : (48 ≤ c && c ≤ 57) = false) : readSize (c :: s) = some (none, c :: s) := by
  simp [readSize, Difflib.readNum, h]

/-- A number other than 0 begins with a digit other than 0. -/
theorem decimalF_head : ∀ (fuel n : Nat), n < fuel → n ≠ 0 → ∃ c s, Difflib.decimalF fuel n = c :: s ∧ (48 ≤ c && c ≤ 57) = true ∧ c ≠ 48 := by
  intro fuel
  induction fuel with
  | zero => intro n h; omega
  | succ fuel ih =>
    intro n h h0
    rw [Difflib.decimalF]
    by_cases hn : n < 10
    · rw [if_pos hn]
      refine ⟨_, [], rfl, Difflib.digitByte_isDigit n hn, fun he => ?_⟩
      have := Difflib.digitByte n hn
      rw [he] at this
      have h48 : (48 : UInt8).toNat = 48 := rfl
      omega
    · rw [if_neg hn]
      obtain ⟨c, s, h1, h2, h3⟩ := ih (n / 10) (by omega) (by omega)
      exact ⟨c, s ++ [_], by rw [h1]; rfl, h2, h3⟩

/-- The flags end at a byte that is none. -/
theorem readFlags_end {d : Direc} {c : UInt8} {s : Bytes} (h1 : c ≠ 35) (h2 : c ≠ 48) (h3 : c ≠ 43) (h4 : c ≠ 45) (h5 : c ≠ 32) :
    readFlags d (c :: s) = (d, c :: s) := by
  simp [readFlags, h1, h2, h3, h4, h5]

/-- What follows the flags. -/
def afterFlags (d : Direc) : Bytes :=
  (match d.wid with | some w => Difflib.decimal w | none => []) ++
  (match d.prec with | some p => 46 :: Difflib.decimal p | none => []) ++ [d.verb]

theorem construct_eq (d : Direc) : constructOrigFormat d =
    37 :: ((if d.zero then asc "0" else []) ++ ((if d.minus then asc "-" else []) ++ ((if d.plus then asc "+" else []) ++
      ((if d.sharp then asc "#" else []) ++ ((if d.space then asc " " else []) ++ afterFlags d))))) := by
  obtain ⟨z, m, p, sh, sp, w, pr, v⟩ := d
  cases z <;> cases m <;> cases p <;> cases sh <;> cases sp <;> cases w <;> cases pr <;>
    simp [constructOrigFormat, chunks, afterFlags, asc]

/-- The flags as written are read back. -/
theorem readFlags_written {d : Direc} (h : ¬(d.zero = true ∧ d.minus = true)) {s : Bytes} {r : Direc → Direc × Bytes}
    (hr : ∀ e : Direc, readFlags e s = r e) :
    readFlags ⟨false, false, false, false, false, none, none, 0⟩
      ((if d.zero then asc "0" else []) ++ ((if d.minus then asc "-" else []) ++ ((if d.plus then asc "+" else []) ++
        ((if d.sharp then asc "#" else []) ++ ((if d.space then asc " " else []) ++ s))))) =
    r ⟨d.zero, d.minus, d.plus, d.sharp, d.space, none, none, 0⟩ := by
  obtain ⟨z, m, p, sh, sp, w, pr, v⟩ := d
  have e0 : ∀ t : Bytes, asc "0" ++ t = 48 :: t := fun _ => rfl
  have e1 : ∀ t : Bytes, asc "-" ++ t = 45 :: t := fun _ => rfl
  have e2 : ∀ t : Bytes, asc "+" ++ t = 43 :: t := fun _ => rfl
  have e3 : ∀ t : Bytes, asc "#" ++ t = 35 :: t := fun _ => rfl
  have e4 : ∀ t : Bytes, asc " " ++ t = 32 :: t := fun _ => rfl
  cases z <;> cases m <;> first | exact absurd ⟨rfl, rfl⟩ h | skip
  all_goals
    cases p <;> cases sh <;> cases sp <;>
      simp [e0, e1, e2, e3, e4, readFlags, hr]

/-- Width, precision and verb after the flags. -/
theorem read_rest {d : Direc} (hs : Sized d) (hv : IsVerb d.verb) :
    (match readSize (afterFlags d) with
      | none => none
      | some (wid, s) =>
        match (match s with
          | 46 :: s => (readSize s).map fun (p, s) => (some (p.getD 0), s)
          | s => some (none, s)) with
        | some (prec, [verb]) => if verb = 42 ∨ verb = 91 then none else some { d with wid := wid, prec := prec, verb := verb }
        | _ => none) = some d := by
  obtain ⟨z, m, p, sh, sp, w, pr, v⟩ := d
  obtain ⟨v1, v2, v3, v4, v5, v6, v7, v8⟩ := hv
  simp only at v1 v6 v7 v8
  have hnd : Difflib.NoDigit [v] := by
    intro c hc
    cases hc; exact v1
  have hdot : ∀ t, Difflib.NoDigit (46 :: t) := by
    intro t c hc
    cases hc; decide
  have hvv : ¬(v = 42 ∨ v = 91) := by simp [v7, v8]
  have hlast : ∀ wid : Option Nat, (match (match [v] with
      | 46 :: s => (readSize s).map fun (x : Option Nat × Bytes) => (some (x.1.getD 0), x.2)
      | s => some (none, s)) with
        | some (prec, [verb]) => if verb = 42 ∨ verb = 91 then none else some (⟨z, m, p, sh, sp, wid, prec, verb⟩ : Direc)
        | _ => none) = some ⟨z, m, p, sh, sp, wid, none, v⟩ := by
    intro wid
    split
    · rename_i heq
      split at heq
      · rename_i he; cases he; exact absurd rfl v6
      · cases heq; exact if_neg hvv
    · rename_i hno
      split at hno
      · rename_i he; cases he; exact absurd rfl v6
      · exact absurd rfl (hno none v)
  cases w with
  | none =>
    cases pr with
    | none =>
      simp only [afterFlags, List.nil_append]
      rw [readSize_none v1]
      exact hlast none
    | some q =>
      simp only [afterFlags, List.nil_append, List.cons_append]
      rw [readSize_none (by decide)]
      simp only
      rw [readSize_decimal (hs.2 q rfl) hnd]
      simp only [Option.map_some, Option.getD_some]
      exact if_neg hvv
  | some w =>
    cases pr with
    | none =>
      simp only [afterFlags, List.append_nil]
      rw [readSize_decimal (hs.1 w rfl) hnd]
      exact hlast (some w)
    | some q =>
      simp only [afterFlags, List.append_assoc, List.cons_append]
      rw [readSize_decimal (hs.1 w rfl) (hdot _)]
      simp only
      rw [readSize_decimal (hs.2 q rfl) hnd]
      simp only [Option.map_some, Option.getD_some]
      exact if_neg hvv

/-- **C116, where it holds**: package fmt reads the directive that is handed on as the one that came in: same
flags, width, precision and verb.  What is missing: a width of 0, which only `%*d` can ask for
(`width_zero`), and verbs that are digits (`digit_verb`). -/
theorem orig_format_partial {d : Direc} (hz : ¬(d.zero = true ∧ d.minus = true)) (hs : Sized d) (hw : d.wid ≠ some 0)
    (hv : IsVerb d.verb) : readDirec (constructOrigFormat d) = some d := by
  have hend : ∀ e : Direc, readFlags e (afterFlags d) = (e, afterFlags d) := by
    intro e
    obtain ⟨v1, v2, v3, v4, v5, v6, v7, v8⟩ := hv
    have h48 : d.verb ≠ 48 := by rintro h; rw [h] at v1; exact absurd v1 (by decide)
    cases hwid : d.wid with
    | none =>
      cases hp : d.prec with
      | none => simp only [afterFlags, hwid, hp, List.nil_append]; exact readFlags_end v2 h48 v3 v4 v5
      | some q => simp only [afterFlags, hwid, hp, List.nil_append, List.cons_append]; exact readFlags_end (by decide) (by decide) (by decide) (by decide) (by decide)
    | some w =>
      obtain ⟨c, t, h1, h2, h3⟩ := decimalF_head (w + 1) w (by omega) (by rintro rfl; exact hw hwid)
      have ht : ∃ t', afterFlags d = c :: t' := by
        refine ⟨t ++ ((match d.prec with | some p => 46 :: Difflib.decimal p | none => []) ++ [d.verb]), ?_⟩
        simp only [afterFlags, hwid, Difflib.decimal, h1, List.cons_append, List.append_assoc]
      obtain ⟨t', ht⟩ := ht
      rw [ht]
      exact readFlags_end (by rintro rfl; exact absurd h2 (by decide)) h3 (by rintro rfl; exact absurd h2 (by decide))
        (by rintro rfl; exact absurd h2 (by decide)) (by rintro rfl; exact absurd h2 (by decide))
  rw [construct_eq, readDirec, if_pos rfl, readFlags_written hz hend]
  exact read_rest hs hv

/-- **C116 fails** for a width of 0, as in `fmt.Printf("%*d", 0, spew.NewFormatter(x))`: the digit is read as the flag `0`, and
the width is gone.  (The built-in kinds do not show it; a value with a `Format` method does.) -/
theorem width_zero {d : Direc} (hz : ¬(d.zero = true ∧ d.minus = true)) (hs : Sized d) (hw : d.wid = some 0)
    (hv : IsVerb d.verb) : readDirec (constructOrigFormat d) = some { d with wid := none, zero := !d.minus } := by
  have ha : afterFlags d = 48 :: afterFlags { d with wid := none } := by
    simp only [afterFlags, hw, List.nil_append]
    rw [show Difflib.decimal 0 = [48] from rfl]
    rfl
  have hend : ∀ e : Direc, readFlags e (afterFlags d) = ({ e with zero := !e.minus }, afterFlags { d with wid := none }) := by
    intro e
    obtain ⟨v1, v2, v3, v4, v5, v6, v7, v8⟩ := hv
    have h48 : d.verb ≠ 48 := by rintro h; rw [h] at v1; exact absurd v1 (by decide)
    rw [ha, readFlags, if_neg (by decide), if_pos rfl]
    cases hp : d.prec with
    | none => simp only [afterFlags, List.nil_append]; exact readFlags_end v2 h48 v3 v4 v5
    | some q => simp only [afterFlags, List.nil_append, List.cons_append]; exact readFlags_end (by decide) (by decide) (by decide) (by decide) (by decide)
  rw [construct_eq, readDirec, if_pos rfl, readFlags_written hz hend]
  exact read_rest (d := { d with wid := none, zero := !d.minus }) ⟨fun w h => (nomatch h), hs.2⟩ hv

/-- **C116 fails** for verbs that are digits: `%.*5` with precision 3 is handed on as `%.35`, which has no
verb at all. -/
theorem digit_verb : readDirec (constructOrigFormat ⟨false, false, false, false, false, none, some 3, 53⟩) = none ∧
    constructOrigFormat ⟨false, false, false, false, false, none, some 3, 53⟩ = asc "%.35" := by decide +kernel

example : readDirec (constructOrigFormat ⟨false, true, true, false, true, some 120, some 0, 120⟩) =
    some ⟨false, true, true, false, true, some 120, some 0, 120⟩ :=
  orig_format_partial (by decide) ⟨fun w h => by cases h; decide, fun p h => by cases h; decide⟩ (by decide) (by decide)

example : constructOrigFormat ⟨false, true, true, false, true, some 120, some 0, 120⟩ = asc "%-+ 120.0x" := by decide +kernel

/-! ## Several goroutines -/

/-- The `bytes.Buffer` of a call: still on the array of `percentBytes` with a length (format.go 66), or on an
array of its own after `grow`. -/
inductive Buf where
  | shared (len : Nat)
  | own (b : Bytes)

/-- A call of `constructOrigFormat`: its buffer, the writes to come, and what it returned.  Simplification:
each write is one step. -/
structure Call where
  buf : Buf
  todo : List Bytes
  result : Option Bytes

/-- `bytes.NewBuffer(percentBytes)`, format.go 66; the slice has length 1. -/
def Call.start (d : Direc) : Call := ⟨.shared 1, chunks d, none⟩

/-- The array behind `percentBytes` (common.go 57) and the calls. -/
structure World where
  arr : Bytes
  call : Nat → Call

/-- Copying into an array. -/
def overwrite (arr : Bytes) (at_ : Nat) (b : Bytes) : Bytes := arr.take at_ ++ b ++ arr.drop (at_ + b.length)

/-- One step of call `i`: `buf.WriteRune`, `buf.Write` or `buf.WriteString` (format.go 70-83), which writes
behind the length where the capacity suffices and moves to a new array where not; then `buf.String()`
(format.go 85). -/
def World.step (w : World) (i : Nat) : World :=
  let g := w.call i
  match g.todo with
  | [] => { w with call := Function.update w.call i { g with result := some (match g.buf with
      | .shared len => w.arr.take len
      | .own b => b) } }
  | c :: cs => match g.buf with
    | .shared len =>
      if len + c.length ≤ w.arr.length then
        ⟨overwrite w.arr len c, Function.update w.call i { g with buf := .shared (len + c.length), todo := cs }⟩
      else { w with call := Function.update w.call i { g with buf := .own (w.arr.take len ++ c), todo := cs } }
    | .own b => { w with call := Function.update w.call i { g with buf := .own (b ++ c), todo := cs } }

/-- Steps in an order that the scheduler chose (any goroutine may run format.go 65-87 at any time). -/
def World.run (w : World) : List Nat → World
  | [] => w
  | i :: is => (w.step i).run is

/-- Nothing was written over: what a call has and what it will write is what it should return. -/
def Sound (d : Direc) (g : Call) : Prop :=
  (match g.buf with
    | .shared len => len = 1 ∧ asc "%" ++ g.todo.flatten = constructOrigFormat d
    | .own b => b ++ g.todo.flatten = constructOrigFormat d) ∧
  ∀ t, g.result = some t → t = constructOrigFormat d

theorem step_sound {d : Nat → Direc} {w : World} (ha : w.arr = asc "%") (h : ∀ i, Sound (d i) (w.call i)) (j : Nat) :
    (w.step j).arr = asc "%" ∧ ∀ i, Sound (d i) ((w.step j).call i) := by
  obtain ⟨h1, h2⟩ := h j
  have upd : ∀ g, Sound (d j) g → ∀ i, Sound (d i) (Function.update w.call j g i) := by
    intro g hg i
    by_cases hi : i = j
    · subst hi; simpa using hg
    · simpa [Function.update_of_ne hi] using h i
  unfold World.step
  simp only
  cases ht : (w.call j).todo with
  | nil =>
    refine ⟨ha, upd _ ⟨?_, ?_⟩⟩
    · simpa only [ht] using h1
    · intro t hres
      simp only [Option.some.injEq] at hres
      subst hres
      cases hb : (w.call j).buf with
      | shared len =>
        rw [hb, ht] at h1
        simp only at h1
        rw [← h1.2, h1.1, ha]
        rfl
      | own b =>
        rw [hb, ht] at h1
        simpa using h1
  | cons c cs =>
    cases hb : (w.call j).buf with
    | shared len =>
      rw [hb, ht] at h1
      simp only at h1
      obtain ⟨rfl, h1⟩ := h1
      simp only
      by_cases hl : 1 + c.length ≤ w.arr.length
      · rw [if_pos hl]
        have hc : c = [] := by
          rw [ha] at hl
          exact List.eq_nil_of_length_eq_zero (by have : (asc "%").length = 1 := rfl; omega)
        subst hc
        refine ⟨by rw [ha]; rfl, upd _ ⟨?_, h2⟩⟩
        exact ⟨rfl, by simpa using h1⟩
      · rw [if_neg hl]
        refine ⟨ha, upd _ ⟨?_, h2⟩⟩
        simp only [ha]
        rw [show (asc "%").take 1 = asc "%" from rfl]
        simpa using h1
    | own b =>
      rw [hb, ht] at h1
      simp only at h1 ⊢
      exact ⟨ha, upd _ ⟨by simpa using h1, h2⟩⟩

/-- **C117, where it holds**: where the array behind `percentBytes` has room for the one byte only, calls in
any number of goroutines, in any order of steps, get the format each asked for.  What is missing: the
language does not say how much room `[]byte("%")` has (`shared_mixes`). -/
theorem concurrent_partial (d : Nat → Direc) (order : List Nat) (i : Nat) (t : Bytes)
    (h : ((World.mk (asc "%") fun i => Call.start (d i)).run order |>.call i).result = some t) : t = constructOrigFormat (d i) := by
  have key : ∀ (order : List Nat) (w : World), w.arr = asc "%" → (∀ i, Sound (d i) (w.call i)) → ∀ i, Sound (d i) ((w.run order).call i) := by
    intro order
    induction order with
    | nil => intro w _ h; exact h
    | cons j order ih =>
      intro w ha h
      obtain ⟨h1, h2⟩ := step_sound ha h j
      exact ih _ h1 h2
  have hst : ∀ i, Sound (d i) (Call.start (d i)) := fun i => ⟨⟨rfl, rfl⟩, fun t h => (nomatch h)⟩
  exact (key order ⟨asc "%", fun i => Call.start (d i)⟩ rfl hst i).2 t h

/-- Every call gets to its end: after as many steps as it has writes, and one more. -/
theorem alone_run (i : Nat) (d : Direc) : ∀ (todo : List Bytes) (w : World) (sofar : Bytes), (w.call i).todo = todo →
    (match (w.call i).buf with
      | .shared len => len ≤ w.arr.length ∧ 1 ≤ len ∧ w.arr.take len = sofar
      | .own b => b = sofar) → sofar ++ todo.flatten = constructOrigFormat d → w.arr.head? = some 37 →
    ((w.run (List.replicate (todo.length + 1) i)).call i).result = some (constructOrigFormat d) ∧
      (w.run (List.replicate (todo.length + 1) i)).arr.head? = some 37 ∧
      (w.run (List.replicate (todo.length + 1) i)).arr.length = w.arr.length ∧
      ∀ j, j ≠ i → (w.run (List.replicate (todo.length + 1) i)).call j = w.call j := by
  intro todo
  induction todo with
  | nil =>
    intro w sofar ht hb hs hh
    simp only [List.length_nil, List.replicate_succ, List.replicate_zero, World.run, World.step, ht, Function.update_self]
    refine ⟨?_, hh, trivial, fun j hj => Function.update_of_ne hj _ _⟩
    simp only [List.flatten_nil, List.append_nil] at hs
    rw [← hs]
    cases hbuf : (w.call i).buf with
    | shared len => rw [hbuf] at hb; simp only; rw [hb.2.2]
    | own b => rw [hbuf] at hb; simp only; rw [hb]
  | cons c cs ih =>
    intro w sofar ht hb hs hh
    rw [List.length_cons, List.replicate_succ, World.run]
    have hs' : (sofar ++ c) ++ cs.flatten = constructOrigFormat d := by simpa using hs
    cases hbuf : (w.call i).buf with
    | shared len =>
      rw [hbuf] at hb
      obtain ⟨hb1, hb2, hb3⟩ := hb
      by_cases hl : len + c.length ≤ w.arr.length
      · have hst : w.step i = ⟨overwrite w.arr len c, Function.update w.call i { w.call i with buf := .shared (len + c.length), todo := cs }⟩ := by
          unfold World.step; simp only [ht, hbuf]; rw [if_pos hl]
        have hlen : (overwrite w.arr len c).length = w.arr.length := by
          simp only [overwrite, List.length_append, List.length_take, List.length_drop]; omega
        have htake : (overwrite w.arr len c).take (len + c.length) = sofar ++ c := by
          unfold overwrite
          rw [hb3, List.take_append_of_le_length (by
            rw [← hb3]; simp only [List.length_append, List.length_take]; omega)]
          rw [List.take_of_length_le]
          rw [← hb3]; simp only [List.length_append, List.length_take]; omega
        have hhead : (overwrite w.arr len c).head? = some 37 := by
          unfold overwrite
          cases harr : w.arr with
          | nil => rw [harr] at hh; cases hh
          | cons x xs =>
            rw [harr] at hh
            cases len with
            | zero => omega
            | succ len => simpa using hh
        rw [hst]
        obtain ⟨r1, r2, r3, r4⟩ := ih ⟨overwrite w.arr len c, Function.update w.call i { w.call i with buf := .shared (len + c.length), todo := cs }⟩
          (sofar ++ c) (by simp) (by simp only [Function.update_self]; exact ⟨by rw [hlen]; exact hl, by omega, htake⟩) hs' hhead
        exact ⟨r1, r2, r3.trans hlen, fun j hj => by rw [r4 j hj]; exact Function.update_of_ne hj _ _⟩
      · have hst : w.step i = { w with call := Function.update w.call i { w.call i with buf := .own (w.arr.take len ++ c), todo := cs } } := by
          unfold World.step; simp only [ht, hbuf]; rw [if_neg hl]
        rw [hst]
        obtain ⟨r1, r2, r3, r4⟩ := ih { w with call := Function.update w.call i { w.call i with buf := .own (w.arr.take len ++ c), todo := cs } }
          (sofar ++ c) (by simp) (by simp only [Function.update_self]; rw [hb3]) hs' hh
        exact ⟨r1, r2, r3, fun j hj => by rw [r4 j hj]; exact Function.update_of_ne hj _ _⟩
    | own b =>
      rw [hbuf] at hb
      simp only at hb
      subst hb
      have hst : w.step i = { w with call := Function.update w.call i { w.call i with buf := .own (b ++ c), todo := cs } } := by
        unfold World.step; simp only [ht, hbuf]
      rw [hst]
      obtain ⟨r1, r2, r3, r4⟩ := ih { w with call := Function.update w.call i { w.call i with buf := .own (b ++ c), todo := cs } }
        (b ++ c) (by simp) (by simp only [Function.update_self]) hs' hh
      exact ⟨r1, r2, r3, fun j hj => by rw [r4 j hj]; exact Function.update_of_ne hj _ _⟩

/-- **C117, where it holds**: calls one after the other get the format each asked for, whatever room the
shared array has and whatever earlier calls left behind the `%`. -/
theorem sequential_partial {w : World} {i : Nat} {d : Direc} (hw : w.arr.head? = some 37) (hc : w.call i = Call.start d) :
    ((w.run (List.replicate ((chunks d).length + 1) i)).call i).result = some (constructOrigFormat d) ∧
    (w.run (List.replicate ((chunks d).length + 1) i)).arr.head? = some 37 := by
  have hpos : 1 ≤ w.arr.length ∧ w.arr.take 1 = asc "%" := by
    cases harr : w.arr with
    | nil => rw [harr] at hw; cases hw
    | cons x xs =>
      rw [harr] at hw
      cases hw
      exact ⟨by simp, rfl⟩
  obtain ⟨h1, h2, -, -⟩ := alone_run i d (chunks d) w (asc "%") (by rw [hc]; rfl) (by rw [hc]; exact ⟨hpos.1, Nat.le_refl _, hpos.2⟩) rfl hw
  exact ⟨h1, h2⟩

/-- **C117 fails** wherever the array has room for more than the one byte (a runtime may round `[]byte("%")`
up to 8): of two goroutines printing with `%x` and `%d` at the same time, the first prints with `%d`. -/
theorem shared_mixes (n : Nat) (d : Nat → Direc) (h0 : d 0 = ⟨false, false, false, false, false, none, none, 120⟩)
    (h1 : d 1 = ⟨false, false, false, false, false, none, none, 100⟩) :
    ((World.mk (asc "%" ++ List.replicate (n + 1) 0) fun i => Call.start (d i)).run [0, 1, 0]|>.call 0).result = some (asc "%d") ∧
    constructOrigFormat (d 0) = asc "%x" := by
  refine ⟨?_, by rw [h0]; rfl⟩
  simp only [World.run, World.step, Call.start, h0, chunks]
  simp [Function.update, overwrite, asc, h1, List.replicate_succ]

example : ((World.mk (asc "%") fun i => Call.start (if i = 0 then ⟨true, false, false, false, false, some 8, none, 120⟩ else
    ⟨false, false, false, false, false, none, none, 100⟩)).run [0, 1, 0, 1, 0, 0]|>.call 0).result = some (asc "%08x") := by decide +kernel

end Verif.Spew
