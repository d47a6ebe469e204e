import Verif.Jsonfmt.IntLemmas

/-!
# C130: files named by an index

Model of `NameByIndex.ListFiles`, countlog/output/rotation/name_by_index.go 15-40, with `fmt.Sscanf` for a pattern with `%d`.
-/

namespace Verif.NameByIndex

open Verif.Spec

/-! ### Model -/

/-- What `Sscanf` takes for a space, other than a new line (name_by_index.go 30).  Simplified: names are ASCII. -/
def isSpace (c : UInt8) : Bool := c == 9 || c == 11 || c == 12 || c == 13 || c == 32

/-- Skipping spaces before a number, name_by_index.go 30; `none` is the error for a new line. -/
def skipSpace : Bytes → Option Bytes
  | [] => some []
  | c :: r => if c = 10 then none else if isSpace c then skipSpace r else some (c :: r)

/-- The sign in front of a number, name_by_index.go 30: whether it is negative, and what follows. -/
def sign : Bytes → Bool × Bytes
  | 43 :: r => (false, r)
  | 45 :: r => (true, r)
  | s => (false, s)

/-- Scanning `%d` into an `int` of 64 bits, name_by_index.go 30: what is left of the text, `none` is an error. -/
def scanInt (s : Bytes) : Option Bytes :=
  match skipSpace s with
  | none => none
  | some s =>
    let (neg, s) := sign s
    let ds := s.takeWhile isDigit
    if ds = [] then none
    else
      let v := decimalValue ds
      if v < 2 ^ 63 ∨ (neg = true ∧ v = 2 ^ 63) then some (s.dropWhile isDigit) else none

/-- `fmt.Sscanf` with one `*int`, name_by_index.go 30: the count of operands read from the format `f` and the text `s`, or `none` for an
error.  What follows in the text is not looked at.  Simplified: no verbs other than `%d` and `%%`, no spaces in the format,
no spaces in the text where the format has `%%`. -/
def sscanf : Bytes → Bytes → Nat → Option Nat
  | [], _, n => some n
  | c :: f, s, n =>
    if c = 37 then
      match f with
      | [] => none
      | v :: f =>
        if v = 37 then
          match s with
          | [] => none
          | d :: r => if d = 37 then sscanf f r n else none
        else if v = 100 then
          if n ≥ 1 then none
          else match scanInt s with
            | none => none
            | some r => sscanf f r (n + 1)
        else none
    else
      match s with
      | [] => none
      | d :: r => if d = c then sscanf f r n else none

/-- What `os.Open` and `Readdirnames` give, name_by_index.go 16-26: no such directory, an error, or names. -/
inductive Dir
  | missing
  | error
  | names (l : List Bytes)

/-- `ListFiles`, name_by_index.go 15-40; `none` is an error.  Simplified: the names are not joined with the directory. -/
def listFiles (pattern : Bytes) : Dir → Option (List Bytes)
  | .missing => some []
  | .error => none
  | .names l => some (l.filter fun n => sscanf pattern n 0 == some 1)

/-! ### Specification -/

/-- Text that stands for itself in a pattern: no percent sign, end of line, tab, vertical tab, form feed, return or blank. -/
def Plain (t : Bytes) : Prop := ∀ c ∈ t, c ≠ 37 ∧ c ≠ 10 ∧ c ∉ [9, 11, 12, 13, 32]

/-- The name of the file with index `i`. -/
def NameOf (pre suf : Bytes) (i : Int) (name : Bytes) : Prop := ∃ t, CanonicalInt t i ∧ name = pre ++ t ++ suf

/-- An `int` in Go. -/
def IsInt (i : Int) : Prop := -2 ^ 63 ≤ i ∧ i < 2 ^ 63

/-- A name that `Sscanf` takes: spaces and a sign before the digits, and anything behind. -/
def Taken (pre suf name : Bytes) : Prop :=
  ∃ sp sg ds rest, name = pre ++ (sp ++ (sg ++ (ds ++ (suf ++ rest)))) ∧ (∀ c ∈ sp, c ∈ [9, 11, 12, 13, 32]) ∧ (sg = [] ∨ sg = [43] ∨ sg = [45]) ∧
    ds ≠ [] ∧ (∀ c ∈ ds, isDigit c = true) ∧ (decimalValue ds < 2 ^ 63 ∨ (sg = [45] ∧ decimalValue ds = 2 ^ 63)) ∧
    (∀ c, (suf ++ rest).head? = some c → isDigit c = false)

/-! ### Proofs -/

theorem isSpace_iff (c : UInt8) : isSpace c = true ↔ c ∈ [9, 11, 12, 13, 32] := by
  simp [isSpace, or_assoc]

theorem not_space (c : UInt8) : isSpace c = false ↔ c ∉ [9, 11, 12, 13, 32] := by
  rw [← isSpace_iff]; simp

theorem sscanf_lit (c : UInt8) (hc : c ≠ 37) (f s : Bytes) (n : Nat) :
    sscanf (c :: f) s n = (match s with | [] => none | d :: r => if d = c then sscanf f r n else none) := by
  rw [sscanf.eq_def]
  simp only [if_neg hc]

theorem sscanf_d (f s : Bytes) : sscanf (37 :: 100 :: f) s 0 = (match scanInt s with | none => none | some r => sscanf f r 1) := by
  rw [sscanf.eq_def]
  simp

theorem plain_tail {c : UInt8} {t : Bytes} (h : Plain (c :: t)) : Plain t := fun x hx => h x (List.mem_cons_of_mem _ hx)

/-- A plain text in front of a format has to be in front of the text. -/
theorem sscanf_plain (t f s : Bytes) (n k : Nat) (h : Plain t) : sscanf (t ++ f) s n = some k ↔ ∃ r, s = t ++ r ∧ sscanf f r n = some k := by
  induction t generalizing s with
  | nil => simp
  | cons c t ih =>
    rw [List.cons_append, sscanf_lit c (h c List.mem_cons_self).1]
    cases s with
    | nil => simp
    | cons d r =>
      by_cases hd : d = c
      · simp only [hd, if_true]
        rw [ih r (plain_tail h)]
        simp
      · simp only [hd, if_false]
        simp [hd]

theorem skipSpace_spec (s r : Bytes) : skipSpace s = some r ↔
    ∃ sp, s = sp ++ r ∧ (∀ c ∈ sp, isSpace c = true) ∧ (∀ c, r.head? = some c → c ≠ 10 ∧ isSpace c = false) := by
  induction s with
  | nil =>
    rw [skipSpace]
    constructor
    · intro h; cases h; exact ⟨[], rfl, by simp, by simp⟩
    · rintro ⟨sp, h, _, _⟩
      have := List.append_eq_nil_iff.mp h.symm
      rw [this.2]
  | cons c s ih =>
    rw [skipSpace]
    by_cases h10 : c = 10
    · rw [if_pos h10]
      constructor
      · intro h; cases h
      · rintro ⟨sp, h, hsp, hr⟩
        exfalso
        cases sp with
        | nil => rw [List.nil_append] at h; exact (hr c (by rw [← h]; rfl)).1 h10
        | cons x sp =>
          rw [List.cons_append] at h
          have hx := hsp x List.mem_cons_self
          rw [← (List.cons.inj h).1, h10] at hx
          exact absurd hx (by decide)
    · rw [if_neg h10]
      by_cases hs : isSpace c = true
      · rw [if_pos hs, ih]
        constructor
        · rintro ⟨sp, h, hsp, hr⟩
          exact ⟨c :: sp, by rw [h]; rfl, List.forall_mem_cons.mpr ⟨hs, hsp⟩, hr⟩
        · rintro ⟨sp, h, hsp, hr⟩
          cases sp with
          | nil =>
            rw [List.nil_append] at h
            exact absurd hs (by rw [(hr c (by rw [← h]; rfl)).2]; decide)
          | cons x sp =>
            rw [List.cons_append] at h
            exact ⟨sp, (List.cons.inj h).2, fun y hy => hsp y (List.mem_cons_of_mem _ hy), hr⟩
      · rw [if_neg hs]
        constructor
        · intro h
          cases h
          exact ⟨[], rfl, by simp, by intro x hx; cases hx; exact ⟨h10, Bool.eq_false_iff.mpr hs⟩⟩
        · rintro ⟨sp, h, hsp, hr⟩
          cases sp with
          | nil => rw [h]; rfl
          | cons x sp =>
            rw [List.cons_append] at h
            exact absurd (hsp x List.mem_cons_self) (by rw [← (List.cons.inj h).1]; exact hs)

theorem takeWhile_split (ds r : Bytes) (h : ∀ c ∈ ds, isDigit c = true) (hr : ∀ c, r.head? = some c → isDigit c = false) :
    (ds ++ r).takeWhile isDigit = ds ∧ (ds ++ r).dropWhile isDigit = r := by
  induction ds with
  | nil =>
    cases r with
    | nil => exact ⟨rfl, rfl⟩
    | cons c r => simp [hr c rfl]
  | cons d ds ih =>
    have hd := h d List.mem_cons_self
    have := ih (fun c hc => h c (List.mem_cons_of_mem _ hc))
    simp [hd, this.1, this.2]

theorem dropWhile_head (s : Bytes) (c : UInt8) (h : (s.dropWhile isDigit).head? = some c) : isDigit c = false := by
  induction s with
  | nil => cases h
  | cons d s ih =>
    rw [List.dropWhile] at h
    cases hd : isDigit d with
    | true => rw [hd] at h; exact ih h
    | false => rw [hd] at h; cases h; exact hd

theorem takeWhile_mem (s : Bytes) (c : UInt8) (h : c ∈ s.takeWhile isDigit) : isDigit c = true := by
  induction s with
  | nil => cases h
  | cons d s ih =>
    rw [List.takeWhile] at h
    cases hd : isDigit d with
    | true =>
      rw [hd] at h
      rcases List.mem_cons.mp h with h | h
      · rw [h]; exact hd
      · exact ih h
    | false => rw [hd] at h; cases h

theorem digit_not_sign {c : UInt8} (h : isDigit c = true) : c ≠ 43 ∧ c ≠ 45 ∧ c ≠ 10 ∧ isSpace c = false := by
  refine ⟨?_, ?_, ?_, ?_⟩
  · rintro rfl; exact absurd h (by decide)
  · rintro rfl; exact absurd h (by decide)
  · rintro rfl; exact absurd h (by decide)
  · cases hs : isSpace c with
    | false => rfl
    | true =>
      unfold isSpace at hs
      simp only [Bool.or_eq_true, beq_iff_eq] at hs
      rcases hs with (((hs | hs) | hs) | hs) | hs <;> (rw [hs] at h; exact absurd h (by decide))

theorem sign_other (s : Bytes) (h : ∀ c, s.head? = some c → c ≠ 43 ∧ c ≠ 45) : sign s = (false, s) := by
  cases s with
  | nil => rfl
  | cons c r =>
    have := h c rfl
    rw [sign]
    · intro r' hc; exact this.1 (List.cons.inj hc).1
    · intro r' hc; exact this.2 (List.cons.inj hc).1

theorem sign_cases (s : Bytes) : ∃ sg r, s = sg ++ r ∧ (sg = [] ∨ sg = [43] ∨ sg = [45]) ∧ sign s = (decide (sg = [45]), r) := by
  by_cases h : ∀ c, s.head? = some c → c ≠ 43 ∧ c ≠ 45
  · exact ⟨[], s, rfl, .inl rfl, by rw [sign_other s h]; rfl⟩
  · cases s with
    | nil => exact absurd (fun c hc => by cases hc) h
    | cons c r =>
      by_cases h3 : c = 43
      · subst h3; exact ⟨[43], r, rfl, .inr (.inl rfl), rfl⟩
      · by_cases h5 : c = 45
        · subst h5; exact ⟨[45], r, rfl, .inr (.inr rfl), rfl⟩
        · exact absurd (fun x hx => by cases hx; exact ⟨h3, h5⟩) h

theorem scanInt_spec (s r : Bytes) : scanInt s = some r ↔ ∃ sp sg ds, s = sp ++ (sg ++ (ds ++ r)) ∧ (∀ c ∈ sp, isSpace c = true) ∧
    (sg = [] ∨ sg = [43] ∨ sg = [45]) ∧ ds ≠ [] ∧ (∀ c ∈ ds, isDigit c = true) ∧
    (decimalValue ds < 2 ^ 63 ∨ (sg = [45] ∧ decimalValue ds = 2 ^ 63)) ∧ (∀ c, r.head? = some c → isDigit c = false) := by
  constructor
  · intro h
    unfold scanInt at h
    cases hs : skipSpace s with
    | none => rw [hs] at h; cases h
    | some u =>
      rw [hs] at h
      obtain ⟨sp, h1, h2, _⟩ := (skipSpace_spec s u).mp hs
      obtain ⟨sg, w, h3, h4, h5⟩ := sign_cases u
      simp only [h5] at h
      by_cases hd : w.takeWhile isDigit = []
      · rw [if_pos hd] at h; cases h
      · rw [if_neg hd] at h
        by_cases hv : decimalValue (w.takeWhile isDigit) < 2 ^ 63 ∨ (decide (sg = [45]) = true ∧ decimalValue (w.takeWhile isDigit) = 2 ^ 63)
        · rw [if_pos hv] at h
          have hr : w.dropWhile isDigit = r := Option.some.inj h
          refine ⟨sp, sg, w.takeWhile isDigit, ?_, h2, h4, hd, takeWhile_mem w, by simpa using hv, fun c hc => dropWhile_head w c (by rw [hr]; exact hc)⟩
          rw [← hr, List.takeWhile_append_dropWhile, ← h3, ← h1]
        · rw [if_neg hv] at h; cases h
  · rintro ⟨sp, sg, ds, h1, h2, h3, h4, h5, h6, h7⟩
    have hne : ∃ d ds', ds = d :: ds' := List.exists_cons_of_ne_nil h4
    obtain ⟨d, ds', hds⟩ := hne
    have hd := h5 d (by rw [hds]; exact List.mem_cons_self)
    have hsk : skipSpace s = some (sg ++ (ds ++ r)) := by
      rw [skipSpace_spec]
      refine ⟨sp, h1, h2, fun c hc => ?_⟩
      rcases h3 with h3 | h3 | h3
      · rw [h3, hds] at hc; cases hc; exact ⟨(digit_not_sign hd).2.2.1, (digit_not_sign hd).2.2.2⟩
      · rw [h3] at hc; cases hc; decide
      · rw [h3] at hc; cases hc; decide
    have hsg : sign (sg ++ (ds ++ r)) = (decide (sg = [45]), ds ++ r) := by
      rcases h3 with h3 | h3 | h3
      · rw [h3, List.nil_append, sign_other]
        · rfl
        · intro c hc; rw [hds] at hc; cases hc; exact ⟨(digit_not_sign hd).1, (digit_not_sign hd).2.1⟩
      · rw [h3]; rfl
      · rw [h3]; rfl
    obtain ⟨ht, hdr⟩ := takeWhile_split ds r h5 h7
    unfold scanInt
    rw [hsk]
    simp only [hsg, ht, hdr]
    rw [if_neg h4, if_pos (by simpa using h6)]

/-- C130: with the pattern `pre%dsuf` exactly those names are listed that start with `pre`, a number and `suf`, in the order of the
directory; `Taken` tells what is taken for a number. -/
theorem listed_iff (pre suf : Bytes) (hp : Plain pre) (hs : Plain suf) (l : List Bytes) :
    ∃ r, listFiles (pre ++ (asc "%d" ++ suf)) (.names l) = some r ∧ r.Sublist l ∧ ∀ n, n ∈ r ↔ n ∈ l ∧ Taken pre suf n := by
  refine ⟨_, rfl, List.filter_sublist, fun n => ?_⟩
  rw [List.mem_filter]
  refine and_congr_right fun _ => ?_
  rw [beq_iff_eq, sscanf_plain pre _ n 0 1 hp]
  have key : ∀ u, sscanf (asc "%d" ++ suf) u 0 = some 1 ↔ ∃ rest, scanInt u = some (suf ++ rest) := by
    intro u
    show sscanf (37 :: 100 :: suf) u 0 = some 1 ↔ _
    rw [sscanf_d]
    cases hu : scanInt u with
    | none => simp
    | some w =>
      have := sscanf_plain suf [] w 1 1 hs
      rw [List.append_nil] at this
      show sscanf suf w 1 = some 1 ↔ _
      rw [this]
      constructor
      · rintro ⟨rest, h, _⟩; exact ⟨rest, by rw [h]⟩
      · rintro ⟨rest, h⟩; exact ⟨rest, Option.some.inj h, by rw [sscanf]⟩
  constructor
  · rintro ⟨u, hu, h⟩
    obtain ⟨rest, hr⟩ := (key u).mp h
    obtain ⟨sp, sg, ds, h1, h2⟩ := (scanInt_spec u _).mp hr
    exact ⟨sp, sg, ds, rest, by rw [hu, h1], fun c hc => (isSpace_iff c).mp (h2.1 c hc), h2.2⟩
  · rintro ⟨sp, sg, ds, rest, h1, h2⟩
    exact ⟨_, h1, (key _).mpr ⟨rest, (scanInt_spec _ _).mpr ⟨sp, sg, ds, rfl, fun c hc => (isSpace_iff c).mpr (h2.1 c hc), h2.2⟩⟩⟩

/-- C130, part: every file with an index is listed, if what follows the index in the pattern does not start with a digit.  Missing: other
patterns (`digit_suffix`), and that no other file is listed (`longer_listed`, `zeros_listed`). -/
theorem indexed_listed_partial (pre suf : Bytes) (hp : Plain pre) (hs : Plain suf) (hd : ∀ c, suf.head? = some c → isDigit c = false)
    (l : List Bytes) (n : Bytes) (hn : n ∈ l) (i : Int) (hi : IsInt i) (hni : NameOf pre suf i n) :
    ∃ r, listFiles (pre ++ (asc "%d" ++ suf)) (.names l) = some r ∧ n ∈ r := by
  obtain ⟨r, h1, _, h3⟩ := listed_iff pre suf hp hs l
  refine ⟨r, h1, (h3 n).mpr ⟨hn, ?_⟩⟩
  obtain ⟨t, ht, hname⟩ := hni
  unfold CanonicalInt at ht
  have hsuf : ∀ c, (suf ++ []).head? = some c → isDigit c = false := by rw [List.append_nil]; exact hd
  by_cases hneg : i < 0
  · rw [if_pos hneg] at ht
    obtain ⟨u, hu, h4, h5, h6, _⟩ := ht
    refine ⟨[], [45], u, [], by rw [hname, hu]; simp, by simp, by simp, h4, h5, ?_, hsuf⟩
    rw [h6]
    have := hi.1
    by_cases he : i.natAbs = 2 ^ 63
    · exact .inr ⟨rfl, he⟩
    · left; omega
  · rw [if_neg hneg] at ht
    obtain ⟨h4, h5, h6, _⟩ := ht
    refine ⟨[], [], t, [], by rw [hname]; simp, by simp, by simp, h4, h5, ?_, hsuf⟩
    rw [h6]
    have := hi.2
    left; omega

/-- C130: a directory that does not exist has no files, another error is returned. -/
theorem no_directory (p : Bytes) : listFiles p .missing = some [] ∧ listFiles p .error = none := ⟨rfl, rfl⟩

/-- A pattern without a verb lists nothing, such as that of the test, test-{i}.log. -/
theorem no_verb (p : Bytes) (hp : Plain p) (l : List Bytes) : listFiles p (.names l) = some [] := by
  have : ∀ n, sscanf p n 0 ≠ some 1 := by
    intro n h
    have := sscanf_plain p [] n 0 1 hp
    rw [List.append_nil] at this
    obtain ⟨r, _, hr⟩ := this.mp h
    rw [sscanf] at hr
    cases hr
  show some (l.filter _) = some []
  rw [List.filter_eq_nil_iff.mpr]
  intro n _ h
  exact this n (beq_iff_eq.mp h)

/-! ### Disagreements and a concrete case -/

/-- A pattern with two verbs lists nothing: there is one index only. -/
theorem two_verbs (pre mid : Bytes) (f : Bytes) (hp : Plain pre) (hm : Plain mid) (l : List Bytes) :
    listFiles (pre ++ 37 :: 100 :: (mid ++ 37 :: 100 :: f)) (.names l) = some [] := by
  simp only [listFiles, Option.some.injEq, List.filter_eq_nil_iff]
  intro n _ h
  have h : sscanf (pre ++ 37 :: 100 :: (mid ++ 37 :: 100 :: f)) n 0 = some 1 := by simpa using h
  obtain ⟨r, _, h⟩ := (sscanf_plain _ _ _ _ _ hp).mp h
  rw [sscanf_d] at h
  cases hs : scanInt r with
  | none => rw [hs] at h; cases h
  | some r' =>
    rw [hs] at h
    obtain ⟨q, _, h⟩ := (sscanf_plain _ _ _ _ _ hm).mp h
    rw [sscanf.eq_def] at h
    simp at h

example : Plain (asc "a-") ∧ Plain (asc "-") ∧ listFiles (asc "a-%d-%d") (.names [asc "a-1-2", asc "a-1-"]) = some [] := by
  unfold Plain; decide +kernel

/-- Two percent signs in a pattern stand for one in a name: with the pattern `pre%%mid%dsuf`, every file whose name has one percent
sign and the index there is listed, if what follows the index does not start with a digit, and every listed name has the sign. -/
theorem percent_listed (pre mid suf : Bytes) (hp : Plain pre) (hm : Plain mid) (hs : Plain suf)
    (hd : ∀ c, suf.head? = some c → isDigit c = false) (l : List Bytes) :
    ∃ r, listFiles (pre ++ asc "%%" ++ mid ++ asc "%d" ++ suf) (.names l) = some r ∧
      (∀ n ∈ l, ∀ i, IsInt i → NameOf (pre ++ asc "%" ++ mid) suf i n → n ∈ r) ∧ ∀ n ∈ r, ∃ rest, n = pre ++ asc "%" ++ rest := by
  have step : ∀ n, sscanf (pre ++ asc "%%" ++ mid ++ asc "%d" ++ suf) n 0 = some 1 ↔
      ∃ u, n = pre ++ (37 :: u) ∧ sscanf (mid ++ (asc "%d" ++ suf)) u 0 = some 1 := by
    intro n
    have e : pre ++ asc "%%" ++ mid ++ asc "%d" ++ suf = pre ++ (37 :: 37 :: (mid ++ (asc "%d" ++ suf))) := by
      show pre ++ [37, 37] ++ mid ++ asc "%d" ++ suf = _
      simp
    rw [e, sscanf_plain pre _ n 0 1 hp]
    constructor
    · rintro ⟨r, hr, h⟩
      rw [sscanf.eq_def] at h
      cases r with
      | nil => simp at h
      | cons d r =>
        by_cases h37 : d = 37
        · subst h37; exact ⟨r, hr, by simpa using h⟩
        · simp [h37] at h
    · rintro ⟨u, hu, h⟩
      exact ⟨37 :: u, hu, by rw [sscanf.eq_def]; simpa using h⟩
  refine ⟨_, rfl, ?_, ?_⟩
  · rintro n hn i hi ⟨t, ht, hname⟩
    rw [List.mem_filter, beq_iff_eq, step]
    refine ⟨hn, mid ++ t ++ suf, by rw [hname]; show pre ++ [37] ++ mid ++ t ++ suf = _; simp, ?_⟩
    obtain ⟨r, h1, h2⟩ := indexed_listed_partial mid suf hm hs hd [mid ++ t ++ suf] _ List.mem_cons_self i hi ⟨t, ht, rfl⟩
    simp only [listFiles, Option.some.injEq] at h1
    rw [← h1, List.mem_filter, beq_iff_eq] at h2
    exact h2.2
  · intro n hn
    rw [List.mem_filter, beq_iff_eq, step] at hn
    obtain ⟨_, u, hu, _⟩ := hn
    exact ⟨u, by rw [hu]; show _ = pre ++ [37] ++ u; simp⟩

example : Plain (asc "a") ∧ Plain (asc "-") ∧ Plain (asc ".log") ∧
    listFiles (asc "a" ++ asc "%%" ++ asc "-" ++ asc "%d" ++ asc ".log") (.names [asc "a%-12.log", asc "a-12.log", asc "a%%-12.log"]) =
      some [asc "a%-12.log"] := by
  unfold Plain; decide +kernel

/-- C130 fails: what follows the pattern in a name is ignored, so a compressed copy is listed. -/
theorem longer_listed : listFiles (asc "test-%d.log") (.names [asc "test-1.log.gz", asc "other"]) = some [asc "test-1.log.gz"] ∧
    ∀ i, ¬ NameOf (asc "test-") (asc ".log") i (asc "test-1.log.gz") := by
  refine ⟨by decide +kernel, ?_⟩
  rintro i ⟨t, _, h⟩
  have := congrArg List.getLast? h
  rw [List.getLast?_append] at this
  exact absurd (show some (122 : UInt8) = some 103 from this) (by decide)

/-- C130 fails: leading zeros are listed, so that one index has many files. -/
theorem zeros_listed : listFiles (asc "test-%d.log") (.names [asc "test-01.log", asc "test-1.log", asc "test- +1.log"]) =
      some [asc "test-01.log", asc "test-1.log", asc "test- +1.log"] ∧
    ∀ i, ¬ NameOf (asc "test-") (asc ".log") i (asc "test-01.log") := by
  refine ⟨by decide +kernel, ?_⟩
  rintro i ⟨t, ht, h⟩
  have h1 : t ++ asc ".log" = asc "01" ++ asc ".log" := by
    rw [List.append_assoc] at h
    exact List.append_cancel_left (as := asc "test-") (h.symm.trans (by decide))
  have ht' : t = asc "01" := List.append_cancel_right h1
  rw [ht'] at ht
  unfold CanonicalInt at ht
  by_cases hneg : i < 0
  · rw [if_pos hneg] at ht
    obtain ⟨u, hu, _⟩ := ht
    exact absurd (List.cons.inj (show (48 : UInt8) :: [49] = 45 :: u from hu)).1 (by decide)
  · rw [if_neg hneg] at ht
    exact absurd (ht.2.2.2 rfl) (by decide)

/-- C130 fails: with a digit behind the index the files of the pattern itself are not listed. -/
theorem digit_suffix : NameOf (asc "a") (asc "0") 5 (asc "a50") ∧ listFiles (asc "a%d0") (.names [asc "a50"]) = some [] :=
  ⟨⟨asc "5", ⟨by decide, by decide, by decide, by decide⟩, by decide⟩, by decide +kernel⟩

example : ∃ r, listFiles (asc "test-%d.log") (.names [asc "test-a.log", asc "test-12.log", asc "test--7.log"]) = some r ∧
    r = [asc "test-12.log", asc "test--7.log"] ∧ NameOf (asc "test-") (asc ".log") (-7) (asc "test--7.log") ∧ IsInt (-7) ∧
    Plain (asc "test-") ∧ Plain (asc ".log") :=
  ⟨_, rfl, by decide +kernel, ⟨asc "-7", ⟨asc "7", by decide, by decide, by decide, by decide, by decide⟩, by decide⟩, by unfold IsInt; omega,
    by unfold Plain; decide, by unfold Plain; decide⟩

end Verif.NameByIndex
