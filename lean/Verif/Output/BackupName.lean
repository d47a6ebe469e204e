import Verif.Basic

/-!
# C34: names of backup files

Model of `backupName`, `prefixAndExt` and `timeFromName` of countlog/output/lumberjack/lumberjack.go for
the default time format "2006-01-02T15-04-05.000" (line 39).  `time.Format` and `time.Parse` for
that layout are modelled after the documentation and source of Go's time package.
-/

namespace Verif.Lumberjack

/-! ### Calendar (specification) -/

/-- Date and time of day to the millisecond. -/
structure Civil where
  year : Nat
  month : Nat
  day : Nat
  hour : Nat
  minute : Nat
  second : Nat
  ms : Nat
  deriving DecidableEq, Repr

/-- Leap years of the Gregorian calendar. -/
def isLeap (y : Nat) : Bool := (y % 4 == 0 && y % 100 != 0) || y % 400 == 0

/-- The number of days of a month. -/
def daysIn (m y : Nat) : Nat :=
  if m = 2 then (if isLeap y then 29 else 28)
  else if m = 4 ∨ m = 6 ∨ m = 9 ∨ m = 11 then 30
  else 31

/-- A date that exists and a time of day. -/
def Civil.Valid (c : Civil) : Prop :=
  1 ≤ c.month ∧ c.month ≤ 12 ∧ 1 ≤ c.day ∧ c.day ≤ daysIn c.month c.year ∧ c.hour < 24 ∧ c.minute < 60 ∧ c.second < 60 ∧ c.ms < 1000

instance (c : Civil) : Decidable c.Valid := by unfold Civil.Valid; infer_instance

/-- Days in the months before. -/
def daysBeforeMonth : Nat → Nat → Nat
  | 0, _ => 0
  | 1, _ => 0
  | m + 1, y => daysBeforeMonth m y + daysIn m y

/-- Days from the start of year 0 to the start of the year. -/
def daysBeforeYear (y : Nat) : Nat := 365 * y + (y + 3) / 4 - (y + 99) / 100 + (y + 399) / 400

/-- Milliseconds since 1970. -/
def Civil.millis (c : Civil) : Int :=
  ((((daysBeforeYear c.year + daysBeforeMonth c.month c.year + (c.day - 1) : Nat) : Int) - 719528) * 24 + c.hour) * 3600000 +
    c.minute * 60000 + c.second * 1000 + c.ms

/-! ### Model -/

/-- The last decimal digit (for `t.Format`, lumberjack.go 262). -/
def digit (n : Nat) : UInt8 := UInt8.ofNat (48 + n % 10)

/-- Two digits (for `t.Format`, lumberjack.go 262). -/
def pad2 (n : Nat) : Bytes := [digit (n / 10), digit n]

/-- Three digits (lumberjack.go 262 and 449). -/
def pad3 (n : Nat) : Bytes := [digit (n / 100), digit (n / 10), digit n]

/-- Four digits (lumberjack.go 262 and 449). -/
def pad4 (n : Nat) : Bytes := [digit (n / 1000), digit (n / 100), digit (n / 10), digit n]

/-- `t.Format`, lumberjack.go 262, with the default layout, for years up to 9999. -/
def formatTime (c : Civil) : Bytes :=
  pad4 c.year ++ 45 :: (pad2 c.month ++ 45 :: (pad2 c.day ++ 84 :: (pad2 c.hour ++ 45 :: (pad2 c.minute ++ 45 :: (pad2 c.second ++ 46 :: pad3 c.ms)))))

/-- The value of a digit (for `time.Parse`, lumberjack.go 449). -/
def digitVal (c : UInt8) : Option Nat := if 48 ≤ c ∧ c ≤ 57 then some (c.toNat - 48) else none

/-- Go's `getnum` with `fixed`: exactly two digits (for lumberjack.go 449). -/
def two : Bytes → Option (Nat × Bytes)
  | a :: b :: r =>
    match digitVal a, digitVal b with
    | some x, some y => some (x * 10 + y, r)
    | _, _ => none
  | _ => none

/-- Go's `getnum` without `fixed`: one or two digits (for lumberjack.go 449). -/
def oneOrTwo (s : Bytes) : Option (Nat × Bytes) :=
  match two s with
  | some r => some r
  | none =>
    match s with
    | a :: r =>
      match digitVal a with
      | some x => some (x, r)
      | none => none
    | [] => none

/-- Three digits (for lumberjack.go 449). -/
def three : Bytes → Option (Nat × Bytes)
  | a :: r =>
    match digitVal a, two r with
    | some x, some (y, r) => some (x * 100 + y, r)
    | _, _ => none
  | _ => none

/-- Four digits (for lumberjack.go 449). -/
def four (s : Bytes) : Option (Nat × Bytes) :=
  match two s with
  | some (x, r) =>
    match two r with
    | some (y, r) => some (x * 100 + y, r)
    | none => none
  | none => none

/-- A literal character of the layout (for lumberjack.go 449). -/
def lit (c : UInt8) (s : Bytes) : Option Bytes := if s.head? = some c then some s.tail else none

/-- `time.Parse` with the default layout, called at lumberjack.go 449.  The hour may have one digit.  A sign in
front of the fraction, accepted by some versions of Go, is left out. -/
def parseTime (s : Bytes) : Option Civil :=
  (four s).bind fun (year, s) =>
  (lit 45 s).bind fun s =>
  (two s).bind fun (month, s) =>
  (lit 45 s).bind fun s =>
  (two s).bind fun (day, s) =>
  (lit 84 s).bind fun s =>
  (oneOrTwo s).bind fun (hour, s) =>
  (lit 45 s).bind fun s =>
  (two s).bind fun (minute, s) =>
  (lit 45 s).bind fun s =>
  (two s).bind fun (second, s) =>
  (lit 46 s).bind fun s =>
  (three s).bind fun (ms, s) =>
  if s ≠ [] ∨ month = 0 ∨ 12 < month ∨ day = 0 ∨ daysIn month year < day ∨ 24 ≤ hour ∨ 60 ≤ minute ∨ 60 ≤ second then none
  else some ⟨year, month, day, hour, minute, second, ms⟩

/-- `filepath.Ext` of a name without slashes: from the last dot (lumberjack.go 255 and 469). -/
def extOf (name : Bytes) : Bytes :=
  if 46 ∈ name then 46 :: (name.reverse.takeWhile (· ≠ 46)).reverse else []

/-- `filename[:len(filename)-len(ext)]`, lumberjack.go 256 and 470. -/
def stemOf (name : Bytes) : Bytes := name.take (name.length - (extOf name).length)

/-- `backupName`, lumberjack.go 252-264, without the directory; `c` is the time in UTC, or in local time if so
configured. -/
def backupName (name : Bytes) (c : Civil) : Bytes := stemOf name ++ [45] ++ formatTime c ++ extOf name

/-- The prefix of `prefixAndExt`, lumberjack.go 467-472. -/
def prefixOf (name : Bytes) : Bytes := stemOf name ++ [45]

/-- What `timeFromName` does (lumberjack.go 438-450). -/
inductive Found where
  | no
  | time (c : Civil)
  | panic
  deriving DecidableEq, Repr

/-- `timeFromName`, lumberjack.go 438-450; the slice expression at 445 panics if prefix and extension overlap. -/
def timeFromName (filename pre ext : Bytes) : Found :=
  if pre <+: filename then
    if ext <:+ filename then
      if pre.length ≤ filename.length - ext.length then
        match parseTime ((filename.take (filename.length - ext.length)).drop pre.length) with
        | some c => .time c
        | none => .no
      else .panic
    else .no
  else .no

/-- The test for one file in `oldLogFiles`, lumberjack.go 418-426. -/
def backupTime (name filename : Bytes) : Found :=
  match timeFromName filename (prefixOf name) (extOf name) with
  | .no => timeFromName filename (prefixOf name) (extOf name ++ asc ".gz")
  | r => r

/-! ### Reading back a time -/

theorem digitVal_digit (n : Nat) : digitVal (digit n) = some (n % 10) := by
  have : ∀ k < 10, digitVal (UInt8.ofNat (48 + k)) = some k := by decide
  exact this (n % 10) (Nat.mod_lt _ (by decide))

theorem two_pad (n : Nat) (r : Bytes) (h : n < 100) : two (pad2 n ++ r) = some (n, r) := by
  simp only [pad2, List.cons_append, List.nil_append, two, digitVal_digit, Option.some.injEq, Prod.mk.injEq, and_true]
  omega

theorem oneOrTwo_pad (n : Nat) (r : Bytes) (h : n < 100) : oneOrTwo (pad2 n ++ r) = some (n, r) := by
  rw [oneOrTwo.eq_def, two_pad n r h]

theorem three_pad (n : Nat) (r : Bytes) (h : n < 1000) : three (pad3 n ++ r) = some (n, r) := by
  simp only [pad3, List.cons_append, List.nil_append, three, two, digitVal_digit, Option.some.injEq, Prod.mk.injEq, and_true]
  omega

theorem four_pad (n : Nat) (r : Bytes) (h : n < 10000) : four (pad4 n ++ r) = some (n, r) := by
  simp only [pad4, List.cons_append, List.nil_append, four, two, digitVal_digit, Option.some.injEq, Prod.mk.injEq, and_true]
  omega

theorem lit_cons (c : UInt8) (r : Bytes) : lit c (c :: r) = some r := by simp [lit]

theorem daysIn_le (m y : Nat) : daysIn m y ≤ 31 := by
  unfold daysIn
  split
  · split <;> omega
  · split <;> omega

/-- What is formatted parses back. -/
theorem parse_format_then (c : Civil) (hv : c.Valid) (hy : c.year ≤ 9999) (rest : Bytes) :
    parseTime (formatTime c ++ rest) = if rest = [] then some c else none := by
  obtain ⟨y, m, d, h, mi, se, ms⟩ := c
  obtain ⟨h1, h2, h3, h4, h5, h6, h7, h8⟩ := hv
  simp only at h1 h2 h3 h4 h5 h6 h7 h8 hy
  have hd := daysIn_le m y
  unfold parseTime formatTime
  simp only [List.append_assoc, List.cons_append]
  rw [four_pad y _ (by omega)]
  simp only [Option.bind_some]
  rw [lit_cons]
  simp only [Option.bind_some]
  rw [two_pad m _ (by omega)]
  simp only [Option.bind_some]
  rw [lit_cons]
  simp only [Option.bind_some]
  rw [two_pad d _ (by omega)]
  simp only [Option.bind_some]
  rw [lit_cons]
  simp only [Option.bind_some]
  rw [oneOrTwo_pad h _ (by omega)]
  simp only [Option.bind_some]
  rw [lit_cons]
  simp only [Option.bind_some]
  rw [two_pad mi _ (by omega)]
  simp only [Option.bind_some]
  rw [lit_cons]
  simp only [Option.bind_some]
  rw [two_pad se _ (by omega)]
  simp only [Option.bind_some]
  rw [lit_cons]
  simp only [Option.bind_some]
  rw [three_pad ms _ (by omega)]
  simp only [Option.bind_some]
  by_cases hr : rest = []
  · rw [if_neg, if_pos hr]
    simp only [hr, ne_eq, not_true_eq_false, false_or]
    omega
  · rw [if_pos (Or.inl hr), if_neg hr]

theorem parse_format (c : Civil) (hv : c.Valid) (hy : c.year ≤ 9999) : parseTime (formatTime c) = some c := by
  have := parse_format_then c hv hy []
  rwa [List.append_nil, if_pos rfl] at this

theorem timeFromName_exact (pre ts ext : Bytes) :
    timeFromName (pre ++ ts ++ ext) pre ext = match parseTime ts with
      | some c => .time c
      | none => .no := by
  unfold timeFromName
  rw [if_pos ⟨ts ++ ext, by simp⟩, if_pos ⟨pre ++ ts, rfl⟩]
  have hl : (pre ++ ts ++ ext).length - ext.length = (pre ++ ts).length := by rw [List.length_append (as := pre ++ ts)]; omega
  rw [hl, if_pos (by simp), List.take_left, List.drop_left]

/-- C34 (partly): the name of a backup is read back as the very time that was written into it, to the millisecond, whatever the
log's name, for years up to 9999 and the default format.  With `LocalTime` the time written is local but read as UTC:
`local_time_shifted`. -/
theorem backup_time_partial (name : Bytes) (c : Civil) (hv : c.Valid) (hy : c.year ≤ 9999) :
    backupTime name (backupName name c) = .time c := by
  unfold backupTime
  have : backupName name c = prefixOf name ++ formatTime c ++ extOf name := rfl
  rw [this, timeFromName_exact, parse_format c hv hy]

theorem drop_gz (pre ts ext : Bytes) (n : Nat) (h : (pre ++ ts ++ (ext ++ asc ".gz")).length - ext.length = n) :
    ∃ x : Bytes, x ≠ [] ∧ ((pre ++ ts ++ (ext ++ asc ".gz")).take n).drop pre.length = ts ++ x := by
  have hg : (asc ".gz").length = 3 := by decide
  simp only [List.length_append, hg] at h
  refine ⟨(ext ++ asc ".gz").take 3, ?_, ?_⟩
  · intro he
    have := congrArg List.length he
    simp only [List.length_take, List.length_append, hg, List.length_nil] at this
    omega
  · have hn : n = (pre ++ ts).length + 3 := by simp only [List.length_append]; omega
    rw [hn, List.take_length_add_append, List.append_assoc, List.drop_left]

/-- C34 (partly): and so is the name of a compressed backup. -/
theorem gz_backup_time_partial (name : Bytes) (c : Civil) (hv : c.Valid) (hy : c.year ≤ 9999) :
    backupTime name (backupName name c ++ asc ".gz") = .time c := by
  have hn : backupName name c ++ asc ".gz" = prefixOf name ++ formatTime c ++ (extOf name ++ asc ".gz") := by
    simp [backupName, prefixOf]
  have hno : timeFromName (backupName name c ++ asc ".gz") (prefixOf name) (extOf name) = .no := by
    rw [hn]
    unfold timeFromName
    rw [if_pos ⟨formatTime c ++ (extOf name ++ asc ".gz"), by simp⟩]
    split
    · obtain ⟨x, hx, he⟩ := drop_gz (prefixOf name) (formatTime c) (extOf name) _ rfl
      rw [he, parse_format_then c hv hy, if_neg hx, if_pos]
      simp only [List.length_append]
      omega
    · rfl
  unfold backupTime
  rw [hno]
  simp only
  rw [hn, timeFromName_exact, parse_format c hv hy]

example : backupName (asc "server.log") ⟨2016, 11, 4, 18, 30, 0, 7⟩ = asc "server-2016-11-04T18-30-00.007.log" ∧
    Civil.Valid ⟨2016, 11, 4, 18, 30, 0, 7⟩ ∧ Civil.millis ⟨2016, 11, 4, 18, 30, 0, 7⟩ = 1478284200007 := by
  decide +kernel

/-- `k` decimal digits that say `n`. -/
def Says (ds : Bytes) (k n : Nat) : Prop :=
  ds.length = k ∧ (∀ c ∈ ds, 48 ≤ c.toNat ∧ c.toNat ≤ 57) ∧ ds.foldl (fun a c => 10 * a + (c.toNat - 48)) 0 = n

/-- A stamp is a date and a time of day, with one or two digits for the hour. -/
def Stamp (ts : Bytes) (c : Civil) : Prop :=
  ∃ y mo d h mi s ms, ts = y ++ asc "-" ++ mo ++ asc "-" ++ d ++ asc "T" ++ h ++ asc "-" ++ mi ++ asc "-" ++ s ++ asc "." ++ ms ∧
    Says y 4 c.year ∧ Says mo 2 c.month ∧ Says d 2 c.day ∧ (Says h 2 c.hour ∨ Says h 1 c.hour) ∧ Says mi 2 c.minute ∧ Says s 2 c.second ∧ Says ms 3 c.ms ∧ c.Valid

theorem digitVal_some {c : UInt8} {n : Nat} (h : digitVal c = some n) : 48 ≤ c.toNat ∧ c.toNat ≤ 57 ∧ n = c.toNat - 48 := by
  unfold digitVal at h
  split at h
  · rename_i hc
    cases h
    exact ⟨UInt8.le_iff_toNat_le.1 hc.1, UInt8.le_iff_toNat_le.1 hc.2, rfl⟩
  · cases h

theorem two_some {s r : Bytes} {n : Nat} (h : two s = some (n, r)) : ∃ ds, s = ds ++ r ∧ Says ds 2 n := by
  unfold two at h
  split at h
  · rename_i a b r'
    split at h
    · rename_i x y hx hy
      cases h
      obtain ⟨a1, a2, rfl⟩ := digitVal_some hx
      obtain ⟨b1, b2, rfl⟩ := digitVal_some hy
      refine ⟨[a, b], rfl, rfl, ?_, ?_⟩
      · simp; omega
      · simp; omega
    · cases h
  · cases h

theorem oneOrTwo_some {s r : Bytes} {n : Nat} (h : oneOrTwo s = some (n, r)) : ∃ ds, s = ds ++ r ∧ (Says ds 2 n ∨ Says ds 1 n) := by
  unfold oneOrTwo at h
  split at h
  · rename_i q hq
    cases h
    obtain ⟨ds, h1, h2⟩ := two_some hq
    exact ⟨ds, h1, .inl h2⟩
  · split at h
    · rename_i a r' _
      split at h
      · rename_i x hx
        cases h
        obtain ⟨a1, a2, rfl⟩ := digitVal_some hx
        refine ⟨[a], rfl, .inr ⟨rfl, ?_, ?_⟩⟩
        · simp; omega
        · simp
      · cases h
    · cases h

theorem three_some {s r : Bytes} {n : Nat} (h : three s = some (n, r)) : ∃ ds, s = ds ++ r ∧ Says ds 3 n := by
  unfold three at h
  split at h
  · rename_i a r'
    split at h
    · rename_i x y q hx hy
      cases h
      obtain ⟨a1, a2, rfl⟩ := digitVal_some hx
      obtain ⟨ds, rfl, hl, hd, hv⟩ := two_some hy
      match ds, hl with
      | [b, c], _ =>
        refine ⟨[a, b, c], rfl, rfl, ?_, ?_⟩
        · simp only [List.mem_cons, List.not_mem_nil, or_false, forall_eq_or_imp, forall_eq] at hd ⊢
          exact ⟨⟨a1, a2⟩, hd⟩
        · simp at hv ⊢; omega
    · cases h
  · cases h

theorem four_some {s r : Bytes} {n : Nat} (h : four s = some (n, r)) : ∃ ds, s = ds ++ r ∧ Says ds 4 n := by
  unfold four at h
  split at h
  · rename_i x q hx
    split at h
    · rename_i y q' hy
      cases h
      obtain ⟨ds, rfl, hl, hd, hv⟩ := two_some hx
      obtain ⟨es, rfl, kl, kd, kv⟩ := two_some hy
      match ds, hl, es, kl with
      | [a, b], _, [c, d], _ =>
        refine ⟨[a, b, c, d], rfl, rfl, ?_, ?_⟩
        · simp only [List.mem_cons, List.not_mem_nil, or_false, forall_eq_or_imp, forall_eq] at hd kd ⊢
          exact ⟨hd.1, hd.2, kd.1, kd.2⟩
        · simp at hv kv ⊢; omega
    · cases h
  · cases h

theorem lit_some {c : UInt8} {s r : Bytes} (h : lit c s = some r) : s = [c] ++ r := by
  unfold lit at h
  split at h
  · rename_i hc
    cases h
    cases s with
    | nil => cases hc
    | cons a s => cases hc; rfl
  · cases h

/-- What `time.Parse` accepts is a stamp, and the time is the one it says. -/
theorem parse_stamp (ts : Bytes) (c : Civil) (h : parseTime ts = some c) : Stamp ts c := by
  unfold parseTime at h
  simp only [Option.bind_eq_some_iff, Prod.exists] at h
  obtain ⟨y, s1, h1, s2, h2, mo, s3, h3, s4, h4, d, s5, h5, s6, h6, hh, s7, h7, s8, h8, mi, s9, h9, s10, h10, se, s11, h11, s12, h12, ms, s13, h13, h⟩ := h
  split at h
  · cases h
  · rename_i hn
    cases h
    simp only [not_or, Decidable.not_not] at hn
    obtain ⟨rfl, n1, n2, n3, n4, n5, n6, n7⟩ := hn
    obtain ⟨dy, rfl, wy⟩ := four_some h1
    have e2 := lit_some h2; subst e2
    obtain ⟨dmo, rfl, wmo⟩ := two_some h3
    have e4 := lit_some h4; subst e4
    obtain ⟨dd, rfl, wd⟩ := two_some h5
    have e6 := lit_some h6; subst e6
    obtain ⟨dh, rfl, wh⟩ := oneOrTwo_some h7
    have e8 := lit_some h8; subst e8
    obtain ⟨dmi, rfl, wmi⟩ := two_some h9
    have e10 := lit_some h10; subst e10
    obtain ⟨ds, rfl, ws⟩ := two_some h11
    have e12 := lit_some h12; subst e12
    obtain ⟨dms, rfl, wms⟩ := three_some h13
    refine ⟨dy, dmo, dd, dh, dmi, ds, dms, ?_, wy, wmo, wd, wh, wmi, ws, wms, ?_⟩
    · simp [asc]
    · have : ms < 1000 := by
        obtain ⟨hl, hd, hv⟩ := wms
        match dms, hl with
        | [a, b, c], _ =>
          simp at hd hv
          omega
      refine ⟨?_, ?_, ?_, ?_, ?_, ?_, ?_, ?_⟩ <;> simp only <;> omega

theorem timeFromName_found (filename pre ext : Bytes) (c : Civil) (h : timeFromName filename pre ext = .time c) :
    ∃ ts, filename = pre ++ ts ++ ext ∧ parseTime ts = some c := by
  unfold timeFromName at h
  split at h
  · rename_i hp
    split at h
    · rename_i hs
      split at h
      · rename_i hl
        split at h
        · rename_i c' hc
          injection h with h
          subst h
          refine ⟨_, ?_, hc⟩
          obtain ⟨u, hu⟩ := hp
          obtain ⟨v, hv⟩ := hs
          have hvl : filename.length - ext.length = v.length := by rw [← hv]; simp
          rw [hvl] at hl ⊢
          have htake : filename.take v.length = v := by rw [← hv, List.take_left]
          rw [htake]
          have hpv : pre <+: v := by
            have h1 : pre <+: filename := ⟨u, hu⟩
            have h2 : v <+: filename := ⟨ext, hv⟩
            exact List.prefix_of_prefix_length_le h1 h2 hl
          obtain ⟨w, hw⟩ := hpv
          rw [← hw, List.drop_left, hw, hv]
        · cases h
      · cases h
    · cases h
  · cases h

/-- C34: only a name made of the log's own prefix, a time and the log's extension (or that and ".gz") is taken for a backup. -/
theorem backup_names_only (name filename : Bytes) (c : Civil) (h : backupTime name filename = .time c) :
    ∃ ts, Stamp ts c ∧
      (filename = prefixOf name ++ ts ++ extOf name ∨ filename = prefixOf name ++ ts ++ (extOf name ++ asc ".gz")) := by
  unfold backupTime at h
  split at h
  · obtain ⟨ts, h1, h2⟩ := timeFromName_found _ _ _ _ h
    exact ⟨ts, parse_stamp _ _ h2, Or.inr h1⟩
  · obtain ⟨ts, h1, h2⟩ := timeFromName_found _ _ _ _ h
    exact ⟨ts, parse_stamp _ _ h2, Or.inl h1⟩

/-- A name consists of stem and extension; the extension is empty or starts with a dot. -/
theorem stem_ext (name : Bytes) : stemOf name ++ extOf name = name ∧ (extOf name = [] ∨ ∃ r, extOf name = 46 :: r) := by
  by_cases h : 46 ∈ name
  · have hx : extOf name = 46 :: (name.reverse.takeWhile (· ≠ 46)).reverse := if_pos h
    refine ⟨?_, Or.inr ⟨_, hx⟩⟩
    have hd : ∃ d, name.reverse.dropWhile (· ≠ 46) = 46 :: d := by
      have : ∀ l : Bytes, 46 ∈ l → ∃ d, l.dropWhile (· ≠ 46) = 46 :: d := by
        intro l
        induction l with
        | nil => simp
        | cons a l ih =>
          intro hm
          by_cases ha : a = 46
          · subst ha; exact ⟨l, by simp⟩
          · rcases List.mem_cons.mp hm with hm | hm
            · exact absurd hm.symm ha
            · obtain ⟨d, hd⟩ := ih hm
              exact ⟨d, by simp only [List.dropWhile_cons]; simpa [ha] using hd⟩
      exact this _ (by simpa using h)
    obtain ⟨d, hd⟩ := hd
    have hsplit : name = d.reverse ++ extOf name := by
      have := List.takeWhile_append_dropWhile (p := (· ≠ (46 : UInt8))) (l := name.reverse)
      rw [hd] at this
      have h2 := congrArg List.reverse this
      simp only [List.reverse_append, List.reverse_cons, List.reverse_reverse] at h2
      rw [hx]
      conv => lhs; rw [← h2]
      simp
    have hst : stemOf name = d.reverse := by
      unfold stemOf
      have hlen : name.length - (extOf name).length = d.reverse.length := by
        have := congrArg List.length hsplit
        rw [List.length_append] at this
        omega
      rw [hlen]
      conv => lhs; rw [hsplit]
      exact List.take_left ..
    rw [hst]
    exact hsplit.symm
  · have hx : extOf name = [] := if_neg h
    exact ⟨by simp [stemOf, hx], Or.inl hx⟩

/-- C33, C34: the live file itself is never taken for a backup. -/
theorem live_not_backup (name : Bytes) : backupTime name name = .no := by
  obtain ⟨hse, hext⟩ := stem_ext name
  have hnp : ¬ prefixOf name <+: name := by
    rintro ⟨u, hu⟩
    unfold prefixOf at hu
    have : [45] ++ u = extOf name := by
      have h2 : stemOf name ++ ([45] ++ u) = stemOf name ++ extOf name := by rw [hse]; simpa using hu
      exact List.append_cancel_left h2
    rcases hext with h | ⟨r, h⟩
    · rw [h] at this; cases this
    · rw [h] at this
      injection this with h1 _
      exact absurd h1 (by decide)
  unfold backupTime timeFromName
  simp [hnp]

theorem no_overlap (filename pre ext : Bytes) (hp : (pre ++ [45]) <+: filename) (hs : ext <:+ filename) (hd : 45 ∉ ext) :
    (pre ++ [45]).length ≤ filename.length - ext.length := by
  obtain ⟨u, hu⟩ := hp
  obtain ⟨v, hv⟩ := hs
  have hvl : filename.length - ext.length = v.length := by rw [← hv]; simp
  rw [hvl]
  have hkey : ¬ v.length ≤ pre.length := by
    intro hlt
    have h1 : filename[pre.length]? = some 45 := by rw [← hu]; simp
    rw [← hv, List.getElem?_append_right hlt] at h1
    exact hd (List.mem_of_getElem? h1)
  simp only [List.length_append, List.length_singleton]
  omega

/-- C34: looking at a file name does not panic if the log's extension has no dash. -/
theorem no_panic (name filename : Bytes) (h : 45 ∉ extOf name) : backupTime name filename ≠ .panic := by
  have key : ∀ ext, 45 ∉ ext → timeFromName filename (prefixOf name) ext ≠ .panic := by
    intro ext hd
    unfold timeFromName
    split
    · rename_i hp
      split
      · rename_i hs
        have hl : (prefixOf name).length ≤ filename.length - ext.length := no_overlap filename (stemOf name) ext hp hs hd
        rw [if_pos hl]
        split <;> simp
      · simp
    · simp
  unfold backupTime
  split
  · apply key
    intro hm
    rcases List.mem_append.mp hm with hm | hm
    · exact h hm
    · exact absurd hm (by decide)
  · exact key _ h

/-- Otherwise it can: cleaning the directory of the log server.1.1-a crashes the program if there is a file server.1-a. -/
theorem overlap_panics : backupTime (asc "server.1.1-a") (asc "server.1-a") = .panic := by decide +kernel

/-- The calendar time of an instant (in milliseconds since 1970) at an offset from UTC. -/
def At (t offset : Int) (c : Civil) : Prop := c.Valid ∧ c.millis = t + offset

/-- C34 is false with `LocalTime`: the name holds the local time, which is read as UTC; the result is off by the offset. -/
theorem local_time_shifted (name : Bytes) (t offset : Int) (c : Civil) (h : At t offset c) (hy : c.year ≤ 9999) (ho : offset ≠ 0) :
    ∃ c', backupTime name (backupName name c) = .time c' ∧ c'.millis ≠ t := by
  refine ⟨c, backup_time_partial name c h.1 hy, ?_⟩
  rw [h.2]
  omega

/-- Midnight 1 January 2018 in Beijing. -/
example : At 1514736000000 (8 * 3600000) ⟨2018, 1, 1, 0, 0, 0, 0⟩ := by
  refine ⟨by decide, by decide⟩

end Verif.Lumberjack
