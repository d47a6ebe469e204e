import Verif.Basic

/-!
# C29, C30: dimensions of counters and the export timer (countlog/stats/window.go)
-/

namespace Verif.Stats

/-- A property value: what matters is whether it is a string (window.go:201-216). -/
inductive Val where
  | str (s : Bytes)
  | other
  deriving DecidableEq

/-- `x.(string)`: panics (`none`) on other values (window.go:98-99 and 201-216). -/
def Val.string? : Val → Option Bytes
  | .str s => some s
  | .other => none

/-- `strings.Split(s, ",")` of the standard library (used at window.go:99): the pieces
between commas, at least one.  `cur` is the piece being read. -/
def splitComma (cur : Bytes) : Bytes → List Bytes
  | [] => [cur]
  | c :: s => if c = 44 then cur :: splitComma [] s else splitComma (cur ++ [c]) s

/-- The first loop of `newDimensionExtractor`, window.go:95-101: every "dim" property
replaces the list.  `none`: panic. -/
def dimensionElems (elems : List Bytes) : List Val → Option (List Bytes)
  | [] => some elems
  | .other :: _ => none
  | [.str key] => if key = asc "dim" then none else some elems
  | .str key :: v :: sample =>
    if key = asc "dim" then v.string?.bind fun s => dimensionElems (splitComma [] s) sample
    else dimensionElems elems sample

/-- The second loop, window.go:102-111; `i` is the index of the first value given. -/
def dimensionIndices (elems : List Bytes) (i : Nat) : List Val → Option (List Nat)
  | [] => some []
  | .other :: _ => none
  | [.str key] => some (elems.flatMap fun d => if key = d then [i, i + 1] else [])
  | .str key :: _ :: sample =>
    (dimensionIndices elems (i + 2) sample).map fun r =>
      (elems.flatMap fun d => if key = d then [i, i + 1] else []) ++ r

/-- The extractors, window.go:142-199: the capacity of the array the dimension is put in
(`none`: made to measure), and the indices. -/
structure Extractor where
  capacity : Option Nat
  indices : List Nat
  deriving DecidableEq

/-- `newDimensionExtractor`, window.go:94-140, with the number of elements. -/
def newDimensionExtractor (sample : List Val) : Option (Extractor × Nat) :=
  (dimensionElems [] sample).bind fun elems =>
  (dimensionIndices elems 0 sample).map fun indices =>
    if indices.length = 0 then (⟨some 0, []⟩, 0)
    else if indices.length ≤ 2 then (⟨some 2, indices⟩, indices.length)
    else if indices.length ≤ 4 then (⟨some 4, indices⟩, indices.length)
    else if indices.length ≤ 8 then (⟨some 8, indices⟩, indices.length)
    else (⟨none, indices⟩, indices.length)

/-- The loop of `extractDimension`, window.go:204-206. -/
def readDimension (properties : List Val) : List Nat → Option (List Bytes)
  | [] => some []
  | idx :: indices =>
    (properties[idx]?.bind Val.string?).bind fun s => (readDimension properties indices).map (s :: ·)

/-- `Extract` up to the key used in the map (window.go:145-146, 159-164 and 201-210): the
array interface is compared by its strings, so the key is their list ([] for the constant
key of `dimensionExtractor0`).  `none`: panic, also when slicing beyond the array. -/
def Extractor.key (x : Extractor) (properties : List Val) : Option (List Bytes) :=
  match x.capacity with
  | none => readDimension properties x.indices
  | some c => if c < x.indices.length then none else readDimension properties x.indices

/-- The dimension in a point given to the collector, window.go:71-82: the first
`dimensionElemCount` strings of the key. -/
def pointDimension (count : Nat) (key : List Bytes) : List Bytes := key.take count

/-! ### Specification -/

/-- The property list of a log call, from its name/value pairs. -/
def properties (l : List (Bytes × Val)) : List Val := l.flatMap fun p => [.str p.1, p.2]

/-- The names in the dim list: the last property called dim counts. -/
def dims (l : List (Bytes × Val)) : List Bytes :=
  match (l.filter fun p => p.1 = asc "dim").getLast? with
  | some (_, .str s) => splitComma [] s
  | _ => []

/-- Same property names in the same order: what a call site written with literal names
produces. -/
def SameNames (a b : List (Bytes × Val)) : Prop := a.map Prod.fst = b.map Prod.fst

/-- All properties in the dim list have string values. -/
def Strings (ds : List Bytes) (l : List (Bytes × Val)) : Prop := ∀ p ∈ l, p.1 ∈ ds → ∃ s, p.2 = .str s

/-! ### Proofs -/

/-- C29: the names of a dim list are what stands between its commas: no name contains a
comma, and the names joined with commas give the list back. -/
theorem splitComma_spec (s : Bytes) :
    (splitComma [] s ≠ [] ∧ ∀ d ∈ splitComma [] s, 44 ∉ d) ∧ List.intercalate [44] (splitComma [] s) = s := by
  have key : ∀ (s cur : Bytes), 44 ∉ cur →
      (splitComma cur s ≠ [] ∧ ∀ d ∈ splitComma cur s, 44 ∉ d) ∧ List.intercalate [44] (splitComma cur s) = cur ++ s := by
    intro s
    induction s with
    | nil => intro cur hc; simp [splitComma, hc]
    | cons c s ih =>
      intro cur hc
      unfold splitComma
      by_cases h : c = 44
      · rw [if_pos h]
        obtain ⟨⟨h1, h2⟩, h3⟩ := ih [] (by simp)
        refine ⟨⟨by simp, ?_⟩, ?_⟩
        · intro d hd
          rcases List.mem_cons.mp hd with rfl | hd
          · exact hc
          · exact h2 d hd
        · subst h
          cases hs : splitComma [] s with
          | nil => exact absurd hs h1
          | cons a l =>
            rw [hs] at h3
            simp only [List.nil_append] at h3
            rw [← h3]
            simp [List.intercalate, List.intersperse]
      · rw [if_neg h]
        have := ih (cur ++ [c]) (by simp [hc, Ne.symm h])
        simpa using this
  simpa using key s [] (by simp)

example : splitComma [] (asc "city,ver") = [asc "city", asc "ver"] := by decide

theorem dimensionElems_properties (l : List (Bytes × Val)) (h : ∀ p ∈ l, p.1 = asc "dim" → ∃ s, p.2 = .str s) :
    ∀ elems, dimensionElems elems (properties l) = some (
      match (l.filter fun p => p.1 = asc "dim").getLast? with
      | some (_, .str s) => splitComma [] s
      | _ => elems) := by
  induction l with
  | nil => intro elems; rfl
  | cons p l ih =>
    intro elems
    obtain ⟨k, v⟩ := p
    have ih' := ih (fun p hp => h p (List.mem_cons_of_mem _ hp))
    have hl : properties ((k, v) :: l) = .str k :: v :: properties l := rfl
    rw [hl, dimensionElems]
    by_cases hk : k = asc "dim"
    · obtain ⟨s, hs⟩ := h (k, v) (List.mem_cons_self ..) hk
      simp only at hs
      subst hs
      rw [if_pos hk]
      simp only [Val.string?, Option.bind_some]
      rw [ih', List.filter_cons_of_pos (by simpa using hk)]
      cases hf : l.filter fun p => p.1 = asc "dim" with
      | nil => rfl
      | cons q qs =>
        simp only [List.getLast?_cons_cons]
        congr 1
        have : (q :: qs).getLast? = some ((q :: qs).getLast (by simp)) := List.getLast?_eq_some_getLast (by simp)
        rw [this]
        have hm : (q :: qs).getLast (by simp) ∈ l.filter fun p => p.1 = asc "dim" := by
          rw [hf]; exact List.getLast_mem _
        rw [List.mem_filter] at hm
        obtain ⟨s', hs'⟩ := h _ (List.mem_cons_of_mem _ hm.1) (by simpa using hm.2)
        cases hq : (q :: qs).getLast (by simp) with
        | mk a b => rw [hq] at hs'; simp only at hs'; subst hs'; rfl
    · rw [if_neg hk, ih', List.filter_cons_of_neg (by simpa using hk)]

/-- The pairs of an event the key is made of: each property once for every mention in the
dim list. -/
def keyOf (ds : List Bytes) : List (Bytes × Val) → List Bytes
  | [] => []
  | (k, .str s) :: l => (ds.flatMap fun d => if k = d then [k, s] else []) ++ keyOf ds l
  | (_, .other) :: l => keyOf ds l

theorem readDimension_append (ps : List Val) (a b : List Nat) :
    readDimension ps (a ++ b) = (readDimension ps a).bind fun x => (readDimension ps b).map (x ++ ·) := by
  induction a with
  | nil => cases h : readDimension ps b <;> simp [readDimension, h]
  | cons i a ih =>
    simp only [List.cons_append, readDimension, ih]
    cases ps[i]?.bind Val.string? with
    | none => rfl
    | some s =>
      simp only [Option.bind_some]
      cases readDimension ps a with
      | none => rfl
      | some x => cases readDimension ps b <;> rfl

theorem read_pair (pre rest : List Val) (k : Bytes) (s : Bytes) (ds : List Bytes) :
    readDimension (pre ++ .str k :: .str s :: rest) (ds.flatMap fun d => if k = d then [pre.length, pre.length + 1] else []) =
      some (ds.flatMap fun d => if k = d then [k, s] else []) := by
  induction ds with
  | nil => rfl
  | cons d ds ih =>
    simp only [List.flatMap_cons]
    by_cases hd : k = d
    · simp only [if_pos hd]
      rw [readDimension_append, ih]
      simp [readDimension, Val.string?]
    · simp only [if_neg hd, List.nil_append]
      exact ih

theorem flatMap_none {α β} (ds : List α) (f : α → List β) (h : ∀ d ∈ ds, f d = []) : ds.flatMap f = [] := by
  induction ds with
  | nil => rfl
  | cons d ds ih =>
    rw [List.flatMap_cons, h d (List.mem_cons_self ..), ih (fun x hx => h x (List.mem_cons_of_mem _ hx))]; rfl

/-- With the names of the sample, the key of an event is made of its own pairs. -/
theorem indices_read (ds : List Bytes) : ∀ (sample event : List (Bytes × Val)) (pre : List Val),
    SameNames event sample → Strings ds event →
    ∃ indices, dimensionIndices ds pre.length (properties sample) = some indices ∧
      readDimension (pre ++ properties event) indices = some (keyOf ds event) := by
  intro sample
  induction sample with
  | nil =>
    intro event pre hs _
    have : event = [] := by simpa [SameNames] using hs
    subst this
    exact ⟨[], rfl, rfl⟩
  | cons p sample ih =>
    intro event pre hs hstr
    obtain ⟨k, v⟩ := p
    cases event with
    | nil => simp [SameNames] at hs
    | cons q event =>
      obtain ⟨k', v'⟩ := q
      simp only [SameNames, List.map_cons, List.cons.injEq] at hs
      obtain ⟨hk, hs⟩ := hs
      subst hk
      obtain ⟨r, hr, hread⟩ := ih event (pre ++ [.str k', v']) hs
        (fun p hp => hstr p (List.mem_cons_of_mem _ hp))
      rw [List.length_append] at hr
      have hl : properties ((k', v) :: sample) = .str k' :: v :: properties sample := rfl
      have he : properties ((k', v') :: event) = .str k' :: v' :: properties event := rfl
      refine ⟨_, by rw [hl, dimensionIndices, show pre.length + 2 = pre.length + [Val.str k', v'].length from rfl, hr]; rfl, ?_⟩
      rw [he]
      have hread' : readDimension (pre ++ .str k' :: v' :: properties event) r = some (keyOf ds event) := by
        rw [← hread]; simp
      rw [readDimension_append, hread']
      cases v' with
      | str s => rw [read_pair]; rfl
      | other =>
        have hn : k' ∉ ds := by
          intro hm
          obtain ⟨s, h⟩ := hstr (k', .other) (List.mem_cons_self ..) hm
          simp at h
        rw [flatMap_none ds _ (fun d hd => by rw [if_neg (by rintro rfl; exact hn hd)])]
        rfl

theorem readDimension_length (ps : List Val) : ∀ (is : List Nat) (k : List Bytes), readDimension ps is = some k → k.length = is.length := by
  intro is
  induction is with
  | nil => intro k h; simp [readDimension] at h; subst h; rfl
  | cons i is ih =>
    intro k h
    rw [readDimension] at h
    cases h1 : ps[i]?.bind Val.string? with
    | none => rw [h1] at h; simp at h
    | some s =>
      rw [h1] at h
      cases h2 : readDimension ps is with
      | none => rw [h2] at h; simp at h
      | some r => rw [h2] at h; simp at h; subst h; simp [ih r h2]

/-- The key used for an event of the site, and the dimension reported for it. -/
theorem key_of_event (sample event : List (Bytes × Val)) (hd : ∀ p ∈ sample, p.1 = asc "dim" → ∃ s, p.2 = .str s)
    (hs : SameNames event sample) (hstr : Strings (dims sample) event) :
    ∃ x n, newDimensionExtractor (properties sample) = some (x, n) ∧
      x.key (properties event) = some (keyOf (dims sample) event) ∧
      pointDimension n (keyOf (dims sample) event) = keyOf (dims sample) event := by
  obtain ⟨indices, hi, hread⟩ := indices_read (dims sample) sample event [] hs hstr
  have he : dimensionElems [] (properties sample) = some (dims sample) := dimensionElems_properties sample hd []
  rw [newDimensionExtractor, he, Option.bind_some, show (0 : Nat) = ([] : List Val).length from rfl, hi]
  have hlen := readDimension_length _ _ _ hread
  simp only [List.nil_append] at hread
  simp only [Option.map_some, Option.some.injEq]
  have htake : ∀ n, n = indices.length → pointDimension n (keyOf (dims sample) event) = keyOf (dims sample) event := by
    rintro n rfl; unfold pointDimension; rw [← hlen]; exact List.take_length
  have hkey : ∀ c, indices.length ≤ c → Extractor.key ⟨some c, indices⟩ (properties event) = some (keyOf (dims sample) event) := by
    intro c hc
    simp only [Extractor.key]
    rw [if_neg (by omega)]
    exact hread
  by_cases h0 : indices.length = 0
  · have : indices = [] := List.length_eq_zero_iff.mp h0
    subst this
    rw [if_pos (show ([] : List Nat).length = ([] : List Val).length from rfl)]
    exact ⟨_, _, rfl, hkey 0 (by simp), htake 0 rfl⟩
  · rw [if_neg (by simpa using h0)]
    by_cases h2 : indices.length ≤ 2
    · rw [if_pos h2]; exact ⟨_, _, rfl, hkey 2 h2, htake _ rfl⟩
    · rw [if_neg h2]
      by_cases h4 : indices.length ≤ 4
      · rw [if_pos h4]; exact ⟨_, _, rfl, hkey 4 h4, htake _ rfl⟩
      · rw [if_neg h4]
        by_cases h8 : indices.length ≤ 8
        · rw [if_pos h8]; exact ⟨_, _, rfl, hkey 8 h8, htake _ rfl⟩
        · rw [if_neg h8]; exact ⟨_, _, rfl, hread, htake _ rfl⟩

theorem flatMap_pairs_inj (k s s' : Bytes) (ds : List Bytes) (hk : k ∈ ds)
    (h : (ds.flatMap fun d => if k = d then [k, s] else []) = ds.flatMap fun d => if k = d then [k, s'] else []) : s = s' := by
  induction ds with
  | nil => simp at hk
  | cons d ds ih =>
    simp only [List.flatMap_cons] at h
    by_cases hd : k = d
    · simp only [if_pos hd, List.cons_append, List.nil_append, List.cons.injEq] at h
      exact h.2.1
    · simp only [if_neg hd, List.nil_append] at h
      exact ih (by simpa [hd] using hk) h

theorem flatMap_length_eq (k s s' : Bytes) (ds : List Bytes) :
    (ds.flatMap fun d => if k = d then [k, s] else []).length = (ds.flatMap fun d => if k = d then [k, s'] else []).length := by
  induction ds with
  | nil => rfl
  | cons d ds ih =>
    simp only [List.flatMap_cons, List.length_append, ih]
    split <;> rfl

/-- Equal keys mean equal values of all properties named, and the other way round. -/
theorem keyOf_eq_iff (ds : List Bytes) : ∀ (a b : List (Bytes × Val)), SameNames a b → Strings ds a → Strings ds b →
    (keyOf ds a = keyOf ds b ↔ (a.filter fun p => p.1 ∈ ds) = b.filter fun p => p.1 ∈ ds) := by
  intro a
  induction a with
  | nil =>
    intro b h _ _
    have : b = [] := by simpa [SameNames] using h.symm
    subst this
    simp
  | cons p a ih =>
    intro b h ha hb
    cases b with
    | nil => simp [SameNames] at h
    | cons q b =>
      obtain ⟨k, v⟩ := p
      obtain ⟨k', v'⟩ := q
      simp only [SameNames, List.map_cons, List.cons.injEq] at h
      obtain ⟨rfl, h⟩ := h
      have ih' := ih b h (fun p hp => ha p (List.mem_cons_of_mem _ hp)) (fun p hp => hb p (List.mem_cons_of_mem _ hp))
      by_cases hk : k ∈ ds
      · obtain ⟨s, hs⟩ := ha (k, v) (List.mem_cons_self ..) hk
        obtain ⟨s', hs'⟩ := hb (k, v') (List.mem_cons_self ..) hk
        simp only at hs hs'
        subst hs hs'
        rw [List.filter_cons_of_pos (by simpa using hk), List.filter_cons_of_pos (by simpa using hk)]
        simp only [keyOf, List.cons.injEq, Prod.mk.injEq, true_and, Val.str.injEq]
        rw [← ih']
        constructor
        · intro e
          obtain ⟨e1, e2⟩ := List.append_inj e (flatMap_length_eq k s s' ds)
          exact ⟨flatMap_pairs_inj k s s' ds hk e1, e2⟩
        · rintro ⟨rfl, e⟩; rw [e]
      · rw [List.filter_cons_of_neg (by simpa using hk), List.filter_cons_of_neg (by simpa using hk), ← ih']
        have skip : ∀ w l, keyOf ds ((k, w) :: l) = keyOf ds l := by
          intro w l
          cases w with
          | other => rfl
          | str s =>
            rw [keyOf, flatMap_none ds _ (fun d hd => by rw [if_neg (by rintro rfl; exact hk hd)])]; rfl
        rw [skip, skip]

/-- C29, partial: events logged with the property names of the site's sample, in the same
order, are added to the same counter exactly when they agree on all properties in the
dim list.  Missing: events with other layouts and dimensions that are not strings (see
below). -/
theorem same_counter_iff_partial (sample a b : List (Bytes × Val))
    (hd : ∀ p ∈ sample, p.1 = asc "dim" → ∃ s, p.2 = .str s)
    (ha : SameNames a sample) (hb : SameNames b sample)
    (hsa : Strings (dims sample) a) (hsb : Strings (dims sample) b) :
    ∃ x n ka kb, newDimensionExtractor (properties sample) = some (x, n) ∧
      x.key (properties a) = some ka ∧ x.key (properties b) = some kb ∧
      (ka = kb ↔ (a.filter fun p => p.1 ∈ dims sample) = b.filter fun p => p.1 ∈ dims sample) := by
  obtain ⟨x, n, hx, hka, _⟩ := key_of_event sample a hd ha hsa
  obtain ⟨x', n', hx', hkb, _⟩ := key_of_event sample b hd hb hsb
  rw [hx] at hx'
  injection hx' with hx'
  injection hx' with h1 h2
  subst h1
  exact ⟨x, n, _, _, hx, hka, hkb, keyOf_eq_iff _ a b (ha.trans hb.symm) hsa hsb⟩

/-- The name and value of each pair, one after the other. -/
def listed : List (Bytes × Val) → List Bytes
  | [] => []
  | (k, .str s) :: l => k :: s :: listed l
  | (k, .other) :: l => k :: listed l

theorem single_mention (k s : Bytes) (ds : List Bytes) (hk : k ∈ ds) (hn : ds.Nodup) :
    (ds.flatMap fun d => if k = d then [k, s] else []) = [k, s] := by
  induction ds with
  | nil => simp at hk
  | cons d ds ih =>
    rw [List.nodup_cons] at hn
    simp only [List.flatMap_cons]
    by_cases hd : k = d
    · subst hd
      rw [if_pos rfl, flatMap_none ds _ (fun d hd => by rw [if_neg (by rintro rfl; exact hn.1 hd)])]
      rfl
    · rw [if_neg hd, List.nil_append]
      exact ih (by simpa [hd] using hk) hn.2

theorem keyOf_listed (ds : List Bytes) (hn : ds.Nodup) : ∀ (l : List (Bytes × Val)), Strings ds l →
    keyOf ds l = listed (l.filter fun p => p.1 ∈ ds) := by
  intro l
  induction l with
  | nil => intro _; rfl
  | cons p l ih =>
    intro h
    obtain ⟨k, v⟩ := p
    have ih' := ih (fun p hp => h p (List.mem_cons_of_mem _ hp))
    by_cases hk : k ∈ ds
    · obtain ⟨s, hs⟩ := h (k, v) (List.mem_cons_self ..) hk
      simp only at hs
      subst hs
      rw [List.filter_cons_of_pos (by simpa using hk), keyOf, single_mention k s ds hk hn, listed, ih']
      rfl
    · rw [List.filter_cons_of_neg (by simpa using hk), ← ih']
      cases v with
      | other => rfl
      | str s =>
        rw [keyOf, flatMap_none ds _ (fun d hd => by rw [if_neg (by rintro rfl; exact hk hd)])]; rfl

/-- C29, partial: the reported dimension lists the names and values of the properties in
the dim list, in the order of the log call, when the dim list names none of them twice. -/
theorem reported_dimension_partial (sample event : List (Bytes × Val))
    (hd : ∀ p ∈ sample, p.1 = asc "dim" → ∃ s, p.2 = .str s)
    (hs : SameNames event sample) (hstr : Strings (dims sample) event) (hn : (dims sample).Nodup) :
    ∃ x n k, newDimensionExtractor (properties sample) = some (x, n) ∧ x.key (properties event) = some k ∧
      pointDimension n k = listed (event.filter fun p => p.1 ∈ dims sample) := by
  obtain ⟨x, n, h1, h2, h3⟩ := key_of_event sample event hd hs hstr
  exact ⟨x, n, _, h1, h2, by rw [h3, keyOf_listed _ hn event hstr]⟩

/-- A site with five dimensions (ten strings), and an event that differs in one of them. -/
def sampleSite : List (Bytes × Val) :=
  [(asc "agg", .str (asc "counter")), (asc "dim", .str (asc "a,b,c,d,e")), (asc "e", .str (asc "5")), (asc "n", .other),
   (asc "a", .str (asc "1")), (asc "b", .str (asc "2")), (asc "c", .str (asc "3")), (asc "d", .str (asc "4"))]

example : dims sampleSite = [asc "a", asc "b", asc "c", asc "d", asc "e"] ∧ (dims sampleSite).Nodup ∧
    ((newDimensionExtractor (properties sampleSite)).bind fun r => r.1.key (properties sampleSite)) =
      some [asc "e", asc "5", asc "a", asc "1", asc "b", asc "2", asc "c", asc "3", asc "d", asc "4"] := by
  decide +kernel

/-- C29 fails for events of the same site with another layout (property lists built at run
time): two events that differ in the dimension share a counter, which is reported under a
name the dim list does not contain. -/
theorem other_layout_shares_counter : ∃ (sample a b : List (Bytes × Val)) (x : Extractor) (n : Nat) (k : List Bytes),
    newDimensionExtractor (properties sample) = some (x, n) ∧ dims sample = [asc "city"] ∧
    x.key (properties a) = some k ∧ x.key (properties b) = some k ∧
    (a.filter fun p => p.1 ∈ dims sample) ≠ (b.filter fun p => p.1 ∈ dims sample) ∧
    pointDimension n k = [asc "user", asc "u1"] :=
  ⟨[(asc "city", .str (asc "x")), (asc "user", .str (asc "u1")), (asc "dim", .str (asc "city"))],
   [(asc "user", .str (asc "u1")), (asc "city", .str (asc "x")), (asc "dim", .str (asc "city"))],
   [(asc "user", .str (asc "u1")), (asc "city", .str (asc "y")), (asc "dim", .str (asc "city"))],
   ⟨some 2, [0, 1]⟩, 2, [asc "user", asc "u1"], by decide +kernel⟩

/-- C29 fails for dimensions whose values are not strings: `Handle` panics (holding the
lock of the shard, see `panic_blocks_shard`). -/
theorem dimension_not_string_panics (ds : List Bytes) (sample event : List (Bytes × Val)) (pre : List Val)
    (hs : SameNames event sample) (k : Bytes) (hk : k ∈ ds) (hv : (k, Val.other) ∈ event) :
    ∃ indices, dimensionIndices ds pre.length (properties sample) = some indices ∧
      readDimension (pre ++ properties event) indices = none := by
  induction sample generalizing event pre with
  | nil =>
    have : event = [] := by simpa [SameNames] using hs
    subst this
    simp at hv
  | cons p sample ih =>
    obtain ⟨k1, v⟩ := p
    cases event with
    | nil => simp at hv
    | cons q event =>
      obtain ⟨k', v'⟩ := q
      simp only [SameNames, List.map_cons, List.cons.injEq] at hs
      obtain ⟨hkk, hs⟩ := hs
      subst hkk
      have hl : properties ((k', v) :: sample) = .str k' :: v :: properties sample := rfl
      have he : properties ((k', v') :: event) = .str k' :: v' :: properties event := rfl
      -- the rest of the indices exist
      have hex : ∀ (l : List (Bytes × Val)) (i : Nat), ∃ r, dimensionIndices ds i (properties l) = some r := by
        intro l
        induction l with
        | nil => intro i; exact ⟨[], rfl⟩
        | cons p l ih =>
          intro i
          obtain ⟨r, hr⟩ := ih (i + 2)
          exact ⟨_, by rw [show properties (p :: l) = .str p.1 :: p.2 :: properties l from rfl, dimensionIndices, hr]; rfl⟩
      by_cases hhead : (k, Val.other) = (k', v')
      · injection hhead with h1 h2
        subst h1 h2
        obtain ⟨r, hr⟩ := hex sample (pre.length + 2)
        refine ⟨_, by rw [hl, dimensionIndices, hr]; rfl, ?_⟩
        rw [readDimension_append]
        have : ∀ es : List Bytes, k ∈ es → readDimension (pre ++ properties ((k, Val.other) :: event))
            (es.flatMap fun d => if k = d then [pre.length, pre.length + 1] else []) = none := by
          intro es hm
          induction es with
          | nil => simp at hm
          | cons d es ih2 =>
            simp only [List.flatMap_cons]
            by_cases hd : k = d
            · simp only [if_pos hd]
              rw [readDimension_append, he]
              simp [readDimension, Val.string?]
            · simp only [if_neg hd, List.nil_append]
              exact ih2 (by simpa [hd] using hm)
        rw [this ds hk]
        rfl
      · have hv' : (k, Val.other) ∈ event := by
          rcases List.mem_cons.mp hv with h | h
          · exact absurd h hhead
          · exact h
        obtain ⟨r, hr, hread⟩ := ih event (pre ++ [.str k', v']) hs hv'
        rw [List.length_append] at hr
        refine ⟨_, by rw [hl, dimensionIndices, show pre.length + 2 = pre.length + [Val.str k', v'].length from rfl, hr]; rfl, ?_⟩
        rw [he, readDimension_append]
        have hread' : readDimension (pre ++ .str k' :: v' :: properties event) r = none := by
          rw [← hread]; simp
        rw [hread']
        cases readDimension (pre ++ Val.str k' :: v' :: properties event)
          (ds.flatMap fun d => if k' = d then [pre.length, pre.length + 1] else []) <;> rfl

example : ∃ indices, dimensionIndices [asc "n"] 0 (properties sampleSite) = some indices ∧
    readDimension (properties sampleSite) indices = none :=
  dimension_not_string_panics [asc "n"] sampleSite sampleSite [] rfl (asc "n") (by decide) (by decide)

/-- A name at the end without a value, which is a mistake of the caller: it is no dimension unless it is in the dim list. -/
theorem odd_ignored (ds : List Bytes) (sample : List (Bytes × Val)) (i : Nat) (k : Bytes) (hk : k ∉ ds) :
    dimensionIndices ds i (properties sample ++ [.str k]) = dimensionIndices ds i (properties sample) := by
  induction sample generalizing i with
  | nil =>
    show some (ds.flatMap fun d => if k = d then [i, i + 1] else []) = some []
    rw [List.flatMap_eq_nil_iff.mpr]
    intro d hd
    rw [if_neg]
    rintro rfl
    exact hk hd
  | cons p sample ih =>
    show dimensionIndices ds i (.str p.1 :: p.2 :: (properties sample ++ [.str k])) = dimensionIndices ds i (.str p.1 :: p.2 :: properties sample)
    rw [dimensionIndices, dimensionIndices, ih]

/-- C29 fails for a name in the dim list that has no value: `Handle` panics on every event of the site. -/
theorem odd_panics (ds : List Bytes) (sample event : List (Bytes × Val)) (k : Bytes) (pre : List Val) (hk : k ∈ ds) (hs : SameNames event sample) :
    ∃ indices, dimensionIndices ds pre.length (properties sample ++ [.str k]) = some indices ∧
      readDimension (pre ++ (properties event ++ [.str k])) indices = none := by
  induction sample generalizing event pre with
  | nil =>
    have : event = [] := by simpa [SameNames] using hs
    subst this
    refine ⟨_, rfl, ?_⟩
    show readDimension (pre ++ [.str k]) _ = none
    have : ∀ es : List Bytes, k ∈ es → readDimension (pre ++ [.str k]) (es.flatMap fun d => if k = d then [pre.length, pre.length + 1] else []) = none := by
      intro es hm
      induction es with
      | nil => simp at hm
      | cons d es ih2 =>
        simp only [List.flatMap_cons]
        by_cases hd : k = d
        · simp only [if_pos hd]
          rw [readDimension_append]
          simp [readDimension, Val.string?]
        · simp only [if_neg hd, List.nil_append]
          exact ih2 (by simpa [hd] using hm)
    exact this ds hk
  | cons p sample ih =>
    cases event with
    | nil => simp [SameNames] at hs
    | cons q event =>
      simp only [SameNames, List.map_cons, List.cons.injEq] at hs
      obtain ⟨r, hr, hread⟩ := ih event (pre ++ [.str q.1, q.2]) hs.2
      rw [List.length_append] at hr
      have hl : properties (p :: sample) ++ [.str k] = .str p.1 :: p.2 :: (properties sample ++ [.str k]) := rfl
      refine ⟨_, by rw [hl, dimensionIndices, show pre.length + 2 = pre.length + [Val.str q.1, q.2].length from rfl, hr]; rfl, ?_⟩
      rw [readDimension_append]
      have hread' : readDimension (pre ++ (properties (q :: event) ++ [.str k])) r = none := by
        rw [← hread, List.append_assoc]; rfl
      rw [hread']
      cases readDimension (pre ++ (properties (q :: event) ++ [.str k])) (ds.flatMap fun d => if p.1 = d then [pre.length, pre.length + 1] else []) <;> rfl

example : dimensionIndices [asc "n"] 0 (properties sampleSite ++ [.str (asc "n")]) ≠ none ∧ asc "zz" ∉ [asc "n"] := by decide +kernel

/-! ### C30 -/

/-- `exportEverySecond`, window.go:41-51: whether the timer has still to fire, whether the
goroutine has returned, and the number of exports.  A timer made by `time.NewTimer` sends
one value and is never reset. -/
structure Exporter where
  timerPending : Bool
  stopped : Bool
  exports : Nat
  deriving DecidableEq

/-- What happens to the goroutine: another second passes, or the context is cancelled. -/
inductive Tick where
  | second
  | done
  deriving DecidableEq

/-- The goroutine at its start, window.go:42. -/
def Exporter.init : Exporter := ⟨true, false, 0⟩

/-- One turn of the loop, window.go:43-50 (with no turn when nothing can be received). -/
def Exporter.step (x : Exporter) : Tick → Exporter
  | .second => if x.timerPending && !x.stopped then { x with timerPending := false, exports := x.exports + 1 }
    else { x with timerPending := false }
  | .done => { x with stopped := true }

/-- A run. -/
def Exporter.run (x : Exporter) : List Tick → Exporter
  | [] => x
  | t :: ts => (x.step t).run ts

theorem Exporter.no_more (ts : List Tick) : ∀ x : Exporter, x.timerPending = false → (x.run ts).exports = x.exports := by
  induction ts with
  | nil => intro x _; rfl
  | cons t ts ih =>
    intro x hx
    rw [Exporter.run, ih]
    · cases t <;> simp [Exporter.step, hx]
    · cases t <;> simp [Exporter.step, hx]

/-- C30, partial: the window is exported when the first second has passed, unless it was
stopped before.  Missing: any further export. -/
theorem first_export_partial (ts : List Tick) : (Exporter.init.run (.second :: ts)).exports = 1 := by
  rw [Exporter.run, Exporter.no_more _ _ rfl]
  rfl

/-- C30 fails: whatever happens, there is never a second export. -/
theorem never_exported_again (ts : List Tick) : (Exporter.init.run ts).exports ≤ 1 := by
  cases ts with
  | nil => exact Nat.zero_le _
  | cons t ts =>
    cases t with
    | second => rw [first_export_partial]; exact Nat.le_refl 1
    | done =>
      have h : ∀ (ts : List Tick) (x : Exporter), x.stopped = true → (x.run ts).exports = x.exports := by
        intro ts
        induction ts with
        | nil => intro x _; rfl
        | cons t ts ih =>
          intro x hx
          rw [Exporter.run, ih]
          · cases t <;> simp [Exporter.step, hx]
          · cases t <;> simp [Exporter.step, hx]
      rw [Exporter.run, h ts _ rfl]
      exact Nat.zero_le _

example : (Exporter.init.run [.second, .second, .second, .second]).exports = 1 := rfl

end Verif.Stats
