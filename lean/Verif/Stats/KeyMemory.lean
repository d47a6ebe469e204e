import Verif.Basic

/-!
# C144: keys of counters outlive the events

Model of `extractDimension` and `copyDimension` in countlog/stats/window.go with the memory that strings are in.  The strings of an event are in
memory of the caller (countlog/countlog.go hides them from escape analysis, so that they may be on its stack), which is used for other things as soon as the event was handled.
-/

namespace Verif.Stats.KeyMemory

/-! ### Model -/

/-- A string: where its bytes are, and how many. Elements of `dimension`, countlog/stats/window.go:203-206. -/
structure Str where
  addr : Nat
  len : Nat

/-- An array of string headers: where it is, and how many there are: `dimension` and `copied`, countlog/stats/window.go:197, 219, as the words of the interfaces made of them
point to it (207, 224). -/
structure Arr where
  addr : Nat
  n : Nat

/-- Memory, the first address not in use, the pieces that the counters have allocated, and the counters by key: `MapMonoid` with counters in it,
countlog/stats/window.go:201-226 and countlog/stats/state.go:25-57. -/
structure St where
  mem : Nat → Nat
  next : Nat
  owned : List Str
  table : List (Arr × Nat)

/-- The bytes of a string, countlog/stats/window.go:221. -/
def bytes (mem : Nat → Nat) (s : Str) : List Nat := (List.range s.len).map fun i => mem (s.addr + i)

/-- The headers from an address on, countlog/stats/window.go:220. Each is two words: where, and how many. -/
def headers (mem : Nat → Nat) : Nat → Nat → List Str
  | _, 0 => []
  | a, n + 1 => ⟨mem a, mem (a + 1)⟩ :: headers mem (a + 2) n

/-- What keys are compared by (countlog/stats/window.go:210): the strings of the array, by their bytes. -/
def content (mem : Nat → Nat) (k : Arr) : List (List Nat) := (headers mem k.addr k.n).map (bytes mem)

/-- `string(append([]byte(nil), elem...))`, countlog/stats/window.go:221: a copy in new memory. -/
def copyStr (s : St) (e : Str) : Str × St :=
  (⟨s.next, e.len⟩,
    { s with
      mem := fun a => if s.next ≤ a ∧ a < s.next + e.len then s.mem (e.addr + (a - s.next)) else s.mem a
      next := s.next + e.len
      owned := ⟨s.next, e.len⟩ :: s.owned })

/-- `copied[i] = copyOfElem`, countlog/stats/window.go:222. -/
def setHeader (s : St) (a : Nat) (e : Str) : St := { s with mem := fun x => if x = a then e.addr else if x = a + 1 then e.len else s.mem x }

/-- The loop, countlog/stats/window.go:220-223. -/
def fill (s : St) (a : Nat) : List Str → St
  | [] => s
  | e :: rest => fill (setHeader (copyStr s e).2 a (copyStr s e).1) (a + 2) rest

/-- `copyDimension`, countlog/stats/window.go:218-226. -/
def copyDimension (s : St) (d : Arr) : Arr × St :=
  (⟨s.next, d.n⟩, fill { s with next := s.next + 2 * d.n, owned := ⟨s.next, 2 * d.n⟩ :: s.owned } s.next (headers s.mem d.addr d.n))

/-- The lookup `monoid[dimensionObj]`, countlog/stats/window.go:210: keys are compared as they are now. With the counter found goes
`Add`, countlog/stats/state.go:37-39. Simplification: a counter does not wrap around at 2^64. -/
def addTo (mem : Nat → Nat) (d : Arr) : List (Arr × Nat) → Option (List (Arr × Nat))
  | [] => none
  | (k, n) :: rest => if content mem k = content mem d then some ((k, n + 1) :: rest) else (addTo mem d rest).map ((k, n) :: ·)

/-- `extractDimension`, countlog/stats/window.go:201-216, and the event added to what it returns.  Simplification: `d` is `dimension` with the strings of the event at the
indices in it (203-205), so that what is no string (C29) is left out. -/
def handle (s : St) (d : Arr) : St :=
  match addTo s.mem d s.table with
  | some t => { s with table := t }
  | none =>
    let c := copyDimension s d
    { c.2 with table := c.2.table ++ [(c.1, 1)] }

/-- What happens: an event with these strings, countlog/stats/window.go:200, or anything else in the program: it allocates and writes wherever the
counters have not allocated. -/
inductive Op where
  | event (d : Arr)
  | others (f : Nat → Nat) (grow : Nat)

/-- One of them, countlog/stats/window.go:200. -/
def step (s : St) : Op → St
  | .event d => handle s d
  | .others f grow =>
    { s with
      mem := fun a => if s.owned.any (fun o => decide (o.addr ≤ a ∧ a < o.addr + o.len)) then s.mem a else f a
      next := s.next + grow }

/-- One after the other, countlog/stats/window.go:200. -/
def run (s : St) : List Op → St
  | [] => s
  | x :: rest => run (step s x) rest

/-- What an export at the end reports: the strings of each key, as they are then, with the counter, countlog/stats/window.go:71-84. -/
def reported (s : St) : List (List (List Nat) × Nat) := s.table.map fun e => (content s.mem e.1, e.2)

/-! ### Specification -/

/-- The texts that an event has in memory at the time: two words for each, where it is and how long. -/
def Texts (mem : Nat → Nat) (d : Arr) (ts : List (List Nat)) : Prop :=
  ts.length = d.n ∧ ∀ i t, ts[i]? = some t → t.length = mem (d.addr + 2 * i + 1) ∧ ∀ j c, t[j]? = some c → c = mem (mem (d.addr + 2 * i) + j)

/-- The texts of each event, at the time of the event. -/
inductive Told : St → List Op → List (List (List Nat)) → Prop
  | nil s : Told s [] []
  | event s d ops ts all : Texts s.mem d ts → Told (step s (.event d)) ops all → Told s (.event d :: ops) (ts :: all)
  | others s f grow ops all : Told (step s (.others f grow)) ops all → Told s (.others f grow :: ops) all

/-- The memory that the strings of an event are in is in use. -/
def Placed : St → List Op → Prop
  | _, [] => True
  | s, x :: rest => (∀ d, x = .event d → ∀ i < d.n, s.mem (d.addr + 2 * i) + s.mem (d.addr + 2 * i + 1) ≤ s.next) ∧ Placed (step s x) rest

/-- Before the first event: any memory. -/
def start (mem : Nat → Nat) (next : Nat) : St := ⟨mem, next, [], []⟩

/-- What a report says of a combination. -/
def total (r : List (List (List Nat) × Nat)) (d : List (List Nat)) : Nat := ((r.filter fun e => e.1 = d).map Prod.snd).sum

/-! ### Proofs -/

theorem bytes_congr {m m' : Nat → Nat} {x : Str} (h : ∀ a, x.addr ≤ a → a < x.addr + x.len → m' a = m a) : bytes m' x = bytes m x := by
  apply List.map_congr_left
  intro i hi
  have := List.mem_range.mp hi
  exact h _ (by omega) (by omega)

theorem headers_congr {m m' : Nat → Nat} : ∀ {a n : Nat}, (∀ x, a ≤ x → x < a + 2 * n → m' x = m x) → headers m' a n = headers m a n
  | _, 0, _ => rfl
  | a, n + 1, h => by
    rw [headers, headers, h a (by omega) (by omega), h (a + 1) (by omega) (by omega), headers_congr (fun x h1 h2 => h x (by omega) (by omega))]

theorem headers_length (m : Nat → Nat) : ∀ (a n : Nat), (headers m a n).length = n
  | _, 0 => rfl
  | a, n + 1 => by rw [headers, List.length_cons, headers_length]

theorem headers_get (m : Nat → Nat) : ∀ (n a i : Nat), i < n → (headers m a n)[i]? = some ⟨m (a + 2 * i), m (a + 2 * i + 1)⟩
  | n + 1, a, 0, _ => rfl
  | n + 1, a, i + 1, h => by
    rw [headers, List.getElem?_cons_succ, headers_get m n (a + 2) i (by omega)]
    have e : a + 2 + 2 * i = a + 2 * (i + 1) := by omega
    rw [e]

/-- The texts are the content that keys are compared by. -/
theorem texts_content {mem : Nat → Nat} {d : Arr} {ts : List (List Nat)} (h : Texts mem d ts) : ts = content mem d := by
  obtain ⟨h1, h2⟩ := h
  apply List.ext_getElem?
  intro i
  by_cases hi : i < d.n
  · obtain ⟨t, ht⟩ : ∃ t, ts[i]? = some t := ⟨ts[i], List.getElem?_eq_getElem (by omega)⟩
    obtain ⟨g1, g2⟩ := h2 i t ht
    rw [ht, content, List.getElem?_map, headers_get mem d.n d.addr i hi, Option.map_some]
    congr 1
    apply List.ext_getElem?
    intro j
    rw [bytes, List.getElem?_map]
    by_cases hj : j < t.length
    · have hj' : t[j]? = some t[j] := List.getElem?_eq_getElem hj
      rw [hj', g2 j _ hj', List.getElem?_range (show j < mem (d.addr + 2 * i + 1) by omega)]
      rfl
    · rw [List.getElem?_eq_none (by omega), List.getElem?_eq_none (by rw [List.length_range]; show mem _ ≤ j; omega)]
      rfl
  · rw [List.getElem?_eq_none (by omega), List.getElem?_eq_none (by rw [content, List.length_map, headers_length]; omega)]

theorem copyStr_bytes (s : St) (e : Str) : bytes (copyStr s e).2.mem (copyStr s e).1 = bytes s.mem e := by
  apply List.map_congr_left
  intro i hi
  have : i < e.len := List.mem_range.mp hi
  show (if s.next ≤ s.next + i ∧ s.next + i < s.next + e.len then s.mem (e.addr + (s.next + i - s.next)) else s.mem (s.next + i)) = s.mem (e.addr + i)
  rw [if_pos ⟨by omega, by omega⟩]
  congr 1
  omega

theorem copyStr_below (s : St) (e : Str) (x : Nat) (h : x < s.next) : (copyStr s e).2.mem x = s.mem x := by
  show (if s.next ≤ x ∧ x < s.next + e.len then s.mem (e.addr + (x - s.next)) else s.mem x) = s.mem x
  rw [if_neg (fun h => by omega)]

theorem setHeader_other (s : St) (a : Nat) (e : Str) (x : Nat) (h : x < a ∨ a + 2 ≤ x) : (setHeader s a e).mem x = s.mem x := by
  show (if x = a then e.addr else if x = a + 1 then e.len else s.mem x) = s.mem x
  rw [if_neg (by omega), if_neg (by omega)]

/-- The loop fills the array with copies, and changes nothing else that was in use. -/
theorem fill_spec : ∀ (es : List Str) (s : St) (a : Nat), a + 2 * es.length ≤ s.next → (∀ o ∈ s.owned, o.addr + o.len ≤ s.next) →
    (∀ e ∈ es, e.addr + e.len ≤ a) →
    (∀ x, x < s.next → (x < a ∨ a + 2 * es.length ≤ x) → (fill s a es).mem x = s.mem x) ∧
    (headers (fill s a es).mem a es.length).map (bytes (fill s a es).mem) = es.map (bytes s.mem) ∧
    (∀ x ∈ headers (fill s a es).mem a es.length, x ∈ (fill s a es).owned) ∧
    (∀ o ∈ s.owned, o ∈ (fill s a es).owned) ∧ (∀ o ∈ (fill s a es).owned, o.addr + o.len ≤ (fill s a es).next) ∧ (fill s a es).table = s.table
  | [], s, a, _, ho, _ => ⟨fun _ _ _ => rfl, rfl, (fun _ h => by cases h), fun _ h => h, ho, rfl⟩
  | e :: rest, s, a, hl, ho, he => by
    have hl' : a + 2 * (rest.length + 1) ≤ s.next := hl
    generalize ht : setHeader (copyStr s e).2 a (copyStr s e).1 = t
    have htn : t.next = s.next + e.len := by rw [← ht]; rfl
    have hto : t.owned = ⟨s.next, e.len⟩ :: s.owned := by rw [← ht]; rfl
    have htt : t.table = s.table := by rw [← ht]; rfl
    have htm : ∀ x, x < s.next → (x < a ∨ a + 2 ≤ x) → t.mem x = s.mem x := by
      intro x h1 h2
      rw [← ht, setHeader_other _ _ _ _ h2, copyStr_below s e x h1]
    have hta : t.mem a = s.next := by
      rw [← ht]
      show (if a = a then s.next else _) = _
      rw [if_pos rfl]
    have hta1 : t.mem (a + 1) = e.len := by
      rw [← ht]
      show (if a + 1 = a then s.next else if a + 1 = a + 1 then e.len else _) = _
      rw [if_neg (by omega), if_pos rfl]
    have htb : bytes t.mem ⟨s.next, e.len⟩ = bytes s.mem e := by
      rw [← copyStr_bytes s e, ← ht]
      apply bytes_congr
      intro x h1 _
      have h1 : s.next ≤ x := h1
      exact setHeader_other _ _ _ _ (.inr (by omega))
    have e1 : fill s a (e :: rest) = fill t (a + 2) rest := by rw [fill, ht]
    obtain ⟨g1, g2, g3, g4, g5, g6⟩ := fill_spec rest t (a + 2) (by omega)
      (fun o h => by
        rw [hto] at h
        rcases List.mem_cons.mp h with rfl | h
        · exact Nat.le_of_eq htn.symm
        · have := ho o h; omega)
      (fun x hx => by have := he x (List.mem_cons_of_mem _ hx); omega)
    rw [e1]
    have hlen : (e :: rest).length = rest.length + 1 := rfl
    have ha : (fill t (a + 2) rest).mem a = s.next := by rw [g1 a (by omega) (.inl (by omega)), hta]
    have ha1 : (fill t (a + 2) rest).mem (a + 1) = e.len := by rw [g1 (a + 1) (by omega) (.inl (by omega)), hta1]
    have hb : bytes (fill t (a + 2) rest).mem ⟨s.next, e.len⟩ = bytes s.mem e := by
      rw [← htb]
      apply bytes_congr
      intro x h1 h2
      have h1 : s.next ≤ x := h1
      have h2 : x < s.next + e.len := h2
      exact g1 x (by omega) (.inr (by omega))
    have hrest : rest.map (bytes t.mem) = rest.map (bytes s.mem) := by
      apply List.map_congr_left
      intro x hx
      have hx := he x (List.mem_cons_of_mem _ hx)
      apply bytes_congr
      intro y _ h2
      exact htm y (by omega) (.inl (by omega))
    refine ⟨fun x h1 h2 => ?_, ?_, ?_, fun o h => g4 o (by rw [hto]; exact List.mem_cons_of_mem _ h), g5, g6.trans htt⟩
    · rw [hlen] at h2
      rw [g1 x (by omega) (by omega)]
      exact htm x h1 (by omega)
    · rw [hlen, headers, List.map_cons, ha, ha1, hb, g2, hrest, List.map_cons]
    · intro x hx
      rw [hlen, headers, ha, ha1] at hx
      rcases List.mem_cons.mp hx with rfl | hx
      · exact g4 _ (by rw [hto]; exact List.mem_cons_self)
      · exact g3 x hx

/-- Allocated pieces are below `next`, and keys are made of them. -/
structure Ok (s : St) : Prop where
  below : ∀ o ∈ s.owned, o.addr + o.len ≤ s.next
  arrays : ∀ e ∈ s.table, ⟨e.1.addr, 2 * e.1.n⟩ ∈ s.owned
  keys : ∀ e ∈ s.table, ∀ x ∈ headers s.mem e.1.addr e.1.n, x ∈ s.owned

/-- Keys are read as before when the allocated pieces are unchanged. -/
theorem keys_kept {s : St} {m : Nat → Nat} (hs : Ok s) (hb : ∀ o ∈ s.owned, ∀ x, o.addr ≤ x → x < o.addr + o.len → m x = s.mem x) :
    ∀ e ∈ s.table, headers m e.1.addr e.1.n = headers s.mem e.1.addr e.1.n ∧ content m e.1 = content s.mem e.1 := by
  intro e he
  have h : headers m e.1.addr e.1.n = headers s.mem e.1.addr e.1.n := headers_congr (hb _ (hs.arrays e he))
  refine ⟨h, ?_⟩
  rw [content, h]
  exact List.map_congr_left fun x hx => bytes_congr (hb x (hs.keys e he x hx))

theorem addTo_none {mem : Nat → Nat} {d : Arr} : ∀ {t : List (Arr × Nat)}, addTo mem d t = none → ∀ e ∈ t, content mem e.1 ≠ content mem d
  | [], _, _, he => by cases he
  | (k, n) :: rest, h, e, he => by
    rw [addTo] at h
    by_cases hk : content mem k = content mem d
    · rw [if_pos hk] at h; cases h
    · rw [if_neg hk] at h
      rcases List.mem_cons.mp he with rfl | he
      · exact hk
      · exact addTo_none (Option.map_eq_none_iff.mp h) e he

theorem addTo_some {mem : Nat → Nat} {d : Arr} : ∀ {t t' : List (Arr × Nat)}, addTo mem d t = some t' →
    t'.map Prod.fst = t.map Prod.fst ∧ ∀ x, total (t'.map fun e => (content mem e.1, e.2)) x =
      total (t.map fun e => (content mem e.1, e.2)) x + if x = content mem d then 1 else 0
  | [], t', h => by cases h
  | (k, n) :: rest, t', h => by
    rw [addTo] at h
    by_cases hk : content mem k = content mem d
    · rw [if_pos hk] at h
      injection h with h
      subst h
      refine ⟨rfl, fun x => ?_⟩
      simp only [total, List.map_cons, List.filter_cons]
      by_cases hx : x = content mem d
      · rw [if_pos hx, hx]
        simp only [hk, decide_true, if_true, List.map_cons, List.sum_cons]
        omega
      · rw [if_neg hx]
        have : ¬ content mem k = x := fun e => hx (e ▸ hk)
        simp only [this, decide_false, Nat.add_zero]
        rfl
    · rw [if_neg hk] at h
      obtain ⟨u, hu, rfl⟩ := Option.map_eq_some_iff.mp h
      obtain ⟨h1, h2⟩ := addTo_some hu
      refine ⟨by simp only [List.map_cons, h1], fun x => ?_⟩
      have := h2 x
      simp only [total, List.map_cons, List.filter_cons] at this ⊢
      by_cases hx : content mem k = x
      · simp only [hx, decide_true, if_true, List.map_cons, List.sum_cons]
        omega
      · simp only [hx, decide_false]
        exact this

theorem mem_fst {α β : Type} {l l' : List (α × β)} (h : l'.map Prod.fst = l.map Prod.fst) {e : α × β} (he : e ∈ l') : ∃ f ∈ l, f.1 = e.1 := by
  have : e.1 ∈ l.map Prod.fst := by rw [← h]; exact List.mem_map.mpr ⟨e, he, rfl⟩
  obtain ⟨f, hf, h⟩ := List.mem_map.mp this
  exact ⟨f, hf, h⟩

/-- Something else happens: nothing changes in the report. -/
theorem others_spec (s : St) (hs : Ok s) (f : Nat → Nat) (grow : Nat) : Ok (step s (.others f grow)) ∧ reported (step s (.others f grow)) = reported s := by
  have hb : ∀ o ∈ s.owned, ∀ x, o.addr ≤ x → x < o.addr + o.len → (step s (.others f grow)).mem x = s.mem x := by
    intro o ho x h1 h2
    show (if s.owned.any (fun o => decide (o.addr ≤ x ∧ x < o.addr + o.len)) = true then s.mem x else f x) = s.mem x
    rw [if_pos (List.any_eq_true.mpr ⟨o, ho, by simp [h1, h2]⟩)]
  have hk := keys_kept hs hb
  refine ⟨⟨fun o ho => ?_, hs.arrays, fun e he x hx => ?_⟩, ?_⟩
  · have := hs.below o ho
    show _ ≤ s.next + grow
    omega
  · rw [(hk e he).1] at hx
    exact hs.keys e he x hx
  · apply List.map_congr_left
    intro e he
    rw [(hk e he).2]

/-- An event: the report grows by it. -/
theorem event_spec (s : St) (hs : Ok s) (d : Arr)
    (hp : ∀ i < d.n, s.mem (d.addr + 2 * i) + s.mem (d.addr + 2 * i + 1) ≤ s.next) (hn : ((reported s).map Prod.fst).Nodup) :
    Ok (handle s d) ∧ ((reported (handle s d)).map Prod.fst).Nodup ∧
      ∀ x, total (reported (handle s d)) x = total (reported s) x + if x = content s.mem d then 1 else 0 := by
  cases ha : addTo s.mem d s.table with
  | some t =>
    obtain ⟨h1, h2⟩ := addTo_some ha
    have e : handle s d = { s with table := t } := by simp only [handle, ha]
    rw [e]
    refine ⟨⟨hs.below, fun e he => ?_, fun e he x hx => ?_⟩, ?_, fun x => h2 x⟩
    · obtain ⟨f, hf, hfe⟩ := mem_fst h1 he
      rw [← hfe]; exact hs.arrays f hf
    · obtain ⟨f, hf, hfe⟩ := mem_fst h1 he
      rw [← hfe] at hx; exact hs.keys f hf x hx
    · have : (reported { s with table := t }).map Prod.fst = (reported s).map Prod.fst := by
        show (t.map _).map Prod.fst = (s.table.map _).map Prod.fst
        rw [List.map_map, List.map_map]
        have := congrArg (List.map fun k : Arr => content s.mem k) h1
        rw [List.map_map, List.map_map] at this
        exact this
      rw [this]; exact hn
  | none =>
    have hlen := headers_length s.mem d.addr d.n
    obtain ⟨g1, g2, g3, g4, g5, g6⟩ := fill_spec (headers s.mem d.addr d.n)
      { s with next := s.next + 2 * d.n, owned := ⟨s.next, 2 * d.n⟩ :: s.owned } s.next (by rw [hlen]; exact Nat.le_refl (s.next + 2 * d.n))
      (fun o ho => by
        rcases List.mem_cons.mp ho with rfl | ho
        · exact Nat.le_refl (s.next + 2 * d.n)
        · have := hs.below o ho
          show _ ≤ s.next + 2 * d.n
          omega)
      (fun e he => by
        obtain ⟨i, hi, hie⟩ := List.mem_iff_getElem.mp he
        have hi' : i < d.n := by omega
        have := headers_get s.mem d.n d.addr i hi'
        rw [List.getElem?_eq_getElem hi, hie] at this
        injection this with this
        rw [this]
        exact hp i hi')
    rw [hlen] at g1 g2 g3
    generalize hF : fill { s with next := s.next + 2 * d.n, owned := ⟨s.next, 2 * d.n⟩ :: s.owned } s.next (headers s.mem d.addr d.n) = c at *
    have e : handle s d = { c with table := c.table ++ [(⟨s.next, d.n⟩, 1)] } := by simp only [handle, ha, copyDimension, hF]
    have hk := keys_kept (m := c.mem) hs (fun o ho x _ h2 => by
      have := hs.below o ho
      exact g1 x (show x < s.next + 2 * d.n by omega) (.inl (by omega)))
    have g6 : c.table = s.table := g6
    have hr : reported { c with table := c.table ++ [(⟨s.next, d.n⟩, 1)] } = reported s ++ [(content s.mem d, 1)] := by
      show List.map _ (_ ++ _) = _
      rw [List.map_append, g6]
      congr 1
      · apply List.map_congr_left
        intro e he
        rw [(hk e he).2]
      · show [(content c.mem ⟨s.next, d.n⟩, 1)] = _
        rw [content]
        simp only
        rw [g2]
        rfl
    rw [e]
    refine ⟨⟨g5, fun e he => ?_, fun e he x hx => ?_⟩, ?_, fun x => ?_⟩
    · rcases List.mem_append.mp he with he | he
      · rw [g6] at he; exact g4 _ (List.mem_cons_of_mem _ (hs.arrays e he))
      · rw [List.mem_singleton.mp he]; exact g4 _ List.mem_cons_self
    · rcases List.mem_append.mp he with he | he
      · rw [g6] at he
        have hx : x ∈ headers c.mem e.1.addr e.1.n := hx
        rw [(hk e he).1] at hx
        exact g4 _ (List.mem_cons_of_mem _ (hs.keys e he x hx))
      · rw [List.mem_singleton.mp he] at hx; exact g3 x hx
    · rw [hr, List.map_append, List.nodup_append]
      refine ⟨hn, by simp, fun a ha' b hb hab => ?_⟩
      obtain ⟨e, he, rfl⟩ := List.mem_map.mp ha'
      obtain ⟨f, hf, rfl⟩ := List.mem_map.mp he
      have hb' : b = content s.mem d := by simpa using hb
      exact addTo_none ha f hf (hab.trans hb')
    · rw [hr]
      simp only [total, List.filter_append, List.map_append, List.sum_append]
      congr 1
      by_cases hx : x = content s.mem d
      · simp [hx]
      · rw [if_neg hx]
        have : ¬ content s.mem d = x := fun h => hx h.symm
        simp only [List.filter_cons, this, decide_false]
        rfl

theorem run_spec : ∀ (ops : List Op) (s : St) (all : List (List (List Nat))), Ok s → Placed s ops → ((reported s).map Prod.fst).Nodup → Told s ops all →
    ((reported (run s ops)).map Prod.fst).Nodup ∧ ∀ d, total (reported (run s ops)) d = total (reported s) d + all.count d
  | [], s, all, _, _, hn, ht => by
    cases ht
    exact ⟨hn, fun d => by simp [run]⟩
  | .others f grow :: rest, s, all, hs, hp, hn, ht => by
    cases ht with
    | others _ _ _ _ _ ht =>
      obtain ⟨h1, h2⟩ := others_spec s hs f grow
      obtain ⟨g1, g2⟩ := run_spec rest _ all h1 hp.2 (by rw [h2]; exact hn) ht
      refine ⟨g1, fun d => ?_⟩
      rw [← h2]
      exact g2 d
  | .event d :: rest, s, all, hs, hp, hn, ht => by
    cases ht with
    | event _ _ _ ts all htx ht =>
      obtain ⟨h1, h2, h3⟩ := event_spec s hs d (hp.1 d rfl) hn
      obtain ⟨g1, g2⟩ := run_spec rest _ all h1 hp.2 h2 ht
      refine ⟨g1, fun x => ?_⟩
      have e1 : total (reported (run s (.event d :: rest))) x = _ := g2 x
      rw [e1, h3 x, texts_content htx, List.count_cons]
      have : (content s.mem d == x) = decide (x = content s.mem d) := by
        by_cases h : x = content s.mem d
        · simp [h]
        · have h' : ¬ content s.mem d = x := fun e => h e.symm
          simp [h, h']
      rw [this]
      simp only [decide_eq_true_eq]
      omega

/-- C144: whatever is written over the memory of events after they were handled, an export reports each combination of dimensions once, with the number of
events that had it when they were handled. -/
theorem keys_outlive (mem : Nat → Nat) (next : Nat) (ops : List Op) (all : List (List (List Nat))) (hp : Placed (start mem next) ops)
    (ht : Told (start mem next) ops all) :
    ((reported (run (start mem next) ops)).map Prod.fst).Nodup ∧ ∀ d, total (reported (run (start mem next) ops)) d = all.count d := by
  obtain ⟨h1, h2⟩ := run_spec ops (start mem next) all ⟨fun _ h => (by cases h), fun _ h => (by cases h), fun _ h => (by cases h)⟩ hp
    (by simp [reported, start]) ht
  refine ⟨h1, fun d => ?_⟩
  have := h2 d
  have h0 : total (reported (start mem next)) d = 0 := rfl
  omega

/-! ### Cases -/

/-- Memory of a frame: two headers, of the strings at 10 and 12, and then bytes. -/
def frame (shift : Nat) : Nat → Nat := fun a => if a = 0 then 10 else if a = 1 then 2 else if a = 2 then 12 else if a = 3 then 1 else a + shift

/-- Three events in one frame: the second is written over the first, and the third is like the first. -/
def overwritten : List Op := [.event ⟨0, 2⟩, .others (frame 100) 5, .event ⟨0, 2⟩, .others (frame 0) 0, .event ⟨0, 2⟩]

example : reported (run (start (frame 0) 20) overwritten) = [([[10, 11], [12]], 2), ([[110, 111], [112]], 1)] := by decide

example : Placed (start (frame 0) 20) overwritten := by
  simp only [Placed, overwritten, and_true]
  refine ⟨fun d h => ?_, fun d h => (by cases h), fun d h => ?_, fun d h => (by cases h), fun d h => ?_⟩ <;>
    (injection h with h; subst h; decide)

/-- The texts of the first event. -/
theorem texts_case : Texts (frame 0) ⟨0, 2⟩ [[10, 11], [12]] := by
  refine ⟨rfl, fun i t h => ?_⟩
  match i with
  | 0 =>
    injection h with h; subst h
    refine ⟨rfl, fun j c h => ?_⟩
    match j with
    | 0 => injection h with h; subst h; rfl
    | 1 => injection h with h; subst h; rfl
    | j + 2 => cases h
  | 1 =>
    injection h with h; subst h
    refine ⟨rfl, fun j c h => ?_⟩
    match j with
    | 0 => injection h with h; subst h; rfl
    | j + 1 => cases h
  | i + 2 => cases h

example : Told (start (frame 0) 20) [.event ⟨0, 2⟩, .others (frame 100) 5] [[[10, 11], [12]]] := .event _ _ _ _ _ texts_case (.others _ _ _ _ _ (.nil _))

end Verif.Stats.KeyMemory
