import Verif.Parse.Buffers

/-!
# Lemmas on the buffers of `parse.Source`

Every method on the memory does what it does on values, writes only to memory the source
owns or takes fresh, and keeps the invariant that the slices of a source do not overlap.
-/

namespace Verif.Parse.Buffers

/-! ### Memory -/

theorem content_length (m : Mem) : ∀ (n p : Nat), (content m p n).length = n
  | 0, _ => rfl
  | n + 1, p => by simp [content, content_length m n (p + 1)]

theorem content_add (m : Mem) (b : Nat) : ∀ (a p : Nat),
    content m p (a + b) = content m p a ++ content m (p + a) b
  | 0, p => by simp [content]
  | a + 1, p => by
    have h : a + 1 + b = (a + b) + 1 := by omega
    rw [h]
    simp only [content, List.cons_append]
    rw [content_add m b a (p + 1)]
    have h2 : p + 1 + a = p + (a + 1) := by omega
    rw [h2]

theorem content_congr {m m' : Mem} : ∀ (n p : Nat), (∀ a, p ≤ a → a < p + n → m a = m' a) →
    content m p n = content m' p n
  | 0, _, _ => rfl
  | n + 1, p, h => by
    simp only [content]
    rw [h p (by omega) (by omega), content_congr n (p + 1) (fun a h1 h2 => h a (by omega) (by omega))]

theorem content_take (m : Mem) (p : Nat) {n k : Nat} (h : n ≤ k) :
    (content m p k).take n = content m p n := by
  obtain ⟨d, rfl⟩ := Nat.exists_eq_add_of_le h
  rw [content_add]
  exact List.take_left' (content_length m n p)

theorem content_drop (m : Mem) (p : Nat) {n k : Nat} (h : n ≤ k) :
    (content m p k).drop n = content m (p + n) (k - n) := by
  obtain ⟨d, rfl⟩ := Nat.exists_eq_add_of_le h
  rw [content_add, List.drop_left' (content_length m n p)]
  congr 1; omega

theorem content_getD (m : Mem) : ∀ (n p i : Nat), i < n → (content m p n).getD i 0 = m (p + i)
  | 0, _, _, h => absurd h (Nat.not_lt_zero _)
  | n + 1, p, 0, _ => rfl
  | n + 1, p, i + 1, h => by
    simp only [content, List.getD_cons_succ]
    rw [content_getD m n (p + 1) i (by omega)]
    congr 1; omega

theorem write_out {m : Mem} {p : Nat} {bs : Bytes} {a : Nat} (h : ¬ (p ≤ a ∧ a < p + bs.length)) :
    write m p bs a = m a := if_neg h

theorem write_in {m : Mem} {p : Nat} {bs : Bytes} {a : Nat} (h : p ≤ a ∧ a < p + bs.length) :
    write m p bs a = bs.getD (a - p) 0 := if_pos h

theorem content_of_getD (m : Mem) : ∀ (bs : Bytes) (p : Nat),
    (∀ i, i < bs.length → m (p + i) = bs.getD i 0) → content m p bs.length = bs
  | [], _, _ => rfl
  | b :: bs, p, h => by
    simp only [List.length_cons, content]
    have h0 := h 0 (by simp)
    simp only [Nat.add_zero, List.getD_cons_zero] at h0
    rw [h0, content_of_getD m bs (p + 1)]
    intro i hi
    have := h (i + 1) (by simpa using hi)
    rw [List.getD_cons_succ] at this
    rw [← this]; congr 1; omega

theorem content_write (m : Mem) (p : Nat) (bs : Bytes) : content (write m p bs) p bs.length = bs := by
  apply content_of_getD
  intro i hi
  rw [write_in (by omega)]
  congr 1; omega

/-- The first bytes of what was written. -/
theorem content_write_take (m : Mem) (p : Nat) (bs : Bytes) {n : Nat} (h : n ≤ bs.length) :
    content (write m p bs) p n = bs.take n := by
  rw [← content_take _ _ h, content_write]

theorem getD_left : ∀ (l r : Bytes) (i : Nat), i < l.length → (l ++ r).getD i 0 = l.getD i 0
  | [], _, _, h => absurd h (Nat.not_lt_zero _)
  | _ :: _, _, 0, _ => rfl
  | _ :: l, r, i + 1, h => by
    simp only [List.cons_append, List.getD_cons_succ]
    exact getD_left l r i (by simpa using h)

theorem getD_right : ∀ (l r : Bytes) (i : Nat), l.length ≤ i → (l ++ r).getD i 0 = r.getD (i - l.length) 0
  | [], _, _, _ => rfl
  | _ :: _, _, 0, h => absurd h (by simp)
  | _ :: l, r, i + 1, h => by
    simp only [List.cons_append, List.getD_cons_succ, List.length_cons, Nat.add_sub_add_right]
    exact getD_right l r i (by simpa using h)

/-! ### Slices -/

/-- The addresses a slice may reach: up to its capacity (slices of parse/parse.go:51-58). -/
def Slice.has (s : Slice) (a : Nat) : Prop := s.ptr ≤ a ∧ a < s.ptr + s.cap

/-- Two slices that share no memory, not even in their spare capacity (slices of
parse/parse.go:51-58). -/
def Apart (s t : Slice) : Prop := ∀ a, s.has a → ¬ t.has a

theorem Apart.symm {s t : Slice} (h : Apart s t) : Apart t s := fun a h1 h2 => h a h2 h1

theorem text_length (s : Slice) (m : Mem) : (s.text m).length = s.len := content_length m s.len s.ptr

theorem text_congr {s : Slice} {m m' : Mem} (h : ∀ a, s.ptr ≤ a → a < s.ptr + s.len → m a = m' a) :
    s.text m = s.text m' := content_congr s.len s.ptr h

theorem text_len (s : Slice) (m : Mem) {n : Nat} (h : n ≤ s.len) :
    ({ s with len := n } : Slice).text m = (s.text m).take n := (content_take m s.ptr h).symm

theorem text_from (s : Slice) (m : Mem) {n : Nat} (h : n ≤ s.len) :
    (s.from n).text m = (s.text m).drop n := (content_drop m s.ptr h).symm

/-- What `append` does (parse/parse.go:99 and 108). -/
structure Appended (w : World) (s : Slice) (bs : Bytes) (w' : World) (s' : Slice) : Prop where
  le : w.next ≤ w'.next
  text : s'.text w'.mem = s.text w.mem ++ bs
  len : s'.len = s.len + bs.length
  fits : s'.len ≤ s'.cap
  place : (s'.ptr = s.ptr ∧ s'.cap = s.cap) ∨ (w.next ≤ s'.ptr ∧ s'.ptr + s'.cap ≤ w'.next)
  kept : ∀ a, a < w.next → w'.mem a = w.mem a ∨
    (s.ptr + s.len ≤ a ∧ a < s.ptr + s.cap ∧ a - s.ptr < s.len + bs.length ∧
      w'.mem a = (s.text w.mem ++ bs).getD (a - s.ptr) 0)

theorem append_spec (room : Slice → Nat → Nat) (w : World) (s : Slice) (bs : Bytes) :
    Appended w s bs (w.append room s bs).1 (w.append room s bs).2 := by
  unfold World.append
  by_cases h : s.len + bs.length ≤ s.cap
  · rw [if_pos h]
    refine ⟨Nat.le_refl _, ?_, rfl, h, .inl ⟨rfl, rfl⟩, ?_⟩
    · show content _ s.ptr (s.len + bs.length) = _
      rw [content_add, content_write]
      congr 1
      apply content_congr
      intro a h1 h2
      exact write_out (by omega)
    · intro a _
      by_cases hin : s.ptr + s.len ≤ a ∧ a < s.ptr + s.len + bs.length
      · right
        refine ⟨hin.1, by omega, by omega, ?_⟩
        show write w.mem (s.ptr + s.len) bs a = _
        rw [write_in hin, getD_right _ _ _ (by rw [text_length]; omega), text_length]
        congr 1; omega
      · left
        exact write_out hin
  · rw [if_neg h]
    refine ⟨Nat.le_add_right _ _, ?_, rfl, Nat.le_max_left _ _, .inr ⟨Nat.le_refl _, Nat.le_refl _⟩, ?_⟩
    · have hl : s.len + bs.length = (s.text w.mem ++ bs).length := by
        rw [List.length_append, text_length]
      show content _ w.next (s.len + bs.length) = _
      rw [hl, content_write]
    · intro a ha
      left
      exact write_out (by omega)

/-- What making a buffer and reading into it does. -/
theorem fetch_spec (w : World) (len : Nat) (g : Got) (h : g.bytes.length ≤ len) :
    (w.fetch len g).2.text (w.fetch len g).1.mem = g.bytes ∧
    (w.fetch len g).2.ptr = w.next ∧ (w.fetch len g).2.cap = len ∧ (w.fetch len g).2.len = g.bytes.length ∧
    (w.fetch len g).1.next = w.next + len ∧
    ∀ a, a < w.next → (w.fetch len g).1.mem a = w.mem a := by
  have hm : min g.bytes.length len = g.bytes.length := Nat.min_eq_left h
  refine ⟨?_, rfl, rfl, hm, rfl, ?_⟩
  · show content _ w.next (min g.bytes.length len) = _
    rw [hm]
    show content (write w.mem w.next ((g.bytes ++ g.scratch).take len)) w.next _ = _
    rw [content_write_take _ _ _ (by rw [List.length_take, List.length_append]; omega),
      List.take_take, hm, List.take_left]
  · intro a ha
    exact write_out (by show ¬ (w.next ≤ a ∧ _); omega)

/-! ### The value of a source -/

/-- A result of `Read` without the scratch space (parse/parse.go:106). -/
def Got.plain (g : Got) : ReadResult := (g.bytes, g.err)

/-- The source as a value: what its slices hold (parse/parse.go:51-58). -/
def BSource.value (b : BSource) (m : Mem) : Source :=
  { err := b.err, reader := b.reader.map (·.map Got.plain), current := b.current.text m,
    nextList := b.nextList.map (·.text m) }

/-- The slices of a source lie in memory it owns and do not overlap (an invariant of
parse/parse.go:51-152). -/
structure Inv (own : Nat → Prop) (w : World) (b : BSource) : Prop where
  below : ∀ a, own a → a < w.next
  buf : ∀ a, b.buf.has a → own a
  cur : ∀ a, b.current.has a → own a
  nexts : ∀ x ∈ b.nextList, ∀ a, x.has a → own a
  curFits : b.current.len ≤ b.current.cap
  bufFits : b.buf.len ≤ b.buf.cap
  nextFits : ∀ x ∈ b.nextList, x.len ≤ x.cap
  apart : ∀ x ∈ b.nextList, Apart b.current x
  apart2 : b.nextList.Pairwise Apart
  curBelow : b.current.ptr + b.current.cap ≤ w.next
  bufBelow : b.buf.ptr + b.buf.cap ≤ w.next
  nextBelow : ∀ x ∈ b.nextList, x.ptr + x.cap ≤ w.next
  reads : ∀ rs, b.reader = some rs → ∀ r ∈ rs, r.bytes.length ≤ b.buf.len

theorem Inv.congr {own own' : Nat → Prop} {w : World} {b : BSource} (h : Inv own w b)
    (e : ∀ a, own a ↔ own' a) : Inv own' w b :=
  ⟨fun a ha => h.below a ((e a).2 ha), fun a ha => (e a).1 (h.buf a ha), fun a ha => (e a).1 (h.cur a ha),
    fun x hx a ha => (e a).1 (h.nexts x hx a ha), h.curFits, h.bufFits, h.nextFits, h.apart, h.apart2,
    h.curBelow, h.bufBelow, h.nextBelow, h.reads⟩

/-- What a source owns after taking the memory between `l` and `r` (with `make` or `append`,
parse/parse.go:99-108). -/
def grown (own : Nat → Prop) (l r : Nat) : Nat → Prop := fun a => own a ∨ (l ≤ a ∧ a < r)

/-- The effect of a method: the source afterwards has the value `v`, the invariant holds, and
memory the source does not own is as it was (for parse/parse.go:82-167). -/
structure Step (own : Nat → Prop) (w w' : World) (b' : BSource) (v : Source) : Prop where
  value : b'.value w'.mem = v
  le : w.next ≤ w'.next
  inv : Inv (grown own w.next w'.next) w' b'
  frame : ∀ a, a < w.next → ¬ own a → w'.mem a = w.mem a

theorem grown_self (own : Nat → Prop) (n a : Nat) : own a ↔ grown own n n a := by
  unfold grown
  constructor
  · exact .inl
  · rintro (h | h)
    · exact h
    · omega

theorem Step.stay {own : Nat → Prop} {w : World} {b : BSource} (h : Inv own w b) :
    Step own w w b (b.value w.mem) :=
  ⟨rfl, Nat.le_refl _, h.congr (grown_self own w.next), fun _ _ _ => rfl⟩

theorem Step.trans {own : Nat → Prop} {w w' w'' : World} {b' b'' : BSource} {v v' : Source}
    (h : Step own w w' b' v) (h' : Step (grown own w.next w'.next) w' w'' b'' v') :
    Step own w w'' b'' v' := by
  refine ⟨h'.value, Nat.le_trans h.le h'.le, h'.inv.congr ?_, ?_⟩
  · intro a
    have h1 := h.le
    have h2 := h'.le
    unfold grown
    constructor
    · rintro ((h | h) | h)
      · exact .inl h
      · exact .inr (by omega)
      · exact .inr (by omega)
    · rintro (h | h)
      · exact .inl (.inl h)
      · by_cases hc : a < w'.next
        · exact .inl (.inr (by omega))
        · exact .inr (by omega)
  · intro a ha hn
    rw [h'.frame a (Nat.lt_of_lt_of_le ha h.le) ?_, h.frame a ha hn]
    rintro (h | h)
    · exact hn h
    · omega

/-! ### `PeekN` -/

/-- The state of `PeekN` between two rounds: the slice gathered so far holds `str`, lies
where `current` lies or in fresh memory, overlaps none of the slices `ns`, and nothing that
was there before is changed except behind `current`, where the bytes gathered are
(parse/parse.go:97-116). -/
structure Pk (w0 w : World) (cur p : Slice) (ns : List Slice) (str : Bytes) : Prop where
  le : w0.next ≤ w.next
  text : p.text w.mem = str
  fits : p.len ≤ p.cap
  place : (p.ptr = cur.ptr ∧ p.cap = cur.cap) ∨ (w0.next ≤ p.ptr ∧ p.ptr + p.cap ≤ w.next)
  longer : cur.len ≤ p.len
  sep : ∀ x ∈ ns, Apart p x
  kept : ∀ a, a < w0.next → w.mem a = w0.mem a ∨
    (cur.ptr + cur.len ≤ a ∧ a < cur.ptr + cur.cap ∧ a - cur.ptr < str.length ∧
      w.mem a = str.getD (a - cur.ptr) 0)

theorem Pk.len {w0 w : World} {cur p : Slice} {ns : List Slice} {str : Bytes} (h : Pk w0 w cur p ns str) :
    p.len = str.length := by rw [← h.text, text_length]

/-- Another round: `append` keeps the state of `PeekN` and the bytes of the other slices. -/
theorem Pk.append {w0 w : World} {cur p : Slice} {ns : List Slice} {str : Bytes}
    (h : Pk w0 w cur p ns str) (hns : ∀ x ∈ ns, x.ptr + x.cap ≤ w.next) (room : Slice → Nat → Nat)
    (bs : Bytes) :
    Pk w0 (w.append room p bs).1 cur (w.append room p bs).2 ns (str ++ bs) ∧
    w.next ≤ (w.append room p bs).1.next ∧
    ∀ x : Slice, x.len ≤ x.cap → x.ptr + x.cap ≤ w.next → Apart p x →
      x.text (w.append room p bs).1.mem = x.text w.mem := by
  have A := append_spec room w p bs
  generalize w.append room p bs = r at *
  refine ⟨⟨Nat.le_trans h.le A.le, by rw [A.text, h.text], A.fits, ?_, ?_, ?_, ?_⟩, A.le, ?_⟩
  · have hle := A.le
    have hle0 := h.le
    rcases A.place with ⟨e1, e2⟩ | ⟨e1, e2⟩
    · rcases h.place with ⟨f1, f2⟩ | ⟨f1, f2⟩
      · exact .inl ⟨e1.trans f1, e2.trans f2⟩
      · exact .inr (by rw [e1, e2]; omega)
    · exact .inr (by omega)
  · have := A.len
    have := h.longer
    omega
  · intro x hx a ha hb
    rcases A.place with ⟨e1, e2⟩ | ⟨e1, e2⟩
    · refine h.sep x hx a ?_ hb
      unfold Slice.has at *
      rw [e1, e2] at ha
      exact ha
    · have := hns x hx
      unfold Slice.has at *
      omega
  · intro a ha
    have hl := h.len
    have hle := h.le
    rcases A.kept a (by omega) with e | ⟨k1, k2, k3, k4⟩
    · rcases h.kept a ha with e' | ⟨k1, k2, k3, k4⟩
      · exact .inl (e.trans e')
      · refine .inr ⟨k1, k2, by rw [List.length_append]; omega, ?_⟩
        rw [e, k4, getD_left _ _ _ k3]
    · rcases h.place with ⟨f1, f2⟩ | ⟨f1, f2⟩
      · refine .inr ⟨?_, by omega, ?_, ?_⟩
        · have := h.longer
          omega
        · rw [List.length_append]; omega
        · rw [k4, h.text, f1]
      · omega
  · intro x hx1 hx2 hx
    apply text_congr
    intro a h1 h2
    rcases A.kept a (by omega) with e | ⟨k1, k2, k3, k4⟩
    · exact e
    · exact absurd ⟨h1, by omega⟩ (hx a ⟨by omega, k2⟩)

/-- Where a slice returned by `PeekN` lies (parse/parse.go:90-117). -/
def Lies (w0 w : World) (cur sl : Slice) : Prop :=
  (sl.ptr = cur.ptr ∧ sl.len ≤ cur.cap) ∨ (w0.next ≤ sl.ptr ∧ sl.ptr + sl.len ≤ w.next)

/-- What `PeekN` may have done to memory that was there before (parse/parse.go:90-117). -/
def Kept (w0 w : World) (cur : Slice) (str : Bytes) : Prop :=
  ∀ a, a < w0.next → w.mem a = w0.mem a ∨
    (cur.ptr + cur.len ≤ a ∧ a < cur.ptr + cur.cap ∧ a - cur.ptr < str.length ∧
      w.mem a = str.getD (a - cur.ptr) 0)

theorem Pk.lies {w0 w : World} {cur p : Slice} {ns : List Slice} {str : Bytes} (h : Pk w0 w cur p ns str)
    {n : Nat} (hn : n ≤ p.len) : Lies w0 w cur { p with len := n } := by
  have := h.fits
  rcases h.place with ⟨e1, e2⟩ | ⟨e1, e2⟩
  · exact .inl ⟨e1, by show n ≤ _; omega⟩
  · exact .inr ⟨e1, by show p.ptr + n ≤ _; omega⟩

/-- The loop over the slices read before. -/
theorem peekNext_spec (room : Slice → Nat → Nat) (n : Nat) {w0 : World} {cur : Slice}
    (hcur : cur.ptr + cur.cap ≤ w0.next) (all : List Slice) (hall : ∀ x ∈ all, x.len ≤ x.cap ∧ x.ptr + x.cap ≤ w0.next) :
    ∀ (ns : List Slice) (w : World) (p : Slice) (str : Bytes), (∀ x ∈ ns, x ∈ all) → Pk w0 w cur p all str →
    (∀ x ∈ all, x.text w.mem = x.text w0.mem) →
    w.next ≤ (peekNext room n ns w p).1.next ∧
    (∀ x ∈ all, x.text (peekNext room n ns w p).1.mem = x.text w0.mem) ∧
    match (peekNext room n ns w p).2 with
    | .inl sl => Parse.peekNext n (ns.map (·.text w0.mem)) str = .inl (sl.text (peekNext room n ns w p).1.mem) ∧
        Lies w0 (peekNext room n ns w p).1 cur sl ∧
        ∃ k, Kept w0 (peekNext room n ns w p).1 cur (str ++ ((ns.map (·.text w0.mem)).take k).flatten)
    | .inr q => Parse.peekNext n (ns.map (·.text w0.mem)) str = .inr (str ++ (ns.map (·.text w0.mem)).flatten) ∧
        Pk w0 (peekNext room n ns w p).1 cur q all (str ++ (ns.map (·.text w0.mem)).flatten)
  | [], w, p, str, _, hp, hk => by
    refine ⟨Nat.le_refl _, hk, ?_, ?_⟩
    · simp [Parse.peekNext]
    · simpa [peekNext] using hp
  | x :: ns, w, p, str, hs, hp, hk => by
    have hx := hs x (by simp)
    have ht : x.text w.mem = x.text w0.mem := hk x hx
    have B := hp.append (fun y hy => Nat.le_trans (hall y hy).2 hp.le) room (x.text w.mem)
    obtain ⟨hp', hle, hothers⟩ := B
    have hk' : ∀ y ∈ all, y.text (w.append room p (x.text w.mem)).1.mem = y.text w0.mem := fun y hy =>
      (hothers y (hall y hy).1 (Nat.le_trans (hall y hy).2 hp.le) (hp.sep y hy)).trans (hk y hy)
    have hlen := hp'.len
    simp only [peekNext]
    generalize hr : w.append room p (x.text w.mem) = r at *
    rw [ht] at hp' hlen
    by_cases hc : r.2.len ≥ n
    · rw [if_pos hc]
      refine ⟨hle, hk', ?_, hp'.lies hc, 1, ?_⟩
      · simp only [List.map_cons, Parse.peekNext]
        rw [if_pos (by rw [← hlen]; exact hc), text_len _ _ hc, hp'.text]
      · simpa [Kept] using hp'.kept
    · rw [if_neg hc]
      have I := peekNext_spec room n hcur all hall ns r.1 r.2 (str ++ x.text w0.mem)
        (fun y hy => hs y (by simp [hy])) hp' hk'
      obtain ⟨i1, i2, i3⟩ := I
      refine ⟨Nat.le_trans hle i1, i2, ?_⟩
      have hv : Parse.peekNext n (List.map (·.text w0.mem) (x :: ns)) str =
          Parse.peekNext n (ns.map (·.text w0.mem)) (str ++ x.text w0.mem) := by
        simp only [List.map_cons, Parse.peekNext]
        rw [if_neg (by rw [← hlen]; exact hc)]
      rw [hv]
      cases hres : (peekNext room n ns r.1 r.2).2 with
      | inl sl =>
        rw [hres] at i3
        obtain ⟨j1, j2, k, j3⟩ := i3
        refine ⟨j1, j2, k + 1, ?_⟩
        simpa using j3
      | inr q =>
        rw [hres] at i3
        simpa using i3

/-- The slices `PeekN` has read: in fresh memory, apart from each other
(parse/parse.go:105-109). -/
structure Fresh (l r : Nat) (xs : List Slice) : Prop where
  inside : ∀ x ∈ xs, l ≤ x.ptr ∧ x.ptr + x.cap ≤ r
  fits : ∀ x ∈ xs, x.len ≤ x.cap
  apart : xs.Pairwise Apart

/-- The reading loop. -/
theorem peekRead_spec (room : Slice → Nat → Nat) (n len : Nat) {w0 : World} {cur : Slice}
    (hcur : cur.ptr + cur.cap ≤ w0.next) :
    ∀ (rs : List Got) (w : World) (p : Slice) (str : Bytes) (ns : List Slice), Pk w0 w cur p ns str →
    (∀ x ∈ ns, x.len ≤ x.cap ∧ x.ptr + x.cap ≤ w.next) → (∀ r ∈ rs, r.bytes.length ≤ len) →
    let R := peekRead room n len rs w p
    w.next ≤ R.1.next ∧
    (∀ x ∈ ns, x.text R.1.mem = x.text w.mem) ∧
    Parse.peekRead n (rs.map Got.plain) str =
      (R.2.1.text R.1.mem, R.2.2.1, R.2.2.2.1.map Got.plain, R.2.2.2.2.map (·.text R.1.mem)) ∧
    (∀ r ∈ R.2.2.2.1, r.bytes.length ≤ len) ∧
    Fresh w.next R.1.next R.2.2.2.2 ∧
    Lies w0 R.1 cur R.2.1 ∧
    Kept w0 R.1 cur (str ++ (R.2.2.2.2.map (·.text R.1.mem)).flatten) := by
  intro rs
  -- one round
  have round : ∀ (g : Got) (w : World) (p : Slice) (str : Bytes) (ns : List Slice), Pk w0 w cur p ns str →
      (∀ x ∈ ns, x.len ≤ x.cap ∧ x.ptr + x.cap ≤ w.next) → g.bytes.length ≤ len →
      let f := w.fetch len g
      let a := f.1.append room p (f.2.text f.1.mem)
      w.next ≤ a.1.next ∧ Pk w0 a.1 cur a.2 (f.2 :: ns) (str ++ g.bytes) ∧
      (∀ x ∈ ns, x.text a.1.mem = x.text w.mem) ∧ f.2.text a.1.mem = g.bytes ∧
      (∀ x ∈ f.2 :: ns, x.len ≤ x.cap ∧ x.ptr + x.cap ≤ a.1.next) ∧ w.next ≤ f.2.ptr := by
    intro g w p str ns hp hns hg
    obtain ⟨f1, f2, f3, f4, f5, f6⟩ := fetch_spec w len g hg
    generalize w.fetch len g = f at *
    have hplen : ∀ a, p.has a → a < w.next := by
      intro a ha
      have := hp.le
      unfold Slice.has at ha
      rcases hp.place with ⟨e1, e2⟩ | ⟨e1, e2⟩
      · rw [e1, e2] at ha; omega
      · omega
    have hp1 : Pk w0 f.1 cur p (f.2 :: ns) str := by
      refine ⟨by have := hp.le; omega, ?_, hp.fits, ?_, hp.longer, ?_, ?_⟩
      · rw [← hp.text]
        apply text_congr
        intro a h1 h2
        exact f6 a (hplen a ⟨h1, by have := hp.fits; omega⟩)
      · rcases hp.place with e | ⟨e1, e2⟩
        · exact .inl e
        · exact .inr (by omega)
      · intro x hx
        rcases List.mem_cons.1 hx with rfl | hx
        · intro a h1 h2
          have := hplen a h1
          unfold Slice.has at h2
          omega
        · exact hp.sep x hx
      · intro a ha
        rw [f6 a (by have := hp.le; omega)]
        exact hp.kept a ha
    have hns1 : ∀ x ∈ f.2 :: ns, x.len ≤ x.cap ∧ x.ptr + x.cap ≤ f.1.next := by
      intro x hx
      rcases List.mem_cons.1 hx with rfl | hx
      · omega
      · have := hns x hx
        omega
    obtain ⟨hp2, hle, hoth⟩ := hp1.append (fun x hx => (hns1 x hx).2) room (f.2.text f.1.mem)
    have h6 : ∀ x ∈ f.2 :: ns, x.len ≤ x.cap ∧
        x.ptr + x.cap ≤ (f.1.append room p (f.2.text f.1.mem)).1.next :=
      fun x hx => ⟨(hns1 x hx).1, Nat.le_trans (hns1 x hx).2 hle⟩
    have h3 : ∀ x ∈ f.2 :: ns, x.text (f.1.append room p (f.2.text f.1.mem)).1.mem = x.text f.1.mem :=
      fun x hx => hoth x (hns1 x hx).1 (hns1 x hx).2 (hp1.sep x hx)
    refine ⟨by omega, by rw [← f1]; exact hp2, ?_, (h3 f.2 (by simp)).trans f1, h6, by omega⟩
    intro x hx
    rw [h3 x (by simp [hx])]
    apply text_congr
    intro a h1 h2
    have := hns x hx
    exact f6 a (by omega)
  induction rs with
  | nil =>
    intro w p str ns hp hns _
    obtain ⟨r1, r2, r3, r4, r5, r6⟩ := round ⟨[], [], some .eof⟩ w p str ns hp hns (Nat.zero_le _)
    have hlen := r2.len
    simp only [peekRead, List.map_nil, Parse.peekRead]
    generalize hf : w.fetch len ⟨[], [], some .eof⟩ = f at *
    generalize ha : f.1.append room p (f.2.text f.1.mem) = a at *
    simp only [List.append_nil] at r2 hlen
    have hfresh : Fresh w.next a.1.next [f.2] := by
      refine ⟨?_, ?_, by simp⟩
      · intro x hx
        simp only [List.mem_singleton] at hx
        subst hx
        exact ⟨r6, (r5 _ (by simp)).2⟩
      · intro x hx
        simp only [List.mem_singleton] at hx
        subst hx
        exact (r5 _ (by simp)).1
    by_cases hc : a.2.len ≥ n
    · rw [if_pos hc, if_pos (by rw [← hlen]; exact hc)]
      refine ⟨r1, r3, ?_, by simp, hfresh, r2.lies hc, ?_⟩
      · simp [text_len _ _ hc, r2.text, r4]
      · simpa [Kept, r4] using r2.kept
    · rw [if_neg hc, if_neg (by rw [← hlen]; exact hc)]
      refine ⟨r1, r3, ?_, by simp, hfresh, r2.lies (Nat.le_refl _), ?_⟩
      · simp [r2.text, r4]
      · simpa [Kept, r4] using r2.kept
  | cons g rs ih =>
    intro w p str ns hp hns hfit
    obtain ⟨r1, r2, r3, r4, r5, r6⟩ := round g w p str ns hp hns (hfit g (by simp))
    have hlen := r2.len
    obtain ⟨gb, gs, ge⟩ := g
    simp only [peekRead, List.map_cons, Parse.peekRead, Got.plain]
    generalize hf : w.fetch len ⟨gb, gs, ge⟩ = f at *
    generalize ha : f.1.append room p (f.2.text f.1.mem) = a at *
    simp only at r2 r4 hlen
    have hfresh : Fresh w.next a.1.next [f.2] := by
      refine ⟨?_, ?_, by simp⟩
      · intro x hx
        simp only [List.mem_singleton] at hx
        subst hx
        exact ⟨r6, (r5 _ (by simp)).2⟩
      · intro x hx
        simp only [List.mem_singleton] at hx
        subst hx
        exact (r5 _ (by simp)).1
    have hfit' : ∀ r ∈ rs, r.bytes.length ≤ len := fun r hr => hfit r (by simp [hr])
    by_cases hc : a.2.len ≥ n
    · rw [if_pos hc, if_pos (by rw [← hlen]; exact hc)]
      refine ⟨r1, r3, ?_, hfit', hfresh, r2.lies hc, ?_⟩
      · simp [text_len _ _ hc, r2.text, r4]
      · simpa [Kept, r4] using r2.kept
    · rw [if_neg hc, if_neg (by rw [← hlen]; exact hc)]
      cases ge with
      | some e =>
        refine ⟨r1, r3, ?_, hfit', hfresh, r2.lies (Nat.le_refl _), ?_⟩
        · simp [r2.text, r4]
        · simpa [Kept, r4] using r2.kept
      | none =>
        obtain ⟨i1, i2, i3, i4, i5, i6, i7⟩ := ih a.1 a.2 (str ++ gb) (f.2 :: ns) r2 r5 hfit'
        have hf2 := (i2 f.2 (by simp)).trans r4
        generalize peekRead room n len rs a.1 a.2 = R at *
        refine ⟨Nat.le_trans r1 i1, fun x hx => (i2 x (by simp [hx])).trans (r3 x hx), ?_, i4, ?_, i6, ?_⟩
        · simp only [List.map_cons, hf2]
          simp only [i3]
        · refine ⟨?_, ?_, ?_⟩
          · intro x hx
            rcases List.mem_cons.1 hx with rfl | hx
            · exact ⟨r6, Nat.le_trans (r5 _ (by simp)).2 i1⟩
            · exact ⟨Nat.le_trans r1 (i5.inside x hx).1, (i5.inside x hx).2⟩
          · intro x hx
            rcases List.mem_cons.1 hx with rfl | hx
            · exact (r5 _ (by simp)).1
            · exact i5.fits x hx
          · refine List.pairwise_cons.2 ⟨?_, i5.apart⟩
            intro x hx a' h1 h2
            have := (r5 f.2 (by simp)).2
            have := (i5.inside x hx).1
            unfold Slice.has at *
            omega
        · simpa [hf2] using i7

/-! ### The methods -/

theorem Pk.start {own : Nat → Prop} {w : World} {b : BSource} (h : Inv own w b) :
    Pk w w b.current b.current b.nextList (b.current.text w.mem) :=
  ⟨Nat.le_refl _, rfl, h.curFits, .inl ⟨rfl, rfl⟩, Nat.le_refl _, h.apart, fun _ _ => .inl rfl⟩

/-- Everything about `PeekN`: what it returns and does as a value, where the slice lies, and
what it does to the memory. -/
theorem peekN_spec (room : Slice → Nat → Nat) {own : Nat → Prop} {w : World} {b : BSource}
    (h : Inv own w b) (n : Nat) :
    let R := peekN room w b n
    ((b.value w.mem).peekN n).1 = (R.2.1.text R.1.mem, R.2.2.1) ∧
    Step own w R.1 R.2.2.2 ((b.value w.mem).peekN n).2 ∧
    R.2.2.2.current = b.current ∧
    Lies w R.1 b.current R.2.1 ∧
    ∃ str, str <+: (R.2.2.2.value R.1.mem).current ++ (R.2.2.2.value R.1.mem).nextList.flatten ∧
      Kept w R.1 b.current str := by
  have hsame : Step own w w b (b.value w.mem) := Step.stay h
  have hcl : (b.value w.mem).current.length = b.current.len := text_length _ _
  unfold peekN Source.peekN
  rw [hcl]
  by_cases hn : n ≤ b.current.len
  · rw [if_pos hn, if_pos hn]
    refine ⟨?_, hsame, rfl, .inl ⟨rfl, ?_⟩, [], List.nil_prefix, fun _ _ => .inl rfl⟩
    · show (_, _) = (_, _)
      rw [text_len _ _ hn]; rfl
    · show n ≤ _
      have := h.curFits
      omega
  rw [if_neg hn, if_neg hn]
  cases hr : b.reader with
  | none =>
    have hv : (b.value w.mem).reader = none := by simp [BSource.value, hr]
    rw [hv]
    exact ⟨rfl, hsame, rfl, .inl ⟨rfl, h.curFits⟩, [], List.nil_prefix, fun _ _ => .inl rfl⟩
  | some rs =>
    have hv : (b.value w.mem).reader = some (rs.map Got.plain) := by simp [BSource.value, hr]
    rw [hv]
    have hall : ∀ x ∈ b.nextList, x.len ≤ x.cap ∧ x.ptr + x.cap ≤ w.next :=
      fun x hx => ⟨h.nextFits x hx, h.nextBelow x hx⟩
    obtain ⟨n1, n2, n3⟩ := peekNext_spec room n h.curBelow b.nextList hall b.nextList w b.current
      (b.current.text w.mem) (fun _ hx => hx) (Pk.start h) (fun _ _ => rfl)
    have hframe : ∀ {w' : World} {str : Bytes}, Kept w w' b.current str → ∀ a, a < w.next → ¬ own a →
        w'.mem a = w.mem a := by
      intro w' str hk a ha hno
      rcases hk a ha with e | ⟨k1, k2, _, _⟩
      · exact e
      · exact absurd (h.cur a ⟨by omega, k2⟩) hno
    have hcurtext : ∀ {w' : World} {str : Bytes}, Kept w w' b.current str →
        b.current.text w'.mem = b.current.text w.mem := by
      intro w' str hk
      apply text_congr
      intro a h1 h2
      have := h.curBelow
      have := h.curFits
      rcases hk a (by omega) with e | ⟨k1, k2, _, _⟩
      · exact e
      · omega
    cases hres : peekNext room n b.nextList w b.current with
    | mk w1 res =>
    rw [hres] at n1 n2 n3
    cases res with
    | inl sl =>
      obtain ⟨m1, m2, k, m3⟩ := n3
      have hpv : Parse.peekNext n (b.value w.mem).nextList (b.value w.mem).current = .inl (sl.text w1.mem) := m1
      rw [hpv]
      have hval : b.value w1.mem = b.value w.mem := by
        unfold BSource.value
        rw [hcurtext m3]
        congr 1
        exact List.map_congr_left n2
      refine ⟨rfl, ⟨hval, n1, ?_, hframe m3⟩, rfl, m2, _, ?_, m3⟩
      · show Inv (grown own w.next w1.next) w1 b
        have n1' : w.next ≤ w1.next := n1
        exact ⟨fun a ha => by
            rcases ha with ha | ha
            · have := h.below a ha; omega
            · exact ha.2,
          fun a ha => .inl (h.buf a ha), fun a ha => .inl (h.cur a ha),
          fun x hx a ha => .inl (h.nexts x hx a ha), h.curFits, h.bufFits, h.nextFits, h.apart, h.apart2,
          by have := h.curBelow; omega, by have := h.bufBelow; omega,
          fun x hx => by have := h.nextBelow x hx; omega, h.reads⟩
      · show _ <+: (b.value w1.mem).current ++ (b.value w1.mem).nextList.flatten
        rw [hval]
        refine (List.prefix_append_right_inj _).2 ?_
        refine ⟨((b.nextList.map (·.text w.mem)).drop k).flatten, ?_⟩
        rw [← List.flatten_append, List.take_append_drop]
        rfl
    | inr q =>
      obtain ⟨m1, m2⟩ := n3
      have hpv : Parse.peekNext n (b.value w.mem).nextList (b.value w.mem).current =
          .inr ((b.value w.mem).current ++ (b.value w.mem).nextList.flatten) := m1
      rw [hpv]
      have hns : ∀ x ∈ b.nextList, x.len ≤ x.cap ∧ x.ptr + x.cap ≤ w1.next :=
        fun x hx => ⟨h.nextFits x hx, Nat.le_trans (h.nextBelow x hx) n1⟩
      obtain ⟨p1, p2, p3, p4, p5, p6, p7⟩ := peekRead_spec room n b.buf.len h.curBelow rs w1 q _ b.nextList m2
        hns (h.reads rs hr)
      dsimp only at p1 p2 p3 p4 p5 p6 p7 ⊢
      generalize hR : peekRead room n b.buf.len rs w1 q = R at *
      have hstr : Parse.peekRead n (rs.map Got.plain) ((b.value w.mem).current ++ (b.value w.mem).nextList.flatten) =
        (R.2.1.text R.1.mem, R.2.2.1, R.2.2.2.1.map Got.plain, R.2.2.2.2.map (·.text R.1.mem)) := p3
      rw [hstr]
      have hnt : ∀ x ∈ b.nextList, x.text R.1.mem = x.text w.mem := fun x hx => (p2 x hx).trans (n2 x hx)
      have hval : ({ b with reader := some R.2.2.2.1, nextList := b.nextList ++ R.2.2.2.2 } : BSource).value R.1.mem =
          { (b.value w.mem) with
              reader := some (R.2.2.2.1.map Got.plain),
              nextList := (b.value w.mem).nextList ++ R.2.2.2.2.map (·.text R.1.mem) } := by
        unfold BSource.value
        simp only [hcurtext p7, List.map_append, List.map_congr_left hnt, Option.map_some]
      have n1' : w.next ≤ w1.next := n1
      have hle : w.next ≤ R.1.next := Nat.le_trans n1' p1
      refine ⟨rfl, ⟨hval, hle, ?_, hframe p7⟩, rfl, p6, _, ?_, p7⟩
      · refine ⟨fun a ha => by
            rcases ha with ha | ha
            · have := h.below a ha; omega
            · exact ha.2,
          fun a ha => .inl (h.buf a ha), fun a ha => .inl (h.cur a ha), ?_, h.curFits, h.bufFits, ?_, ?_, ?_,
          Nat.le_trans h.curBelow hle, Nat.le_trans h.bufBelow hle, ?_, ?_⟩
        · intro x hx a ha
          rcases List.mem_append.1 hx with hx | hx
          · exact .inl (h.nexts x hx a ha)
          · have := p5.inside x hx
            unfold Slice.has at ha
            exact .inr (by omega)
        · intro x hx
          rcases List.mem_append.1 hx with hx | hx
          · exact h.nextFits x hx
          · exact p5.fits x hx
        · intro x hx
          rcases List.mem_append.1 hx with hx | hx
          · exact h.apart x hx
          · intro a ha hb
            have := p5.inside x hx
            have := h.below a (h.cur a ha)
            unfold Slice.has at hb
            omega
        · refine List.pairwise_append.2 ⟨h.apart2, p5.apart, ?_⟩
          intro x hx y hy a ha hb
          have := p5.inside y hy
          have := h.below a (h.nexts x hx a ha)
          unfold Slice.has at hb
          omega
        · intro x hx
          rcases List.mem_append.1 hx with hx | hx
          · have := h.nextBelow x hx
            show _ ≤ R.1.next
            omega
          · exact (p5.inside x hx).2
        · intro rs' hrs' r hr'
          cases hrs'
          exact p4 r hr'
      · rw [hval]
        simp [BSource.value, List.flatten_append]

/-- A source that only differs in the error it has recorded. -/
theorem Inv.report {own : Nat → Prop} {w : World} {b : BSource} (h : Inv own w b) (e : Err) :
    Inv own w (b.report e) := by
  unfold BSource.report
  cases b.err with
  | none =>
    exact ⟨h.below, h.buf, h.cur, h.nexts, h.curFits, h.bufFits, h.nextFits, h.apart, h.apart2,
      h.curBelow, h.bufBelow, h.nextBelow, h.reads⟩
  | some _ => exact h

theorem value_report (b : BSource) (m : Mem) (e : Err) : (b.report e).value m = (b.value m).report e := by
  unfold BSource.report Source.report
  cases h : b.err with
  | none => simp [BSource.value, h]
  | some _ => simp [BSource.value, h]

theorem takeGot_plain (rs : List Got) :
    readOnce (rs.map Got.plain) = ((takeGot rs).1.plain, (takeGot rs).2.map Got.plain) := by
  cases rs <;> rfl

theorem takeGot_fits {rs : List Got} {n : Nat} (h : ∀ r ∈ rs, r.bytes.length ≤ n) :
    (takeGot rs).1.bytes.length ≤ n ∧ ∀ r ∈ (takeGot rs).2, r.bytes.length ≤ n := by
  cases rs with
  | nil => exact ⟨Nat.zero_le _, by simp [takeGot]⟩
  | cons g gs => exact ⟨h g (by simp), fun r hr => h r (by simp [takeGot] at hr; simp [hr])⟩

/-- What reading into a buffer does. -/
theorem read_spec (w : World) (buf : Slice) (g : Got) (h : g.bytes.length ≤ buf.len) :
    (w.read buf g).2 = g.bytes.length ∧
    ({ buf with len := (w.read buf g).2 } : Slice).text (w.read buf g).1.mem = g.bytes ∧
    (w.read buf g).1.next = w.next ∧
    ∀ a, ¬ (buf.ptr ≤ a ∧ a < buf.ptr + buf.len) → (w.read buf g).1.mem a = w.mem a := by
  have hm : min g.bytes.length buf.len = g.bytes.length := Nat.min_eq_left h
  refine ⟨hm, ?_, rfl, ?_⟩
  · show content (write w.mem buf.ptr ((g.bytes ++ g.scratch).take buf.len)) buf.ptr
      (min g.bytes.length buf.len) = _
    rw [hm, content_write_take _ _ _ (by rw [List.length_take, List.length_append]; omega),
      List.take_take, hm, List.take_left]
  · intro a ha
    apply write_out
    have : ((g.bytes ++ g.scratch).take buf.len).length ≤ buf.len := List.length_take_le _ _
    omega

theorem consume_spec {own : Nat → Prop} {w : World} {b : BSource} (h : Inv own w b) :
    Step own w (consume w b).1 (consume w b).2 (b.value w.mem).consume := by
  obtain ⟨berr, reader, current, nextList, buf⟩ := b
  cases reader with
  | none =>
    have h' : Inv own w ⟨berr, none, ⟨0, 0, 0⟩, nextList, buf⟩ :=
      ⟨h.below, h.buf, fun a ha => by unfold Slice.has at ha; simp at ha, h.nexts, Nat.le_refl _,
        h.bufFits, h.nextFits, fun x _ a ha => by unfold Slice.has at ha; simp at ha, h.apart2,
        Nat.zero_le _, h.bufBelow, h.nextBelow, h.reads⟩
    have S := Step.stay (h'.report .eof)
    rw [value_report] at S
    exact S
  | some rs =>
    cases nextList with
    | cons next rest =>
      have hmem : ∀ x ∈ rest, x ∈ next :: rest := fun x hx => by simp [hx]
      have hap' := List.pairwise_cons.1 h.apart2
      have h' : Inv own w ⟨berr, some rs, next, rest, buf⟩ :=
        ⟨h.below, h.buf, h.nexts next (by simp), fun x hx => h.nexts x (hmem x hx),
          h.nextFits next (by simp), h.bufFits, fun x hx => h.nextFits x (hmem x hx), hap'.1, hap'.2,
          h.nextBelow next (by simp), h.bufBelow, fun x hx => h.nextBelow x (hmem x hx), h.reads⟩
      exact Step.stay h'
    | nil =>
      obtain ⟨t1, t2⟩ := takeGot_fits (h.reads rs rfl)
      obtain ⟨r1, r2, r3, r4⟩ := read_spec w buf (takeGot rs).1 t1
      simp only [consume, Source.consume, BSource.value, Option.map_some, List.map_nil, takeGot_plain]
      generalize takeGot rs = g at *
      generalize w.read buf g.1 = r at *
      have hframe : ∀ a, a < w.next → ¬ own a → r.1.mem a = w.mem a := by
        intro a _ hno
        apply r4
        intro hin
        exact hno (h.buf a ⟨hin.1, Nat.lt_of_lt_of_le hin.2 (Nat.add_le_add_left h.bufFits _)⟩)
      have hle : w.next ≤ r.1.next := by omega
      have hinv : ∀ e : Option Err,
          Inv (grown own w.next r.1.next) r.1 ⟨e, some g.2, { buf with len := r.2 }, [], buf⟩ := by
        intro e
        refine ⟨?_, fun a ha => .inl (h.buf a ha), fun a ha => .inl (h.buf a ha), by simp, ?_, h.bufFits,
          by simp, by simp, List.Pairwise.nil, Nat.le_trans h.bufBelow hle, Nat.le_trans h.bufBelow hle,
          by simp, ?_⟩
        · rintro a (ha | ha)
          · exact Nat.lt_of_lt_of_le (h.below a ha) hle
          · exact ha.2
        · show r.2 ≤ buf.cap
          rw [r1]
          exact Nat.le_trans t1 h.bufFits
        · intro rs' e r hr'
          cases e
          exact t2 r hr'
      have hval : ∀ e : Option Err,
          (⟨e, some g.2, { buf with len := r.2 }, [], buf⟩ : BSource).value r.1.mem =
          ⟨e, some (g.2.map Got.plain), g.1.bytes, []⟩ := by
        intro e
        simp only [BSource.value, Option.map_some, List.map_nil]
        rw [r2]
      cases hge : g.1.err with
      | none =>
        simp only [Got.plain, hge]
        exact ⟨hval berr, hle, hinv berr, hframe⟩
      | some e =>
        simp only [Got.plain, hge]
        cases berr with
        | none => exact ⟨hval (some e), hle, hinv (some e), hframe⟩
        | some e' => exact ⟨hval (some e'), hle, hinv (some e'), hframe⟩

theorem from_step {own : Nat → Prop} {w : World} {b : BSource} (h : Inv own w b) {n : Nat}
    (hn : n ≤ b.current.len) :
    Step own w w { b with current := b.current.from n }
      { (b.value w.mem) with current := (b.value w.mem).current.drop n } := by
  have hc := h.curFits
  have hb := h.curBelow
  have hhas : ∀ a, (b.current.from n).has a → b.current.has a := by
    intro a ha
    unfold Slice.has Slice.from at *
    simp only at ha
    omega
  have h' : Inv own w { b with current := b.current.from n } :=
    ⟨h.below, h.buf, fun a ha => h.cur a (hhas a ha), h.nexts,
      by show b.current.len - n ≤ b.current.cap - n; omega, h.bufFits, h.nextFits,
      fun x hx a ha => h.apart x hx a (hhas a ha), h.apart2,
      by show b.current.ptr + n + (b.current.cap - n) ≤ _; omega, h.bufBelow, h.nextBelow, h.reads⟩
  have S := Step.stay h'
  have e : ({ b with current := b.current.from n } : BSource).value w.mem =
      { (b.value w.mem) with current := (b.value w.mem).current.drop n } := by
    simp only [BSource.value]
    rw [text_from _ _ hn]
  rwa [e] at S

theorem consumeLoop_spec : ∀ (fuel : Nat) {own : Nat → Prop} {w : World} {b : BSource} (n : Nat), Inv own w b →
    match consumeLoop fuel w b n with
    | none => Parse.consumeLoop fuel (b.value w.mem) n = none
    | some x => ∃ v, Parse.consumeLoop fuel (b.value w.mem) n = some v ∧ Step own w x.1 x.2 v
  | 0, _, _, _, _, _ => rfl
  | fuel + 1, own, w, b, n, h => by
    have hcl : (b.value w.mem).current.length = b.current.len := text_length _ _
    unfold consumeLoop Parse.consumeLoop
    rw [hcl]
    by_cases hc : n ≠ 0 ∧ n ≥ b.current.len
    · rw [if_pos hc, if_pos hc]
      have S := consume_spec h
      have I := consumeLoop_spec fuel (n - b.current.len) S.inv
      rw [S.value] at I
      cases hl : consumeLoop fuel (consume w b).1 (consume w b).2 (n - b.current.len) with
      | none =>
        rw [hl] at I
        exact I
      | some x =>
        rw [hl] at I
        obtain ⟨v, i1, i2⟩ := I
        exact ⟨v, i1, S.trans i2⟩
    · rw [if_neg hc, if_neg hc]
      exact ⟨_, rfl, from_step h (by omega)⟩

theorem consumeN_spec {own : Nat → Prop} {w : World} {b : BSource} (n : Nat) (h : Inv own w b) :
    match consumeN w b n with
    | none => (b.value w.mem).consumeN n = .error .hang
    | some x => ∃ v, (b.value w.mem).consumeN n = .ok v ∧ Step own w x.1 x.2 v := by
  have hch : (b.value w.mem).chunks = b.nextList.length + (b.reader.getD []).length := by
    unfold Source.chunks BSource.value
    cases b.reader <;> simp
  unfold consumeN Source.consumeN
  rw [hch]
  have L := consumeLoop_spec (b.nextList.length + (b.reader.getD []).length + 2) n h
  cases hl : consumeLoop (b.nextList.length + (b.reader.getD []).length + 2) w b n with
  | none =>
    rw [hl] at L
    simp only at L ⊢
    rw [L]
  | some x =>
    rw [hl] at L
    obtain ⟨v, l1, l2⟩ := L
    exact ⟨v, by rw [l1], l2⟩

end Verif.Parse.Buffers
