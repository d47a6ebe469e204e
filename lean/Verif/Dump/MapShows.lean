import Verif.Dump.Map

/-!
# C118, C119: what the dump of a map shows, and when it comes to an end
-/

namespace Verif.Dump

/-! ### Specification -/

/-- Types without references: integers and structs of them. -/
inductive Flat (env : Nat → Ty) : Ty → Prop
  | int : Flat env .int
  | pair {a b : Ty} : Flat env a → Flat env b → Flat env (.pair a b)
  | named {n : Nat} : Flat env (env n) → Flat env (.named n)

/-- The bucket `n` links further from `b`, nil at the end. -/
def follow (mem : Addr → Nat) (k e : Nat) : Nat → Addr → Addr
  | 0, b => b
  | n + 1, b => if b = 0 then 0 else follow mem k e n (mem (linkOf k e b))

/-- An address at which nothing but buckets is: not the old buckets, nor the extra fields, nor a list of overflow buckets. -/
def Apart (mem : Addr → Nat) (h b : Addr) : Prop :=
  b ≠ mem (h + 3) ∧ b ≠ mem (h + 5) ∧ ∀ i : Nat, i < 2 → b ≠ mem (mem (h + 5) + i) ∧ b ≠ mem (mem (mem (h + 5) + i))

/-- A list of overflow buckets, where there is one, is not a nil slice with a length. -/
def ListsFine (mem : Addr → Nat) (h : Addr) : Prop :=
  mem (h + 5) ≠ 0 → ∀ i : Nat, i < 2 → mem (mem (h + 5) + i) ≠ 0 → mem (mem (mem (h + 5) + i)) = 0 →
    mem (mem (mem (h + 5) + i) + 1) = 0

/-! ### Completeness -/

theorem putAt_good {f : St → Addr → Option (St × Out)} (hf : Good f) {p : Addr} {s s' : St} (hc : Closed s)
    (h : putAt f p s = some s') : Closed s' ∧ (∀ b, Has s b → Has s' b) ∧ Has s' p := by
  unfold putAt at h
  by_cases h0 : p ≠ 0
  · rw [if_pos h0] at h
    simp only [Option.map_eq_some_iff] at h
    obtain ⟨⟨s1, x⟩, h1, rfl⟩ := h
    obtain ⟨g1, g2, g3⟩ := hf s p s1 x hc h1
    exact ⟨closed_put s1 p x g1 g3, fun b hb => has_put s1 p b x (g2 b hb), has_put_self s1 p x⟩
  · rw [if_neg h0] at h
    injection h with h
    subst h
    exact ⟨hc, fun _ h => h, .inl (by simpa using h0)⟩

theorem refs_nums (l : List Nat) : refs (nums l) = [] := by
  induction l with
  | nil => rfl
  | cons n l ih => simp [nums, refs, ih]

theorem bucket_good (m : MapEnc) (fuel : Nat) : Good (encodeBucket m fuel) := by
  induction fuel with
  | zero => intro s a s' o _ h; cases h
  | succ n ih =>
    intro s a s' o hc h
    simp only [encodeBucket, Option.bind_eq_bind, Option.bind_eq_some_iff] at h
    obtain ⟨top, htop, ⟨s1, keys⟩, h1, ⟨s2, elems⟩, h2, over, hover, h⟩ := h
    obtain ⟨g1, g2, g3⟩ := elems_good _ (encode_good m.key) _ _ s _ s1 keys hc h1
    obtain ⟨i1, i2, i3⟩ := elems_good _ (encode_good m.elem) _ _ s1 _ s2 elems g1 h2
    by_cases h0 : over ≠ 0
    · rw [if_pos h0] at h
      simp only [Option.bind_eq_some_iff] at h
      obtain ⟨⟨s3, nx⟩, h3, h⟩ := h
      simp only [Option.some.injEq, Prod.mk.injEq] at h
      obtain ⟨rfl, rfl⟩ := h
      obtain ⟨j1, j2, j3⟩ := ih s2 over s3 nx i1 h3
      refine ⟨closed_put s3 over nx j1 j3, fun b hb => has_put _ _ _ _ (j2 b (i2 b (g2 b hb))), ?_⟩
      intro b hb
      simp only [refs, tophash, refs_nums, List.nil_append, List.mem_append, List.mem_singleton] at hb
      rcases hb with hb | hb | hb
      · exact has_put _ _ _ _ (j2 b (i2 b (g3 b hb)))
      · exact has_put _ _ _ _ (j2 b (i3 b hb))
      · subst hb; exact has_put_self _ _ _
    · rw [if_neg h0] at h
      simp only [Option.some.injEq, Prod.mk.injEq] at h
      obtain ⟨rfl, rfl⟩ := h
      refine ⟨i1, fun b hb => i2 b (g2 b hb), ?_⟩
      intro b hb
      simp only [refs, tophash, refs_nums, List.nil_append, List.mem_append, List.mem_singleton] at hb
      rcases hb with hb | hb | hb
      · exact i2 b (g3 b hb)
      · exact i3 b hb
      · exact .inl (by rw [hb]; simpa using h0)

theorem ptrArray_good (m : MapEnc) (fuel n : Nat) : Good (fun s a => encodePtrArray m fuel n a s) := by
  induction n with
  | zero =>
    intro s a s' o hc h
    simp only [encodePtrArray, Option.some.injEq, Prod.mk.injEq] at h
    obtain ⟨rfl, rfl⟩ := h
    exact ⟨hc, fun _ h => h, by simp [refs]⟩
  | succ n ih =>
    intro s a s' o hc h
    simp only [encodePtrArray, Option.bind_eq_bind, Option.bind_eq_some_iff] at h
    obtain ⟨p, hp, s1, h1, ⟨s2, y⟩, h2, h⟩ := h
    simp only [Option.some.injEq, Prod.mk.injEq] at h
    obtain ⟨rfl, rfl⟩ := h
    obtain ⟨g1, g2, g3⟩ := putAt_good (bucket_good m fuel) hc h1
    obtain ⟨i1, i2, i3⟩ := ih s1 (a + 1) s2 y g1 h2
    refine ⟨i1, fun b hb => i2 b (g2 b hb), ?_⟩
    intro b hb
    simp only [refs, List.mem_append, List.mem_singleton] at hb
    rcases hb with hb | hb
    · subst hb; exact i2 _ g3
    · exact i3 b hb

theorem ptrSlice_good (m : MapEnc) (fuel : Nat) : Good (encodePtrSlice m fuel) := by
  intro s a s' o hc h
  simp only [encodePtrSlice, Option.bind_eq_bind, Option.bind_eq_some_iff] at h
  obtain ⟨data, hdata, len, hlen, cap, hcap, ⟨s1, x⟩, h1, h⟩ := h
  simp only [Option.some.injEq, Prod.mk.injEq] at h
  obtain ⟨rfl, rfl⟩ := h
  obtain ⟨g1, g2, g3⟩ := ptrArray_good m fuel _ s _ s1 x hc h1
  split
  · refine ⟨closed_put _ _ _ g1 g3, fun b hb => has_put _ _ _ _ (g2 b hb), ?_⟩
    intro b hb
    simp only [refs, List.mem_singleton] at hb
    subst hb; exact has_put_self _ _ _
  · rename_i h0
    refine ⟨g1, g2, ?_⟩
    intro b hb
    simp only [refs, List.mem_singleton] at hb
    subst hb; exact .inl (by simpa using h0)

theorem extra_good (m : MapEnc) (fuel : Nat) : Good (encodeExtra m fuel) := by
  intro s a s' o hc h
  simp only [encodeExtra, Option.bind_eq_bind, Option.bind_eq_some_iff] at h
  obtain ⟨ov, f1, old, f2, nx, f3, sa, g1, sb, g2, sc, g3, h⟩ := h
  simp only [Option.some.injEq, Prod.mk.injEq] at h
  obtain ⟨rfl, rfl⟩ := h
  obtain ⟨a1, a2, a3⟩ := putAt_good (ptrSlice_good m fuel) hc g1
  obtain ⟨b1, b2, b3⟩ := putAt_good (ptrSlice_good m fuel) a1 g2
  obtain ⟨c1, c2, c3⟩ := putAt_good (bucket_good m fuel) b1 g3
  refine ⟨c1, fun b hb => c2 b (b2 b (a2 b hb)), ?_⟩
  intro b hb
  simp only [refs, List.mem_append, List.mem_singleton] at hb
  rcases hb with rfl | rfl | rfl
  · exact c2 _ (b2 _ a3)
  · exact c2 _ b3
  · exact c3

theorem map_good (m : MapEnc) (fuel : Nat) : Good (encodeMap m fuel) := by
  intro s a s' o hc h
  simp only [encodeMap, Option.bind_eq_bind, Option.bind_eq_some_iff] at h
  obtain ⟨count, e1, w, e2, buckets, e3, oldbuckets, e4, nevacuate, e5, extra, e6, s1, h1, s2, h2, s3, h3, h⟩ := h
  simp only [Option.some.injEq, Prod.mk.injEq] at h
  obtain ⟨rfl, rfl⟩ := h
  obtain ⟨a1, a2, a3⟩ := putAt_good (elems_good _ (bucket_good m fuel) m.bucketSize (2 ^ (w / 256 % 256))) hc h1
  obtain ⟨b1, b2, b3⟩ := putAt_good (elems_good _ (bucket_good m fuel) m.bucketSize (2 ^ (w / 256 % 256) / 2)) a1 h2
  obtain ⟨c1, c2, c3⟩ := putAt_good (extra_good m fuel) b1 h3
  refine ⟨c1, fun b hb => c2 b (b2 b (a2 b hb)), ?_⟩
  intro b hb
  simp only [refs, List.nil_append, List.mem_append, List.mem_singleton] at hb
  rcases hb with rfl | rfl | rfl
  · exact c2 _ (b2 _ a3)
  · exact c2 _ b3
  · exact c3

/-- C118 (partly): in the dump of a map in an interface that comes to an end without a panic, every reference but nil has an entry
in the table, whatever the keys, the elements and the memory. -/
theorem map_complete_partial (m : MapEnc) (fuel : Nat) (data : Addr) (mem : Addr → Nat) (next : Addr) (root : Out)
    (table : List (Addr × Out)) (h : dumpMap m fuel data mem next = some (root, table)) : Complete root table := by
  simp only [dumpMap, Option.map_eq_some_iff] at h
  obtain ⟨⟨s', o⟩, h, h'⟩ := h
  simp only [Prod.mk.injEq] at h'
  obtain ⟨rfl, rfl⟩ := h'
  obtain ⟨g1, g2, g3⟩ := map_good m fuel _ _ s' o (fun b o hb => by cases hb) h
  refine ⟨?_, closed_put s' data o g1 g3⟩
  intro a ha
  simp only [refs, List.mem_singleton] at ha
  subst ha; exact has_put_self s' a o

/-! ### What is shown -/

theorem size_words (env : Nat → Ty) (t : Ty) (h : NoPtr env t) (fuel : Nat) (e : Enc) (he : fieldEncoderOf env fuel t = some e) :
    Words env t (size env fuel t) := words_size env t h fuel e he fuel (Nat.le_refl _)

/-- C118 (partly): for a map with keys and elements without pointers, given its header, whatever is in memory: the header is shown as
memory holds it, and every entry of the table shows, as memory holds it, the array of buckets or the old one, with as many
buckets as the header says, the extra fields, a list of overflow buckets, a bucket that a pointer in the map leads to, or the
words of a string or the elements of a slice.  Missing: the dump is not given the header, see `interface_count_wrong`. -/
theorem map_shows_partial (env : Nat → Ty) (fuel d : Nat) (kt et : Ty) (m : MapEnc) (hkt : NoPtr env kt) (het : NoPtr env et)
    (hm : newMapEncoder env fuel kt et = some m) (mem : Addr → Nat) (next h : Addr) (s' : St) (o : Out)
    (hr : encodeMap m d ⟨mem, next, []⟩ h = some (s', o)) :
    IsHeader mem h o ∧ ∀ b x, (b, x) ∈ s'.table → OfMap env mem kt et h b x ∨ Shown env mem b x := by
  simp only [newMapEncoder, Option.bind_eq_bind, Option.bind_eq_some_iff] at hm
  obtain ⟨key, hkey, elem, helem, hm⟩ := hm
  injection hm with hm
  subst hm
  obtain ⟨_, t1, i1⟩ := map_holds (P := fun b x => OfMap env mem kt et h b x ∨ Shown env mem b x)
    (m := ⟨key, size env fuel kt, elem, size env fuel et⟩)
    (encode_faithful env mem _ (fun b o h => .inr h) kt hkt fuel key hkey)
    (encode_faithful env mem _ (fun b o h => .inr h) et het fuel elem helem)
    (size_words env kt hkt fuel key hkey) (size_words env et het fuel elem helem) d h
    (fun b o h => .inl h) ⟨mem, next, []⟩ s' o rfl (fun b o hb => by cases hb) hr
  exact ⟨i1, t1⟩

theorem flat_noPtr (env : Nat → Ty) {t : Ty} (h : Flat env t) : NoPtr env t := by
  induction h with
  | int => exact .int
  | pair _ _ iha ihb => exact .pair iha ihb
  | named _ ih => exact .named ih

/-- Encoding a flat value changes nothing, and succeeds anywhere but at nil. -/
theorem flat_encode (env : Nat → Ty) {t : Ty} (h : Flat env t) : ∀ fuel e, fieldEncoderOf env fuel t = some e →
    ∀ s a s' o, encode e s a = some (s', o) → s' = s := by
  induction h with
  | int =>
    intro fuel e he
    cases fuel with
    | zero => cases he
    | succ n =>
      cases he
      intro s a s' o h
      simp only [encode, Option.bind_eq_bind, Option.bind_eq_some_iff] at h
      obtain ⟨n, hn, h⟩ := h
      simp only [Option.some.injEq, Prod.mk.injEq] at h
      exact h.1.symm
  | pair _ _ iha ihb =>
    intro fuel e he
    cases fuel with
    | zero => cases he
    | succ n =>
      simp only [fieldEncoderOf, Option.bind_eq_bind, Option.bind_eq_some_iff] at he
      obtain ⟨ex, hex, ey, hey, he⟩ := he
      injection he with he
      subst he
      intro s a s' o h
      simp only [encode, Option.bind_eq_bind, Option.bind_eq_some_iff] at h
      obtain ⟨⟨s1, u⟩, h1, ⟨s2, v⟩, h2, h⟩ := h
      simp only [Option.some.injEq, Prod.mk.injEq] at h
      have e1 := iha n ex hex _ _ _ _ h1
      have e2 := ihb n ey hey _ _ _ _ h2
      rw [← h.1, e2, e1]
  | named _ ih =>
    intro fuel e he
    cases fuel with
    | zero => cases he
    | succ n => exact ih n e he

theorem flat_faithful (env : Nat → Ty) (mem : Addr → Nat) (P : Addr → Out → Prop) {t : Ty} (h : Flat env t) (fuel : Nat) (e : Enc)
    (he : fieldEncoderOf env fuel t = some e) : Faithful env mem P t (encode e) := by
  intro s a s' o hm ht hr
  have e1 := flat_encode env h fuel e he s a s' o hr
  subst e1
  obtain ⟨_, _, i⟩ := encode_faithful env mem (fun _ _ => True) (fun _ _ _ => trivial) t (flat_noPtr env h) fuel e he s' a s' o hm
    (fun _ _ _ => trivial) hr
  exact ⟨hm, ht, i⟩

/-- Encoders that leave memory as it is. -/
def Quiet (e : Enc) : Prop := ∀ s a s' o, encode e s a = some (s', o) → s'.mem = s.mem

theorem quiet_elems {enc : St → Addr → Option (St × Out)} (h : ∀ s a s' o, enc s a = some (s', o) → s'.mem = s.mem) (k : Nat) :
    ∀ (n : Nat) (a : Nat) (s s' : St) (o : Out), encodeElems enc k n a s = some (s', o) → s'.mem = s.mem := by
  intro n
  induction n with
  | zero =>
    intro a s s' o hr
    simp only [encodeElems, Option.some.injEq, Prod.mk.injEq] at hr
    rw [hr.1]
  | succ n ih =>
    intro a s s' o hr
    simp only [encodeElems, Option.bind_eq_bind, Option.bind_eq_some_iff] at hr
    obtain ⟨⟨s1, x⟩, h1, ⟨s2, y⟩, h2, hr⟩ := hr
    simp only [Option.some.injEq, Prod.mk.injEq] at hr
    rw [← hr.1, ih _ _ _ _ h2, h _ _ _ _ h1]

/-- The buckets next to `a`. -/
inductive Chain (mem : Addr → Nat) (k e : Nat) (a : Addr) : Addr → Prop
  | first : Chain mem k e a (mem (linkOf k e a))
  | next {b : Addr} : Chain mem k e a b → b ≠ 0 → Chain mem k e a (mem (linkOf k e b))

theorem chain_cases {mem : Addr → Nat} {k e : Nat} {a b : Addr} (h : Chain mem k e a b) :
    b = mem (linkOf k e a) ∨ (mem (linkOf k e a) ≠ 0 ∧ Chain mem k e (mem (linkOf k e a)) b) := by
  induction h with
  | first => exact .inl rfl
  | next h h0 ih =>
    rcases ih with rfl | ⟨h1, h2⟩
    · exact .inr ⟨h0, .first⟩
    · exact .inr ⟨h1, .next h2 h0⟩

theorem follow_zero (mem : Addr → Nat) (k e n : Nat) : follow mem k e n 0 = 0 := by
  cases n <;> simp [follow]

theorem follow_link {mem : Addr → Nat} {k e n : Nat} {b : Addr} (h0 : b ≠ 0) (h : follow mem k e n b = 0) :
    follow mem k e n (mem (linkOf k e b)) = 0 := by
  induction n generalizing b with
  | zero => exact absurd h h0
  | succ n ih =>
    simp only [follow, h0, if_false] at h
    by_cases h1 : mem (linkOf k e b) = 0
    · rw [h1]; exact follow_zero mem k e _
    · simp only [follow, h1, if_false]
      exact ih h1 h

section
variable {mem : Addr → Nat} {m : MapEnc} (hk : Quiet m.key) (he : Quiet m.elem)
include hk he

/-- A bucket has been encoded. -/
def Ran (mem : Addr → Nat) (m : MapEnc) (b : Addr) : Prop :=
  ∃ fuel s s' o, s.mem = mem ∧ encodeBucket m fuel s b = some (s', o)

/-- What a run over a part of the map leaves behind: memory as it is, and entries for the addresses of `C`, which all come to an end,
each bucket among them having been encoded. -/
def Leaves (mem : Addr → Nat) (m : MapEnc) (fuel : Nat) (C : Addr → Prop) (enc : St → Option (St × Out)) : Prop :=
  ∀ s s' o, s.mem = mem → Closed s → enc s = some (s', o) → s'.mem = mem ∧
    ∀ b, C b → Has s' b ∧ follow mem m.keySize m.elemSize fuel b = 0 ∧ (b ≠ 0 → Ran mem m b)

omit hk he in
theorem putAt_leaves {fuel : Nat} {f : St → Addr → Option (St × Out)} {p : Addr} {C : Addr → Prop} (hp : p ≠ 0 → Leaves mem m fuel C (fun s => f s p))
    {s s' : St} (hm : s.mem = mem) (hc : Closed s) (h : putAt f p s = some s') :
    s'.mem = mem ∧ (p ≠ 0 → ∀ b, C b → Has s' b ∧ follow mem m.keySize m.elemSize fuel b = 0 ∧ (b ≠ 0 → Ran mem m b)) := by
  unfold putAt at h
  by_cases h0 : p ≠ 0
  · rw [if_pos h0] at h
    simp only [Option.map_eq_some_iff] at h
    obtain ⟨⟨s1, x⟩, h1, rfl⟩ := h
    obtain ⟨g1, g2⟩ := hp h0 s s1 x hm hc h1
    exact ⟨g1, fun _ b hb => ⟨has_put _ _ _ _ (g2 b hb).1, (g2 b hb).2⟩⟩
  · rw [if_neg h0] at h
    injection h with h
    subst h
    exact ⟨hm, fun h => absurd h h0⟩

theorem bucket_leaves : ∀ fuel a, a ≠ 0 → Leaves mem m fuel (Chain mem m.keySize m.elemSize a)
      (fun s => encodeBucket m fuel s a) ∧
    ∀ s s' o, s.mem = mem → encodeBucket m fuel s a = some (s', o) → follow mem m.keySize m.elemSize fuel a = 0 := by
  intro fuel
  induction fuel with
  | zero => intro a _; exact ⟨fun s s' o _ _ h => (nomatch h), fun s s' o _ h => (nomatch h)⟩
  | succ n ih =>
    intro a ha
    have key : ∀ s s' o, s.mem = mem → encodeBucket m (n + 1) s a = some (s', o) →
        ∃ s2, s2.mem = mem ∧ (Closed s → Closed s2) ∧
        ((mem (linkOf m.keySize m.elemSize a) = 0 ∧ s' = s2) ∨ (mem (linkOf m.keySize m.elemSize a) ≠ 0 ∧ ∃ s3 nx,
          encodeBucket m n s2 (mem (linkOf m.keySize m.elemSize a)) = some (s3, nx) ∧
          s' = s3.put (mem (linkOf m.keySize m.elemSize a)) nx)) := by
      intro s s' o hm h
      simp only [encodeBucket, Option.bind_eq_bind, Option.bind_eq_some_iff] at h
      obtain ⟨top, htop, ⟨s1, keys⟩, h1, ⟨s2, elems⟩, h2, over, hover, h⟩ := h
      have q1 : s1.mem = s.mem := quiet_elems hk _ _ _ _ _ _ h1
      have q2 : s2.mem = s1.mem := quiet_elems he _ _ _ _ _ _ h2
      have hm2 : s2.mem = mem := by rw [q2, q1, hm]
      refine ⟨s2, hm2, fun hc => ?_, ?_⟩
      · have c1 := (elems_good _ (encode_good m.key) _ _ s _ s1 keys hc h1).1
        exact (elems_good _ (encode_good m.elem) _ _ s1 _ s2 elems c1 h2).1
      have e2 : over = mem (linkOf m.keySize m.elemSize a) := by rw [read_eq hover, hm2, link_at]
      subst e2
      by_cases h0 : mem (linkOf m.keySize m.elemSize a) ≠ 0
      · rw [if_pos h0] at h
        simp only [Option.bind_eq_some_iff] at h
        obtain ⟨⟨s3, nx⟩, h3, h⟩ := h
        simp only [Option.some.injEq, Prod.mk.injEq] at h
        exact .inr ⟨h0, s3, nx, h3, h.1.symm⟩
      · rw [if_neg h0] at h
        simp only [Option.some.injEq, Prod.mk.injEq] at h
        exact .inl ⟨by simpa using h0, h.1.symm⟩
    have stop : ∀ s s' o, s.mem = mem → encodeBucket m (n + 1) s a = some (s', o) →
        follow mem m.keySize m.elemSize (n + 1) a = 0 := by
      intro s s' o hm h
      simp only [follow, ha, if_false]
      obtain ⟨s2, hm2, _, ⟨h0, _⟩ | ⟨h0, s3, nx, h3, _⟩⟩ := key s s' o hm h
      · rw [h0]; exact follow_zero _ _ _ _
      · exact (ih _ h0).2 s2 s3 nx hm2 h3
    refine ⟨?_, stop⟩
    intro s s' o hm hc h
    have hfa := stop s s' o hm h
    have hch : ∀ b, Chain mem m.keySize m.elemSize a b → follow mem m.keySize m.elemSize (n + 1) b = 0 := by
      intro b hb
      induction hb with
      | first => exact follow_link ha hfa
      | next _ h0 ih' => exact follow_link h0 ih'
    obtain ⟨s2, hm2, hc2, ⟨h0, rfl⟩ | ⟨h0, s3, nx, h3, rfl⟩⟩ := key s s' o hm h
    · refine ⟨hm2, ?_⟩
      intro b hb
      rcases chain_cases hb with rfl | ⟨h1, _⟩
      · exact ⟨.inl h0, hch _ hb, fun h1 => absurd h0 h1⟩
      · exact absurd h0 h1
    · obtain ⟨l1, l2⟩ := (ih _ h0).1 s2 s3 nx hm2 (hc2 hc) h3
      refine ⟨l1, ?_⟩
      intro b hb
      rcases chain_cases hb with rfl | ⟨_, h2⟩
      · exact ⟨has_put_self _ _ _, hch _ hb, fun _ => ⟨n, s2, s3, nx, hm2, h3⟩⟩
      · exact ⟨has_put _ _ _ _ (l2 b h2).1, hch b hb, (l2 b h2).2.2⟩

theorem ptr_leaves {fuel : Nat} {p : Addr} {s s' : St} (hm : s.mem = mem) (hc : Closed s)
    (h : putAt (encodeBucket m fuel) p s = some s') : s'.mem = mem ∧
    ∀ b, (b = p ∨ (p ≠ 0 ∧ Chain mem m.keySize m.elemSize p b)) →
      Has s' b ∧ follow mem m.keySize m.elemSize fuel b = 0 ∧ (b ≠ 0 → Ran mem m b) := by
  obtain ⟨l1, l2⟩ := putAt_leaves (fun h0 => (bucket_leaves hk he fuel p h0).1) hm hc h
  refine ⟨l1, ?_⟩
  rintro b (rfl | ⟨h0, hb⟩)
  · refine ⟨(putAt_good (bucket_good m fuel) hc h).2.2, ?_⟩
    by_cases h0 : b = 0
    · rw [h0]; exact ⟨follow_zero _ _ _ _, fun h => absurd rfl h⟩
    · unfold putAt at h
      rw [if_pos h0] at h
      simp only [Option.map_eq_some_iff] at h
      obtain ⟨⟨s1, x⟩, h1, _⟩ := h
      exact ⟨(bucket_leaves hk he fuel b h0).2 s s1 x hm h1, fun _ => ⟨fuel, s, s1, x, hm, h1⟩⟩
  · exact l2 h0 b hb

theorem buckets_leave (fuel : Nat) : ∀ (n : Nat) (a : Nat), a ≠ 0 → Leaves mem m fuel
    (fun b => ∃ i, i < n ∧ Chain mem m.keySize m.elemSize (a + i * (2 + 8 * m.keySize + 8 * m.elemSize)) b)
    (fun s => encodeBuckets m fuel n a s) := by
  intro n
  induction n with
  | zero =>
    intro a ha s s' o hm hc h
    simp only [encodeBuckets, encodeElems, Option.some.injEq, Prod.mk.injEq] at h
    obtain ⟨rfl, rfl⟩ := h
    exact ⟨hm, fun b ⟨i, hi, _⟩ => absurd hi (by omega)⟩
  | succ n ih =>
    intro a ha s s' o hm hc h
    simp only [encodeBuckets, encodeElems, Option.bind_eq_bind, Option.bind_eq_some_iff] at h
    obtain ⟨⟨s1, x⟩, h1, ⟨s2, y⟩, h2, h⟩ := h
    simp only [Option.some.injEq, Prod.mk.injEq] at h
    obtain ⟨rfl, rfl⟩ := h
    obtain ⟨m1, l1⟩ := (bucket_leaves hk he fuel a ha).1 s s1 x hm hc h1
    have c1 := (bucket_good m fuel s a s1 x hc h1).1
    obtain ⟨m2, l2⟩ := ih (a + m.bucketSize) (by omega) s1 s2 y m1 c1 h2
    have mono := (elems_good _ (bucket_good m fuel) m.bucketSize n s1 _ s2 y c1 h2).2.1
    refine ⟨m2, ?_⟩
    rintro b ⟨i, hi, hb⟩
    cases i with
    | zero =>
      rw [Nat.zero_mul, Nat.add_zero] at hb
      exact ⟨mono b (l1 b hb).1, (l1 b hb).2⟩
    | succ i =>
      refine l2 b ⟨i, by omega, ?_⟩
      have e : a + (i + 1) * (2 + 8 * m.keySize + 8 * m.elemSize) =
          a + m.bucketSize + i * (2 + 8 * m.keySize + 8 * m.elemSize) := by
        rw [Nat.add_mul]; simp only [MapEnc.bucketSize]; omega
      rwa [e] at hb

theorem ptrArray_leaves (fuel : Nat) : ∀ (n : Nat) (a : Nat), Leaves mem m fuel
    (fun b => ∃ j, j < n ∧ (b = mem (a + j) ∨ (mem (a + j) ≠ 0 ∧ Chain mem m.keySize m.elemSize (mem (a + j)) b)))
    (fun s => encodePtrArray m fuel n a s) := by
  intro n
  induction n with
  | zero =>
    intro a s s' o hm hc h
    simp only [encodePtrArray, Option.some.injEq, Prod.mk.injEq] at h
    obtain ⟨rfl, rfl⟩ := h
    exact ⟨hm, fun b ⟨i, hi, _⟩ => absurd hi (by omega)⟩
  | succ n ih =>
    intro a s s' o hm hc h
    simp only [encodePtrArray, Option.bind_eq_bind, Option.bind_eq_some_iff] at h
    obtain ⟨p, hp, s1, h1, ⟨s2, y⟩, h2, h⟩ := h
    simp only [Option.some.injEq, Prod.mk.injEq] at h
    obtain ⟨rfl, rfl⟩ := h
    have e1 : p = mem a := by rw [read_eq hp, hm]
    subst e1
    obtain ⟨m1, l1⟩ := ptr_leaves hk he hm hc h1
    have c1 := (putAt_good (bucket_good m fuel) hc h1).1
    obtain ⟨m2, l2⟩ := ih (a + 1) s1 s2 y m1 c1 h2
    have mono := (ptrArray_good m fuel n s1 _ s2 y c1 h2).2.1
    refine ⟨m2, ?_⟩
    rintro b ⟨j, hj, hb⟩
    cases j with
    | zero =>
      rw [Nat.add_zero] at hb
      exact ⟨mono b (l1 b hb).1, (l1 b hb).2⟩
    | succ j =>
      refine l2 b ⟨j, by omega, ?_⟩
      rwa [show a + (j + 1) = a + 1 + j by omega] at hb

theorem ptrSlice_leaves (fuel : Nat) (a : Addr) : Leaves mem m fuel
    (fun b => ∃ j, j < mem (a + 1) ∧
      (b = mem (mem a + j) ∨ (mem (mem a + j) ≠ 0 ∧ Chain mem m.keySize m.elemSize (mem (mem a + j)) b)))
    (fun s => encodePtrSlice m fuel s a) := by
  intro s s' o hm hc h
  simp only [encodePtrSlice, Option.bind_eq_bind, Option.bind_eq_some_iff] at h
  obtain ⟨data, hdata, len, hlen, cap, hcap, ⟨s1, x⟩, h1, h⟩ := h
  simp only [Option.some.injEq, Prod.mk.injEq] at h
  obtain ⟨rfl, rfl⟩ := h
  have e1 : data = mem a := by rw [read_eq hdata, hm]
  have e2 : len = mem (a + 1) := by rw [read_eq hlen, hm]
  subst e1 e2
  obtain ⟨m1, l1⟩ := ptrArray_leaves hk he fuel _ _ s s1 x hm hc h1
  refine ⟨?_, fun b hb => ⟨?_, (l1 b hb).2⟩⟩
  · split <;> exact m1
  · split
    · exact has_put _ _ _ _ (l1 b hb).1
    · exact (l1 b hb).1

theorem map_leaves (fuel : Nat) (h : Addr) : Leaves mem m fuel (Linked mem m.keySize m.elemSize h)
    (fun s => encodeMap m fuel s h) := by
  intro s s' o hm hc hr
  simp only [encodeMap, Option.bind_eq_bind, Option.bind_eq_some_iff] at hr
  obtain ⟨count, e1, w, e2, buckets, e3, oldbuckets, e4, nevacuate, e5, extra, e6, s1, h1, s2, h2, s3, h3, hr⟩ := hr
  simp only [Option.some.injEq, Prod.mk.injEq] at hr
  obtain ⟨rfl, rfl⟩ := hr
  have e2 := (read_eq e2).trans (congrFun hm _)
  have e3 := (read_eq e3).trans (congrFun hm _)
  have e4 := (read_eq e4).trans (congrFun hm _)
  have e6 := (read_eq e6).trans (congrFun hm _)
  subst e2 e3 e4 e6
  obtain ⟨a1, a2, a3⟩ := putAt_good (elems_good _ (bucket_good m fuel) m.bucketSize (2 ^ (mem (h + 1) / 256 % 256))) hc h1
  obtain ⟨b1, b2, b3⟩ := putAt_good (elems_good _ (bucket_good m fuel) m.bucketSize (2 ^ (mem (h + 1) / 256 % 256) / 2)) a1 h2
  obtain ⟨c1, c2, c3⟩ := putAt_good (extra_good m fuel) b1 h3
  obtain ⟨m1, l1⟩ := putAt_leaves (fun h0 => buckets_leave hk he fuel _ _ h0) hm hc h1
  obtain ⟨m2, l2⟩ := putAt_leaves (fun h0 => buckets_leave hk he fuel _ _ h0) m1 a1 h2
  obtain ⟨m3, l3⟩ := putAt_leaves (m := m) (fuel := fuel) (C := fun b =>
      (∃ i : Nat, i < 2 ∧ mem (mem (h + 5) + i) ≠ 0 ∧ ∃ j, j < mem (mem (mem (h + 5) + i) + 1) ∧
        (b = mem (mem (mem (mem (h + 5) + i)) + j) ∨ (mem (mem (mem (mem (h + 5) + i)) + j) ≠ 0 ∧
          Chain mem m.keySize m.elemSize (mem (mem (mem (mem (h + 5) + i)) + j)) b))) ∨
      (b = mem (mem (h + 5) + 2) ∨ (mem (mem (h + 5) + 2) ≠ 0 ∧ Chain mem m.keySize m.elemSize (mem (mem (h + 5) + 2)) b)))
    (fun h0 => by
      intro t t' x hm2 ht2 hx
      simp only [encodeExtra, Option.bind_eq_bind, Option.bind_eq_some_iff] at hx
      obtain ⟨ov, f1, old, f2, nx, f3, sa, g1, sb, g2, sc, g3, hx⟩ := hx
      simp only [Option.some.injEq, Prod.mk.injEq] at hx
      obtain ⟨rfl, rfl⟩ := hx
      have f1 := (read_eq f1).trans (congrFun hm2 _)
      have f2 := (read_eq f2).trans (congrFun hm2 _)
      have f3 := (read_eq f3).trans (congrFun hm2 _)
      subst f1 f2 f3
      obtain ⟨p1, p2, p3⟩ := putAt_good (ptrSlice_good m fuel) ht2 g1
      obtain ⟨q1, q2, q3⟩ := putAt_good (ptrSlice_good m fuel) p1 g2
      obtain ⟨r1, r2, r3⟩ := putAt_good (bucket_good m fuel) q1 g3
      obtain ⟨ma, la⟩ := putAt_leaves (fun _ => ptrSlice_leaves hk he fuel _) hm2 ht2 g1
      obtain ⟨mb, lb⟩ := putAt_leaves (fun _ => ptrSlice_leaves hk he fuel _) ma p1 g2
      obtain ⟨mc, lc⟩ := ptr_leaves hk he mb q1 g3
      refine ⟨mc, ?_⟩
      rintro b (⟨i, hi, hz, hb⟩ | hb)
      · have : i = 0 ∨ i = 1 := by omega
        rcases this with rfl | rfl
        · have := la hz b hb
          exact ⟨r2 b (q2 b this.1), this.2⟩
        · have := lb hz b hb
          exact ⟨r2 b this.1, this.2⟩
      · exact lc b hb) m2 b1 h3
  refine ⟨m3, ?_⟩
  have cover : ∀ b, Linked mem m.keySize m.elemSize h b →
      (mem (h + 2) ≠ 0 ∧ ∃ i, i < bucketCount mem h ∧
        Chain mem m.keySize m.elemSize (mem (h + 2) + i * (2 + 8 * m.keySize + 8 * m.elemSize)) b) ∨
      (mem (h + 3) ≠ 0 ∧ ∃ i, i < bucketCount mem h / 2 ∧
        Chain mem m.keySize m.elemSize (mem (h + 3) + i * (2 + 8 * m.keySize + 8 * m.elemSize)) b) ∨
      (mem (h + 5) ≠ 0 ∧ ((∃ i : Nat, i < 2 ∧ mem (mem (h + 5) + i) ≠ 0 ∧ ∃ j, j < mem (mem (mem (h + 5) + i) + 1) ∧
        (b = mem (mem (mem (mem (h + 5) + i)) + j) ∨ (mem (mem (mem (mem (h + 5) + i)) + j) ≠ 0 ∧
          Chain mem m.keySize m.elemSize (mem (mem (mem (mem (h + 5) + i)) + j)) b))) ∨
      (b = mem (mem (h + 5) + 2) ∨ (mem (mem (h + 5) + 2) ≠ 0 ∧
        Chain mem m.keySize m.elemSize (mem (mem (h + 5) + 2)) b)))) := by
    intro b hb
    induction hb with
    | inBuckets i h0 hi => exact .inl ⟨h0, i, hi, .first⟩
    | inOld i h0 hi => exact .inr (.inl ⟨h0, i, hi, .first⟩)
    | listed i j h0 hi hz hj => exact .inr (.inr ⟨h0, .inl ⟨i, hi, hz, j, hj, .inl rfl⟩⟩)
    | free h0 => exact .inr (.inr ⟨h0, .inr (.inl rfl)⟩)
    | next _ hn ih =>
      rcases ih with ⟨h0, i, hi, hc⟩ | ⟨h0, i, hi, hc⟩ | ⟨h0, ⟨i, hi, hz, j, hj, hc⟩ | hc⟩
      · exact .inl ⟨h0, i, hi, .next hc hn⟩
      · exact .inr (.inl ⟨h0, i, hi, .next hc hn⟩)
      · refine .inr (.inr ⟨h0, .inl ⟨i, hi, hz, j, hj, .inr ?_⟩⟩)
        rcases hc with rfl | ⟨hp, hc⟩
        · exact ⟨hn, .first⟩
        · exact ⟨hp, .next hc hn⟩
      · refine .inr (.inr ⟨h0, .inr (.inr ?_)⟩)
        rcases hc with rfl | ⟨hp, hc⟩
        · exact ⟨hn, .first⟩
        · exact ⟨hp, .next hc hn⟩
  intro b hb
  rcases cover b hb with ⟨h0, hb⟩ | ⟨h0, hb⟩ | ⟨h0, hb⟩
  · have := l1 h0 b hb
    exact ⟨c2 b (b2 b this.1), this.2⟩
  · have := l2 h0 b hb
    exact ⟨c2 b this.1, this.2⟩
  · exact l3 h0 b hb
end

theorem flat_quiet (env : Nat → Ty) {t : Ty} (h : Flat env t) (fuel : Nat) (e : Enc) (he : fieldEncoderOf env fuel t = some e) :
    Quiet e := fun s a s' o hr => by rw [flat_encode env h fuel e he s a s' o hr]

/-- C118 (partly): for a map of integers and structs of them, given its header: every bucket that a pointer in the map leads to has an
entry, and if nothing but buckets is at its address and it is not the first one of the array, the entry shows that bucket.  The
entry of the array shows the whole array, if moreover no pointer to a bucket leads to the array itself.  Missing: see
`free_bucket_hides_array`, where one does. -/
theorem every_bucket_shown_partial (env : Nat → Ty) (fuel d k e : Nat) (kt et : Ty) (m : MapEnc) (hkt : Flat env kt) (het : Flat env et)
    (hk : Words env kt k) (he : Words env et e)
    (hm : newMapEncoder env fuel kt et = some m) (mem : Addr → Nat) (next h : Addr) (s' : St) (o : Out)
    (hr : encodeMap m d ⟨mem, next, []⟩ h = some (s', o)) :
    (∀ b, Linked mem k e h b → b ≠ 0 → ∃ x, (b, x) ∈ s'.table) ∧
    (∀ b x, Linked mem k e h b → b ≠ mem (h + 2) → Apart mem h b → (b, x) ∈ s'.table → IsBucket env mem kt et b x) ∧
    (mem (h + 2) ≠ 0 → ∃ x, (mem (h + 2), x) ∈ s'.table) ∧
    (¬ Linked mem k e h (mem (h + 2)) → Apart mem h (mem (h + 2)) →
      ∀ x, (mem (h + 2), x) ∈ s'.table → AreBuckets env mem kt et (bucketCount mem h) (mem (h + 2)) x) := by
  simp only [newMapEncoder, Option.bind_eq_bind, Option.bind_eq_some_iff] at hm
  obtain ⟨key, hkey, elem, helem, hm⟩ := hm
  injection hm with hm
  have wk := size_words env kt (flat_noPtr env hkt) fuel key hkey
  have we := size_words env et (flat_noPtr env het) fuel elem helem
  have ek : k = m.keySize := by rw [← hm]; exact words_det env hk wk
  have ee : e = m.elemSize := by rw [← hm]; exact words_det env he we
  subst ek ee
  have hks : Quiet m.key := by rw [← hm]; exact flat_quiet env hkt fuel key hkey
  have hes : Quiet m.elem := by rw [← hm]; exact flat_quiet env het fuel elem helem
  have hkf : Faithful env mem (OfMap env mem kt et h) kt (encode m.key) := by rw [← hm]; exact flat_faithful env mem _ hkt fuel key hkey
  have hef : Faithful env mem (OfMap env mem kt et h) et (encode m.elem) := by rw [← hm]; exact flat_faithful env mem _ het fuel elem helem
  obtain ⟨_, t1, i1⟩ := map_holds hkf hef hk he d h (fun b o h => h) ⟨mem, next, []⟩ s' o rfl (fun b o hb => by cases hb) hr
  obtain ⟨_, l1⟩ := map_leaves (mem := mem) hks hes d h ⟨mem, next, []⟩ s' o rfl (fun b o hb => by cases hb) hr
  obtain ⟨_, _, g3⟩ := map_good m d ⟨mem, next, []⟩ h s' o (fun b o hb => by cases hb) hr
  refine ⟨?_, ?_, ?_, ?_⟩
  · intro b hb h0
    rcases (l1 b hb).1 with h1 | h1
    · exact absurd h1 h0
    · exact h1
  · intro b x hb h2 ha hx
    cases t1 b x hx with
    | buckets => exact absurd rfl h2
    | oldbuckets => exact absurd rfl ha.1
    | extra => exact absurd rfl ha.2.1
    | list i hi => exact absurd rfl (ha.2.2 i hi).1
    | ptrs i hi => exact absurd rfl (ha.2.2 i hi).2
    | bucket _ _ _ _ hb => exact hb
  · intro h0
    obtain ⟨_, _, _, _, _, _, _, _, rfl⟩ := i1
    rcases g3 (mem (h + 2)) (by simp [refs]) with h1 | h1
    · exact absurd h1 h0
    · exact h1
  · intro hl ha x hx
    generalize hv : mem (h + 2) = v at hx
    cases t1 v x hx with
    | buckets hb => exact hb
    | oldbuckets => exact absurd hv ha.1
    | extra => exact absurd hv ha.2.1
    | list i hi => exact absurd hv (ha.2.2 i hi).1
    | ptrs i hi => exact absurd hv (ha.2.2 i hi).2
    | bucket wk' we' hl' _ _ =>
      rw [words_det env wk' wk, words_det env we' we] at hl'
      subst hv
      subst hm
      exact absurd hl' hl

/-! ### What is not so -/

/-- The full statement of C118 is false: of a map in an interface, the count shown is the address of its header, since the encoder is
handed the address of a pointer to the header (msgfmt/jsonfmt/encoder.go 71-73 and 212-214) and takes it for that of the header. -/
theorem interface_count_wrong (m : MapEnc) (fuel : Nat) (data : Addr) (mem : Addr → Nat) (next : Addr) (root : Out)
    (table : List (Addr × Out)) (h : dumpMap m fuel data mem next = some (root, table)) :
    ∃ rest, (data, .both (.num data) rest) ∈ table := by
  simp only [dumpMap, Option.map_eq_some_iff] at h
  obtain ⟨⟨s', o⟩, h, h'⟩ := h
  simp only [Prod.mk.injEq] at h'
  obtain ⟨rfl, rfl⟩ := h'
  simp only [encodeOnePtrMap, encodeMap, Option.bind_eq_bind, Option.bind_eq_some_iff] at h
  obtain ⟨count, e1, w, e2, buckets, e3, oldbuckets, e4, nevacuate, e5, extra, e6, s1, h1, s2, h2, s3, h3, h⟩ := h
  simp only [Option.some.injEq, Prod.mk.injEq] at h
  obtain ⟨rfl, rfl⟩ := h
  have e1 := read_eq e1
  simp only [if_true] at e1
  subst e1
  exact ⟨_, List.mem_cons_self⟩

/-- A small map from integers to integers: header at 100, one bucket at 200, keys 7 and 8 with elements 70 and 80, next to it the
overflow bucket at 300 with the key 9 and the element 90, no extra fields. -/
def smallMap : Addr → Nat := fun a =>
  if a = 100 then 3 else if a = 102 then 200 else if a = 200 then 0x0605 else if a = 201 then 7 else if a = 202 then 8
  else if a = 209 then 70 else if a = 210 then 80 else if a = 217 then 300 else if a = 300 then 0x09 else if a = 301 then 9
  else if a = 309 then 90 else 0

/-- The same map with extra fields at 400 whose free bucket is at 500 and is linked to the array, as the last of the overflow
buckets made together with an array is. -/
def tightMap : Addr → Nat := fun a =>
  if a = 105 then 400 else if a = 402 then 500 else if a = 517 then 200 else smallMap a

/-- The entry of an array of buckets can be replaced by that of its first bucket: if the free bucket is linked to the array. -/
theorem free_bucket_hides_array : ∃ s' o x, encodeMap ⟨.int, 1, .int, 1⟩ 9 ⟨tightMap, 1000, []⟩ 100 = some (s', o) ∧
    s'.table.lookup 200 = some x ∧ IsBucket (fun _ => .int) tightMap .int .int 200 x ∧
    ¬ AreBuckets (fun _ => .int) tightMap .int .int (bucketCount tightMap 100) 200 x := by
  refine ⟨_, _, _, rfl, rfl, ⟨1, 1, tophash 0x0605, _, _, .int, .int, tophash_bytes _,
    .cons (.int _) .int (.cons (.int _) .int (.cons (.int _) .int (.cons (.int _) .int (.cons (.int _) .int (.cons (.int _) .int
      (.cons (.int _) .int (.cons (.int _) .int (.nil _)))))))),
    .cons (.int _) .int (.cons (.int _) .int (.cons (.int _) .int (.cons (.int _) .int (.cons (.int _) .int (.cons (.int _) .int
      (.cons (.int _) .int (.cons (.int _) .int (.nil _)))))))), rfl⟩, ?_⟩
  intro h
  change AreBuckets _ _ _ _ (0 + 1) _ _ at h
  cases h with
  | cons hb _ _ _ =>
    obtain ⟨_, _, _, _, _, _, _, _, _, _, hb⟩ := hb
    cases hb

/-! ### Cases -/

/-- The dump of the small map, to which the theorems apply. -/
example : Flat (fun _ => .int) .int ∧ newMapEncoder (fun _ => .int) 1 .int .int = some ⟨.int, 1, .int, 1⟩ ∧
    ListsFine smallMap 100 ∧
    (encodeMap ⟨.int, 1, .int, 1⟩ 2 ⟨smallMap, 1000, []⟩ 100).map (fun r => r.1.table.map Prod.fst) = some [200, 300] ∧
    Linked smallMap 1 1 100 300 ∧ Apart smallMap 100 300 ∧ ¬ Linked smallMap 1 1 100 200 ∧ Apart smallMap 100 200 ∧
    ∀ b, Linked smallMap 1 1 100 b → follow smallMap 1 1 2 b = 0 := by
  have hl : ∀ b, Linked smallMap 1 1 100 b → b = 300 ∨ b = 0 := by
    intro b hb
    induction hb with
    | inBuckets i _ hi =>
      have : i = 0 := by
        have e : bucketCount smallMap 100 = 1 := rfl
        rw [e] at hi; omega
      subst this; exact .inl rfl
    | inOld i h0 => exact absurd rfl h0
    | listed i j h0 => exact absurd rfl h0
    | free h0 => exact absurd rfl h0
    | next _ h0 ih =>
      rcases ih with rfl | rfl
      · exact .inr rfl
      · exact absurd rfl h0
  refine ⟨.int, rfl, fun h => absurd rfl h, rfl, .inBuckets 0 (by decide) (by decide), ⟨by decide, by decide, ?_⟩, ?_,
    ⟨by decide, by decide, ?_⟩, ?_⟩
  · intro i hi
    have : i = 0 ∨ i = 1 := by omega
    rcases this with rfl | rfl <;> decide
  · intro h
    rcases hl 200 h with h | h <;> cases h
  · intro i hi
    have : i = 0 ∨ i = 1 := by omega
    rcases this with rfl | rfl <;> decide
  · intro b hb
    rcases hl b hb with rfl | rfl <;> rfl

/-- The small map in an interface: what is taken for its header are the words at 1000. -/
example : (dumpMap ⟨.int, 1, .int, 1⟩ 2 100 smallMap 1000).map (fun r => r.2) =
    some [(100, .both (.num 100) (.both (.num 0) (.both (.num 0) (.both (.num 0) (.both (.num 0) (.both (.ref 0)
      (.both (.ref 0) (.both (.num 0) (.ref 0)))))))))] := rfl

end Verif.Dump
