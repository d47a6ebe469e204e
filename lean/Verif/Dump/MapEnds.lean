import Verif.Dump.MapShows

/-!
# C118, C119: when the dump of a map comes to an end
-/

namespace Verif.Dump

/-! ### Specification -/

/-- Types whose values are pointers. -/
inductive IsPtr (env : Nat → Ty) : Ty → Prop
  | ptr (t : Ty) : IsPtr env (.ptr t)
  | named {n : Nat} : IsPtr env (env n) → IsPtr env (.named n)

/-- Types without a pointer to a pointer and without a slice of pointers. -/
inductive Plain (env : Nat → Ty) : Ty → Prop
  | int : Plain env .int
  | str : Plain env .str
  | ptr {t : Ty} : Plain env t → ¬ IsPtr env t → Plain env (.ptr t)
  | slice {t : Ty} : Plain env t → ¬ IsPtr env t → Plain env (.slice t)
  | pair {a b : Ty} : Plain env a → Plain env b → Plain env (.pair a b)
  | named {n : Nat} : Plain env (env n) → Plain env (.named n)

/-- A value of a type at an address can be read, with everything its pointers and slices lead to: no pointer is nil, and no slice
with elements has its elements at nil. -/
inductive Readable (env : Nat → Ty) (mem : Addr → Nat) : Ty → Addr → Prop
  | int {a : Addr} : a ≠ 0 → Readable env mem .int a
  | str {a : Addr} : a ≠ 0 → Readable env mem .str a
  | ptr {t : Ty} {a : Addr} : a ≠ 0 → Readable env mem t (mem a) → Readable env mem (.ptr t) a
  | slice {t : Ty} {a k : Nat} : a ≠ 0 → Words env t k → (∀ i : Nat, i < mem (a + 1) → Readable env mem t (mem a + i * k)) →
      Readable env mem (.slice t) a
  | pair {x y : Ty} {a k : Nat} : Readable env mem x a → Words env x k → Readable env mem y (a + k) → Readable env mem (.pair x y) a
  | named {n : Nat} {a : Addr} : Readable env mem (env n) a → Readable env mem (.named n) a

/-- The buckets of the map with its header at `h`: those of the array and of the old array, and those that a pointer leads to. -/
inductive BucketOf (mem : Addr → Nat) (k e : Nat) (h : Addr) : Addr → Prop
  | inArray (i : Nat) : mem (h + 2) ≠ 0 → i < bucketCount mem h → BucketOf mem k e h (mem (h + 2) + i * (2 + 8 * k + 8 * e))
  | inOldArray (i : Nat) : mem (h + 3) ≠ 0 → i < bucketCount mem h / 2 → BucketOf mem k e h (mem (h + 3) + i * (2 + 8 * k + 8 * e))
  | linked {b : Addr} : Linked mem k e h b → b ≠ 0 → BucketOf mem k e h b

/-- Types of integers and strings and structs of them. -/
inductive Simple (env : Nat → Ty) : Ty → Prop
  | int : Simple env .int
  | str : Simple env .str
  | pair {a b : Ty} : Simple env a → Simple env b → Simple env (.pair a b)
  | named {n : Nat} : Simple env (env n) → Simple env (.named n)

/-- All eight keys and all eight elements of a bucket can be read, be they in use or not. -/
def SlotsReadable (env : Nat → Ty) (mem : Addr → Nat) (kt et : Ty) (k e b : Nat) : Prop :=
  ∀ i : Nat, i < 8 → Readable env mem kt (b + 1 + i * k) ∧ Readable env mem et (b + 1 + 8 * k + i * e)

/-! ### Encoding a value succeeds exactly if it can be read -/

theorem likePtr_isPtr (env : Nat → Ty) : ∀ fuel t, likePtr env fuel t = true → IsPtr env t := by
  intro fuel
  induction fuel with
  | zero => intro t h; cases h
  | succ n ih =>
    intro t h
    cases t with
    | ptr t => exact .ptr t
    | named k => exact .named (ih _ h)
    | int => cases h
    | str => cases h
    | slice => cases h
    | pair => cases h

theorem size_is_words (env : Nat → Ty) : ∀ fuel t e, fieldEncoderOf env fuel t = some e → ∀ k, fuel ≤ k → Words env t (size env k t) := by
  intro fuel
  induction fuel with
  | zero => intro t e he; cases t <;> cases he
  | succ n ih =>
    intro t e he k hk
    obtain ⟨k, rfl⟩ : ∃ m, k = m + 1 := ⟨k - 1, by omega⟩
    cases t with
    | int => exact .int
    | str => exact .str
    | ptr t => exact .ptr t
    | slice t => exact .slice t
    | pair a b =>
      simp only [fieldEncoderOf, Option.bind_eq_bind, Option.bind_eq_some_iff] at he
      obtain ⟨x, hx, y, hy, _⟩ := he
      exact .pair (ih a x hx k (by omega)) (ih b y hy k (by omega))
    | named j => exact .named (ih _ e he k (by omega))

theorem words_positive (env : Nat → Ty) {t : Ty} {k : Nat} (h : Words env t k) : 0 < k := by
  induction h with
  | int => decide
  | str => decide
  | ptr => decide
  | slice => decide
  | pair _ _ iha _ => omega
  | named _ ih => exact ih

/-- What is known of an encoder of a type: memory stays as it is, and it succeeds exactly if the value can be read. -/
def Reads (env : Nat → Ty) (t : Ty) (e : Enc) : Prop :=
  Quiet e ∧ ∀ (s : St) (a : Addr), (∃ s' o, encode e s a = some (s', o)) ↔ Readable env s.mem t a

theorem elems_read {env : Nat → Ty} {t : Ty} {enc : St → Addr → Option (St × Out)}
    (hq : ∀ s a s' o, enc s a = some (s', o) → s'.mem = s.mem)
    (hs : ∀ (s : St) (a : Addr), (∃ s' o, enc s a = some (s', o)) ↔ Readable env s.mem t a) (k : Nat) : ∀ (n : Nat) (a : Nat) (s : St),
    (∃ s' o, encodeElems enc k n a s = some (s', o)) ↔ ∀ i : Nat, i < n → Readable env s.mem t (a + i * k) := by
  intro n
  induction n with
  | zero => intro a s; exact ⟨fun _ i hi => absurd hi (by omega), fun _ => ⟨s, .nothing, rfl⟩⟩
  | succ n ih =>
    intro a s
    constructor
    · rintro ⟨s', o, h⟩
      simp only [encodeElems, Option.bind_eq_bind, Option.bind_eq_some_iff] at h
      obtain ⟨⟨s1, x⟩, h1, ⟨s2, y⟩, h2, h⟩ := h
      have q1 := hq _ _ _ _ h1
      have r2 := (ih (a + k) s1).mp ⟨s2, y, h2⟩
      intro i hi
      cases i with
      | zero =>
        rw [Nat.zero_mul, Nat.add_zero]
        exact (hs s a).mp ⟨s1, x, h1⟩
      | succ i =>
        have := r2 i (by omega)
        rw [q1] at this
        rwa [show a + (i + 1) * k = a + k + i * k by rw [Nat.add_mul]; omega]
    · intro h
      obtain ⟨s1, x, h1⟩ := (hs s a).mpr (by simpa using h 0 (by omega))
      have q1 := hq _ _ _ _ h1
      obtain ⟨s2, y, h2⟩ := (ih (a + k) s1).mpr (fun i hi => by
        have := h (i + 1) (by omega)
        rw [q1]
        rwa [show a + (i + 1) * k = a + k + i * k by rw [Nat.add_mul]; omega] at this)
      exact ⟨s2, .both x y, by simp only [encodeElems, h1, h2, Option.bind_eq_bind, Option.bind_some]⟩

theorem read_some {s : St} {a : Addr} (h : a ≠ 0) : read s a = some (s.mem a) := by rw [read, if_neg h]

theorem read_ne {s : St} {a n : Nat} (h : read s a = some n) : a ≠ 0 ∧ n = s.mem a := by
  unfold read at h
  by_cases h0 : a = 0
  · rw [if_pos h0] at h; cases h
  · rw [if_neg h0] at h; injection h with h; exact ⟨h0, h.symm⟩

theorem plain_reads (env : Nat → Ty) {t : Ty} (h : Plain env t) : ∀ fuel e, fieldEncoderOf env fuel t = some e → Reads env t e := by
  induction h with
  | int =>
    intro fuel e he
    cases fuel with
    | zero => cases he
    | succ n =>
      cases he
      refine ⟨?_, ?_⟩
      · intro s a s' o h
        simp only [encode, Option.bind_eq_bind, Option.bind_eq_some_iff] at h
        obtain ⟨n, hn, h⟩ := h
        simp only [Option.some.injEq, Prod.mk.injEq] at h
        rw [h.1]
      · intro s a
        constructor
        · rintro ⟨s', o, h⟩
          simp only [encode, Option.bind_eq_bind, Option.bind_eq_some_iff] at h
          obtain ⟨n, hn, h⟩ := h
          exact .int (read_ne hn).1
        · intro h
          cases h with
          | int h0 => exact ⟨s, .num (s.mem a), by simp only [encode, read_some h0, Option.bind_eq_bind, Option.bind_some]⟩
  | str =>
    intro fuel e he
    cases fuel with
    | zero => cases he
    | succ n =>
      cases he
      refine ⟨?_, ?_⟩
      · intro s a s' o h
        simp only [encode, Option.bind_eq_bind, Option.bind_eq_some_iff] at h
        obtain ⟨d, hd, l, hl, h⟩ := h
        simp only [Option.some.injEq, Prod.mk.injEq] at h
        rw [← h.1]
        split <;> rfl
      · intro s a
        constructor
        · rintro ⟨s', o, h⟩
          simp only [encode, Option.bind_eq_bind, Option.bind_eq_some_iff] at h
          obtain ⟨d, hd, h⟩ := h
          exact .str (read_ne hd).1
        · intro h
          cases h with
          | str h0 =>
            have h1 : a + 1 ≠ 0 := Nat.succ_ne_zero a
            exact ⟨_, _, by simp only [encode, read_some h0, read_some h1, Option.bind_eq_bind, Option.bind_some]; rfl⟩
  | @ptr t _ hp ih =>
    intro fuel e he
    cases fuel with
    | zero => cases he
    | succ n =>
      simp only [fieldEncoderOf, Option.map_eq_some_iff] at he
      obtain ⟨x, hx, rfl⟩ := he
      cases n with
      | zero => cases hx
      | succ n =>
        simp only [encoderOf, Option.bind_eq_bind, Option.bind_eq_some_iff] at hx
        obtain ⟨y, hy, hx⟩ := hx
        rw [if_neg (fun h => hp (likePtr_isPtr env n t h))] at hx
        injection hx with hx
        subst hx
        obtain ⟨iq, ir⟩ := ih n y hy
        refine ⟨?_, ?_⟩
        · intro s a s' o h
          simp only [encode, Option.bind_eq_bind, Option.bind_eq_some_iff] at h
          obtain ⟨p, hp, ⟨s1, z⟩, h1, h⟩ := h
          simp only [Option.some.injEq, Prod.mk.injEq] at h
          rw [← h.1]
          show s1.mem = s.mem
          exact iq _ _ _ _ h1
        · intro s a
          constructor
          · rintro ⟨s', o, h⟩
            simp only [encode, Option.bind_eq_bind, Option.bind_eq_some_iff] at h
            obtain ⟨p, hp, ⟨s1, z⟩, h1, h⟩ := h
            obtain ⟨h0, rfl⟩ := read_ne hp
            exact .ptr h0 ((ir s _).mp ⟨s1, z, h1⟩)
          · intro h
            cases h with
            | ptr h0 hr =>
              obtain ⟨s1, z, h1⟩ := (ir s _).mpr hr
              exact ⟨s1.put a z, .ref a, by simp only [encode, read_some h0, h1, Option.bind_eq_bind, Option.bind_some]⟩
  | @slice t _ hp ih =>
    intro fuel e he
    cases fuel with
    | zero => cases he
    | succ n =>
      simp only [fieldEncoderOf, Option.map_eq_some_iff] at he
      obtain ⟨x, hx, rfl⟩ := he
      cases n with
      | zero => cases hx
      | succ n =>
        simp only [encoderOf, Option.bind_eq_bind, Option.bind_eq_some_iff] at hx
        obtain ⟨y, hy, hx⟩ := hx
        rw [if_neg (fun h => hp (likePtr_isPtr env n t h))] at hx
        injection hx with hx
        subst hx
        have hw := size_is_words env n t y hy (n + 1) (by omega)
        obtain ⟨iq, ir⟩ := ih n y hy
        refine ⟨?_, ?_⟩
        · intro s a s' o h
          simp only [encode, Option.bind_eq_bind, Option.bind_eq_some_iff] at h
          obtain ⟨d, hd, l, hl, c, hc, ⟨s1, z⟩, h1, h⟩ := h
          simp only [Option.some.injEq, Prod.mk.injEq] at h
          have q1 : s1.mem = s.mem := quiet_elems iq _ _ _ _ _ _ h1
          rw [← h.1, ← q1]
          split <;> rfl
        · intro s a
          constructor
          · rintro ⟨s', o, h⟩
            simp only [encode, Option.bind_eq_bind, Option.bind_eq_some_iff] at h
            obtain ⟨d, hd, l, hl, c, hc, ⟨s1, z⟩, h1, h⟩ := h
            obtain ⟨h0, rfl⟩ := read_ne hd
            obtain ⟨_, rfl⟩ := read_ne hl
            exact .slice h0 hw ((elems_read iq ir _ _ _ s).mp ⟨s1, z, h1⟩)
          · intro h
            cases h with
            | slice h0 hk hr =>
              rw [words_det env hk hw] at hr
              obtain ⟨s1, z, h1⟩ := (elems_read iq ir _ _ _ s).mpr hr
              have g1 : a + 1 ≠ 0 := Nat.succ_ne_zero a
              have g2 : a + 2 ≠ 0 := Nat.succ_ne_zero (a + 1)
              exact ⟨_, _, by
                simp only [encode, read_some h0, read_some g1, read_some g2, h1, Option.bind_eq_bind, Option.bind_some]; rfl⟩
  | @pair ta tb _ _ iha ihb =>
    intro fuel e he
    cases fuel with
    | zero => cases he
    | succ n =>
      simp only [fieldEncoderOf, Option.bind_eq_bind, Option.bind_eq_some_iff] at he
      obtain ⟨ex, hex, ey, hey, he⟩ := he
      injection he with he
      subst he
      have hw := size_is_words env n ta ex hex n (Nat.le_refl _)
      obtain ⟨aq, ar⟩ := iha n ex hex
      obtain ⟨bq, br⟩ := ihb n ey hey
      refine ⟨?_, ?_⟩
      · intro s a s' o h
        simp only [encode, Option.bind_eq_bind, Option.bind_eq_some_iff] at h
        obtain ⟨⟨s1, u⟩, h1, ⟨s2, v⟩, h2, h⟩ := h
        simp only [Option.some.injEq, Prod.mk.injEq] at h
        rw [← h.1, bq _ _ _ _ h2, aq _ _ _ _ h1]
      · intro s a
        constructor
        · rintro ⟨s', o, h⟩
          simp only [encode, Option.bind_eq_bind, Option.bind_eq_some_iff] at h
          obtain ⟨⟨s1, u⟩, h1, ⟨s2, v⟩, h2, h⟩ := h
          have q1 := aq _ _ _ _ h1
          have r2 := (br s1 _).mp ⟨s2, v, h2⟩
          rw [q1] at r2
          exact .pair ((ar s a).mp ⟨s1, u, h1⟩) hw r2
        · intro h
          cases h with
          | pair h1 hk h2 =>
            rw [words_det env hk hw] at h2
            obtain ⟨s1, u, h1⟩ := (ar s a).mpr h1
            have q1 := aq _ _ _ _ h1
            obtain ⟨s2, v, h2⟩ := (br s1 _).mpr (q1 ▸ h2)
            exact ⟨s2, .both u v, by simp only [encode, h1, h2, Option.bind_eq_bind, Option.bind_some]⟩
  | named _ ih =>
    intro fuel e he
    cases fuel with
    | zero => cases he
    | succ n =>
      obtain ⟨iq, ir⟩ := ih n e he
      refine ⟨iq, fun s a => (ir s a).trans ⟨.named, fun h => ?_⟩⟩
      cases h with
      | named h => exact h

/-! ### Encoding the map -/

theorem read_at {s : St} {mem : Addr → Nat} (hm : s.mem = mem) {a : Nat} (ha : a ≠ 0) (i : Nat) :
    read s (a + i) = some (mem (a + i)) := by
  have h : a + i ≠ 0 := by omega
  rw [read, if_neg h, hm]

section
variable {env : Nat → Ty} {mem : Addr → Nat} {kt et : Ty} {m : MapEnc} (hk : Reads env kt m.key) (he : Reads env et m.elem)
include hk he

theorem ran_readable {b : Addr} (h : Ran mem m b) : SlotsReadable env mem kt et m.keySize m.elemSize b := by
  obtain ⟨fuel, s, s', o, hm, h⟩ := h
  cases fuel with
  | zero => cases h
  | succ n =>
    simp only [encodeBucket, Option.bind_eq_bind, Option.bind_eq_some_iff] at h
    obtain ⟨top, htop, ⟨s1, keys⟩, h1, ⟨s2, elems⟩, h2, _⟩ := h
    have q1 : s1.mem = s.mem := quiet_elems hk.1 _ _ _ _ _ _ h1
    have r1 := (elems_read hk.1 hk.2 _ _ _ s).mp ⟨s1, keys, h1⟩
    have r2 := (elems_read he.1 he.2 _ _ _ s1).mp ⟨s2, elems, h2⟩
    rw [q1, hm] at r2
    rw [hm] at r1
    exact fun i hi => ⟨r1 i hi, r2 i hi⟩

theorem buckets_ran (fuel : Nat) : ∀ (n : Nat) (a : Nat) (s s' : St) (o : Out), s.mem = mem → Closed s → a ≠ 0 →
    encodeBuckets m fuel n a s = some (s', o) → ∀ i, i < n → Ran mem m (a + i * (2 + 8 * m.keySize + 8 * m.elemSize)) := by
  intro n
  induction n with
  | zero => intro a s s' o _ _ _ _ i hi; omega
  | succ n ih =>
    intro a s s' o hm hc ha h i hi
    simp only [encodeBuckets, encodeElems, Option.bind_eq_bind, Option.bind_eq_some_iff] at h
    obtain ⟨⟨s1, x⟩, h1, ⟨s2, y⟩, h2, h⟩ := h
    obtain ⟨m1, _⟩ := (bucket_leaves hk.1 he.1 fuel a ha).1 s s1 x hm hc h1
    have c1 := (bucket_good m fuel s a s1 x hc h1).1
    cases i with
    | zero => rw [Nat.zero_mul, Nat.add_zero]; exact ⟨fuel, s, s1, x, hm, h1⟩
    | succ i =>
      have := ih (a + m.bucketSize) s1 s2 y m1 c1 (by omega) h2 i (by omega)
      have e : a + (i + 1) * (2 + 8 * m.keySize + 8 * m.elemSize) =
          a + m.bucketSize + i * (2 + 8 * m.keySize + 8 * m.elemSize) := by
        rw [Nat.add_mul]; simp only [MapEnc.bucketSize]; omega
      rwa [e]

omit hk he in
theorem ptrSlice_fine {fuel : Nat} {a : Addr} {s s' : St} {o : Out} (hm : s.mem = mem)
    (h : encodePtrSlice m fuel s a = some (s', o)) : mem a = 0 → mem (a + 1) = 0 := by
  simp only [encodePtrSlice, Option.bind_eq_bind, Option.bind_eq_some_iff] at h
  obtain ⟨data, hdata, len, hlen, cap, hcap, ⟨s1, x⟩, h1, h⟩ := h
  obtain ⟨_, rfl⟩ := read_ne hdata
  obtain ⟨_, rfl⟩ := read_ne hlen
  rw [hm] at h1
  intro h0
  cases hl : mem (a + 1) with
  | zero => rfl
  | succ n =>
    rw [hl, h0] at h1
    simp only [encodePtrArray, Option.bind_eq_bind, Option.bind_eq_some_iff] at h1
    obtain ⟨p, hp, _⟩ := h1
    exact absurd rfl (read_ne hp).1

omit hk he in
theorem putAt_ran {f : St → Addr → Option (St × Out)} {p : Addr} {s s' : St} (h0 : p ≠ 0) (h : putAt f p s = some s') :
    ∃ s1 x, f s p = some (s1, x) := by
  unfold putAt at h
  rw [if_pos h0] at h
  simp only [Option.map_eq_some_iff] at h
  obtain ⟨⟨s1, x⟩, h1, _⟩ := h
  exact ⟨s1, x, h1⟩

/-- What an encoding of the map that succeeds has found. -/
theorem map_found {fuel : Nat} {h : Addr} {s s' : St} {o : Out} (hm : s.mem = mem) (hc : Closed s)
    (hr : encodeMap m fuel s h = some (s', o)) : ListsFine mem h ∧
    (∀ b, Linked mem m.keySize m.elemSize h b → follow mem m.keySize m.elemSize fuel b = 0) ∧
    ∀ b, BucketOf mem m.keySize m.elemSize h b → SlotsReadable env mem kt et m.keySize m.elemSize b := by
  obtain ⟨_, l1⟩ := map_leaves (mem := mem) hk.1 he.1 fuel h s s' o hm hc hr
  simp only [encodeMap, Option.bind_eq_bind, Option.bind_eq_some_iff] at hr
  obtain ⟨count, e1, w, e2, buckets, e3, oldbuckets, e4, nevacuate, e5, extra, e6, s1, h1, s2, h2, s3, h3, hr⟩ := hr
  have e2 := (read_eq e2).trans (congrFun hm _)
  have e3 := (read_eq e3).trans (congrFun hm _)
  have e4 := (read_eq e4).trans (congrFun hm _)
  have e6 := (read_eq e6).trans (congrFun hm _)
  subst e2 e3 e4 e6
  obtain ⟨a1, a2, a3⟩ := putAt_good (elems_good _ (bucket_good m fuel) m.bucketSize (2 ^ (mem (h + 1) / 256 % 256))) hc h1
  obtain ⟨b1, b2, b3⟩ := putAt_good (elems_good _ (bucket_good m fuel) m.bucketSize (2 ^ (mem (h + 1) / 256 % 256) / 2)) a1 h2
  obtain ⟨m1, _⟩ := putAt_leaves (fun h0 => buckets_leave hk.1 he.1 fuel _ _ h0) hm hc h1
  obtain ⟨m2, _⟩ := putAt_leaves (fun h0 => buckets_leave hk.1 he.1 fuel _ _ h0) m1 a1 h2
  refine ⟨?_, fun b hb => (l1 b hb).2.1, ?_⟩
  · intro h0
    obtain ⟨s4, x, h4⟩ := putAt_ran h0 h3
    simp only [encodeExtra, Option.bind_eq_bind, Option.bind_eq_some_iff] at h4
    obtain ⟨ov, f1, old, f2, nx, f3, sa, g1, sb, g2, sc, g3, _⟩ := h4
    have f1 := (read_eq f1).trans (congrFun m2 _)
    have f2 := (read_eq f2).trans (congrFun m2 _)
    subst f1 f2
    obtain ⟨ma, _⟩ := putAt_leaves (fun _ => ptrSlice_leaves hk.1 he.1 fuel _) m2 b1 g1
    intro i hi hz
    have : i = 0 ∨ i = 1 := by omega
    rcases this with rfl | rfl
    · obtain ⟨_, _, h5⟩ := putAt_ran hz g1
      exact ptrSlice_fine m2 h5
    · obtain ⟨_, _, h5⟩ := putAt_ran hz g2
      exact ptrSlice_fine ma h5
  · intro b hb
    refine ran_readable hk he ?_
    cases hb with
    | inArray i h0 hi =>
      obtain ⟨s4, x, h4⟩ := putAt_ran h0 h1
      exact buckets_ran hk he fuel _ _ s s4 x hm hc h0 h4 i hi
    | inOldArray i h0 hi =>
      obtain ⟨s4, x, h4⟩ := putAt_ran h0 h2
      exact buckets_ran hk he fuel _ _ s1 s4 x m1 a1 h0 h4 i hi
    | linked hb h0 => exact (l1 b hb).2.2 h0

/-- From `a`, every bucket can be read. -/
def AllReadable (env : Nat → Ty) (mem : Addr → Nat) (kt et : Ty) (k e a : Nat) : Prop :=
  SlotsReadable env mem kt et k e a ∧ ∀ b, Chain mem k e a b → b ≠ 0 → SlotsReadable env mem kt et k e b

theorem bucket_runs : ∀ (fuel : Nat) (a : Nat), a ≠ 0 → AllReadable env mem kt et m.keySize m.elemSize a →
    follow mem m.keySize m.elemSize fuel a = 0 → ∀ s : St, s.mem = mem →
    ∃ s' o, encodeBucket m fuel s a = some (s', o) ∧ s'.mem = mem := by
  intro fuel
  induction fuel with
  | zero => intro a ha _ h; exact absurd h ha
  | succ n ih =>
    intro a ha hall hf s hm
    obtain ⟨s1, keys, h1⟩ := (elems_read hk.1 hk.2 m.keySize 8 (a + 1) s).mpr (fun i hi => hm ▸ (hall.1 i hi).1)
    have m1 : s1.mem = mem := (quiet_elems hk.1 _ _ _ _ _ _ h1).trans hm
    obtain ⟨s2, elems, h2⟩ := (elems_read he.1 he.2 m.elemSize 8 (a + 1 + 8 * m.keySize) s1).mpr
      (fun i hi => m1 ▸ (hall.1 i hi).2)
    have m2 : s2.mem = mem := (quiet_elems he.1 _ _ _ _ _ _ h2).trans m1
    have h3 : read s2 (a + m.bucketSize - 1) = some (mem (linkOf m.keySize m.elemSize a)) := by
      have hz : linkOf m.keySize m.elemSize a ≠ 0 := by simp only [linkOf]; omega
      rw [link_at, read, if_neg hz, m2]
    have h0 : read s a = some (mem a) := by rw [read, if_neg ha, hm]
    simp only [follow, ha, if_false] at hf
    by_cases hz : mem (linkOf m.keySize m.elemSize a) ≠ 0
    · have next : ∀ b, Chain mem m.keySize m.elemSize (mem (linkOf m.keySize m.elemSize a)) b →
          Chain mem m.keySize m.elemSize a b := by
        intro b hb
        induction hb with
        | first => exact .next .first hz
        | next _ h0 ih => exact .next ih h0
      obtain ⟨s', x, h4, h5⟩ := ih _ hz ⟨hall.2 _ .first hz, fun b hb h0 => hall.2 b (next b hb) h0⟩ hf s2 m2
      refine ⟨s'.put (mem (linkOf m.keySize m.elemSize a)) x,
        .both (tophash (mem a)) (.both keys (.both elems (.ref (mem (linkOf m.keySize m.elemSize a))))), ?_, h5⟩
      simp only [encodeBucket, h0, h1, h2, h3, h4, Option.bind_eq_bind, Option.bind_some, if_pos hz]
    · refine ⟨s2, .both (tophash (mem a)) (.both keys (.both elems (.ref (mem (linkOf m.keySize m.elemSize a))))), ?_, m2⟩
      simp only [encodeBucket, h0, h1, h2, h3, Option.bind_eq_bind, Option.bind_some, if_neg hz]

theorem ptr_runs {fuel : Nat} {p : Addr} (hall : p ≠ 0 → AllReadable env mem kt et m.keySize m.elemSize p)
    (hf : follow mem m.keySize m.elemSize fuel p = 0) (s : St) (hm : s.mem = mem) :
    ∃ s', putAt (encodeBucket m fuel) p s = some s' ∧ s'.mem = mem := by
  unfold putAt
  by_cases h0 : p ≠ 0
  · obtain ⟨s', o, h, h'⟩ := bucket_runs hk he fuel p h0 (hall h0) hf s hm
    exact ⟨s'.put p o, by rw [if_pos h0, h]; rfl, h'⟩
  · exact ⟨s, by rw [if_neg h0], hm⟩

theorem buckets_run (fuel : Nat) : ∀ (n : Nat) (a : Nat), a ≠ 0 →
    (∀ i, i < n → AllReadable env mem kt et m.keySize m.elemSize (a + i * (2 + 8 * m.keySize + 8 * m.elemSize)) ∧
      follow mem m.keySize m.elemSize fuel (a + i * (2 + 8 * m.keySize + 8 * m.elemSize)) = 0) →
    ∀ s : St, s.mem = mem → ∃ s' o, encodeBuckets m fuel n a s = some (s', o) ∧ s'.mem = mem := by
  intro n
  induction n with
  | zero => intro a _ _ s hm; exact ⟨s, .nothing, rfl, hm⟩
  | succ n ih =>
    intro a ha hf s hm
    have hf0 := hf 0 (by omega)
    rw [Nat.zero_mul, Nat.add_zero] at hf0
    obtain ⟨s1, x, h1, m1⟩ := bucket_runs hk he fuel a ha hf0.1 hf0.2 s hm
    obtain ⟨s2, y, h2, m2⟩ := ih (a + m.bucketSize) (by omega) (fun i hi => by
      have := hf (i + 1) (by omega)
      have e : a + (i + 1) * (2 + 8 * m.keySize + 8 * m.elemSize) =
          a + m.bucketSize + i * (2 + 8 * m.keySize + 8 * m.elemSize) := by
        rw [Nat.add_mul]; simp only [MapEnc.bucketSize]; omega
      rwa [e] at this) s1 m1
    refine ⟨s2, .both x y, ?_, m2⟩
    simp only [encodeBuckets] at h2
    simp only [encodeBuckets, encodeElems, h1, h2, Option.bind_eq_bind, Option.bind_some]

theorem ptrArray_runs (fuel : Nat) : ∀ (n : Nat) (a : Nat), (a = 0 → n = 0) →
    (∀ j, j < n → (mem (a + j) ≠ 0 → AllReadable env mem kt et m.keySize m.elemSize (mem (a + j))) ∧
      follow mem m.keySize m.elemSize fuel (mem (a + j)) = 0) →
    ∀ s : St, s.mem = mem → ∃ s' o, encodePtrArray m fuel n a s = some (s', o) ∧ s'.mem = mem := by
  intro n
  induction n with
  | zero => intro a _ _ s hm; exact ⟨s, .nothing, rfl, hm⟩
  | succ n ih =>
    intro a ha hf s hm
    have ha : a ≠ 0 := fun h => by simpa using ha h
    have h0 : read s a = some (mem a) := by rw [read, if_neg ha, hm]
    have hf0 := hf 0 (by omega)
    rw [Nat.add_zero] at hf0
    obtain ⟨s1, h1, m1⟩ := ptr_runs hk he hf0.1 hf0.2 s hm
    obtain ⟨s2, y, h2, m2⟩ := ih (a + 1) (fun h => absurd h (by omega)) (fun j hj => by
      have := hf (j + 1) (by omega)
      rwa [show a + (j + 1) = a + 1 + j by omega] at this) s1 m1
    exact ⟨s2, .both (.ref (mem a)) y, by simp only [encodePtrArray, h0, h1, h2, Option.bind_eq_bind, Option.bind_some], m2⟩

theorem ptrSlice_runs (fuel : Nat) (a : Nat) (ha : a ≠ 0) (hl : mem a = 0 → mem (a + 1) = 0)
    (hf : ∀ j, j < mem (a + 1) → (mem (mem a + j) ≠ 0 → AllReadable env mem kt et m.keySize m.elemSize (mem (mem a + j))) ∧
      follow mem m.keySize m.elemSize fuel (mem (mem a + j)) = 0) (s : St) (hm : s.mem = mem) :
    ∃ s' o, encodePtrSlice m fuel s a = some (s', o) ∧ s'.mem = mem := by
  have r0 : read s a = some (mem a) := by rw [read, if_neg ha, hm]
  have r1 : read s (a + 1) = some (mem (a + 1)) := read_at hm ha 1
  have r2 : read s (a + 2) = some (mem (a + 2)) := read_at hm ha 2
  obtain ⟨s1, x, h1, m1⟩ := ptrArray_runs hk he fuel (mem (a + 1)) (mem a) hl hf s hm
  refine ⟨if mem a ≠ 0 then s1.put (mem a) x else s1, .sliceHeader (mem a) (mem (a + 1)) (mem (a + 2)), ?_, ?_⟩
  · simp only [encodePtrSlice, r0, r1, r2, h1, Option.bind_eq_bind, Option.bind_some]
  · split <;> exact m1

omit hk he in
theorem putAt_runs {f : St → Addr → Option (St × Out)} {p : Addr} (s : St) (hm : s.mem = mem)
    (hf : p ≠ 0 → ∃ s' o, f s p = some (s', o) ∧ s'.mem = mem) : ∃ s', putAt f p s = some s' ∧ s'.mem = mem := by
  unfold putAt
  by_cases h0 : p ≠ 0
  · obtain ⟨s', o, h, h'⟩ := hf h0
    exact ⟨s'.put p o, by rw [if_pos h0, h]; rfl, h'⟩
  · exact ⟨s, by rw [if_neg h0], hm⟩
end

/-- C119: for a map whose keys and elements have no pointers to pointers nor slices of pointers, given its header, the dump comes to an
end without a panic, with some call depth, exactly if: no list of overflow buckets is a nil slice with a length; there is a bound to
the number of buckets one after the other, that is, no pointer in the map leads into a circle; and all keys and elements of all
buckets, those of empty slots included, can be read.  Missing: pointers to pointers and slices of pointers; and the last condition
is not in the property, see `empty_slot_panics`. -/
theorem map_ends_iff_partial (env : Nat → Ty) (fuel k e : Nat) (kt et : Ty) (m : MapEnc) (hkt : Plain env kt) (het : Plain env et)
    (hk : Words env kt k) (he : Words env et e) (hm : newMapEncoder env fuel kt et = some m) (mem : Addr → Nat) (next h : Addr)
    (hh : h ≠ 0) :
    (∃ d s' o, encodeMap m d ⟨mem, next, []⟩ h = some (s', o)) ↔
      ListsFine mem h ∧ (∃ n, ∀ b, Linked mem k e h b → follow mem k e n b = 0) ∧
        ∀ b, BucketOf mem k e h b → SlotsReadable env mem kt et k e b := by
  simp only [newMapEncoder, Option.bind_eq_bind, Option.bind_eq_some_iff] at hm
  obtain ⟨key, hkey, elem, helem, hm⟩ := hm
  injection hm with hm
  have wk := size_is_words env fuel kt key hkey fuel (Nat.le_refl _)
  have we := size_is_words env fuel et elem helem fuel (Nat.le_refl _)
  have ek : k = m.keySize := by rw [← hm]; exact words_det env hk wk
  have ee : e = m.elemSize := by rw [← hm]; exact words_det env he we
  subst ek ee
  have hks : Reads env kt m.key := by rw [← hm]; exact plain_reads env hkt fuel key hkey
  have hes : Reads env et m.elem := by rw [← hm]; exact plain_reads env het fuel elem helem
  constructor
  · rintro ⟨d, s', o, hr⟩
    obtain ⟨f1, f2, f3⟩ := map_found (mem := mem) hks hes rfl (fun b o hb => by cases hb) hr
    exact ⟨f1, ⟨d, f2⟩, f3⟩
  · rintro ⟨hlists, ⟨n, hn⟩, hall⟩
    have deeper : ∀ b, follow mem m.keySize m.elemSize n b = 0 → follow mem m.keySize m.elemSize (n + 1) b = 0 := by
      intro b hb
      by_cases h0 : b = 0
      · rw [h0]; exact follow_zero _ _ _ _
      · simp only [follow, h0, if_false]; exact follow_link h0 hb
    have first : ∀ a : Nat, Linked mem m.keySize m.elemSize h (mem (linkOf m.keySize m.elemSize a)) →
        follow mem m.keySize m.elemSize (n + 1) a = 0 := by
      intro a ha
      by_cases h0 : a = 0
      · rw [h0]; exact follow_zero _ _ _ _
      · simp only [follow, h0, if_false]; exact hn _ ha
    have chain : ∀ a b, Linked mem m.keySize m.elemSize h (mem (linkOf m.keySize m.elemSize a)) →
        Chain mem m.keySize m.elemSize a b → Linked mem m.keySize m.elemSize h b := by
      intro a b ha hb
      induction hb with
      | first => exact ha
      | next _ h0 ih => exact .next ih h0
    have all : ∀ a : Nat, BucketOf mem m.keySize m.elemSize h a →
        Linked mem m.keySize m.elemSize h (mem (linkOf m.keySize m.elemSize a)) →
        AllReadable env mem kt et m.keySize m.elemSize a := by
      intro a hb ha
      exact ⟨hall a hb, fun b hc h0 => hall b (.linked (chain a b ha hc) h0)⟩
    have linked : ∀ p : Nat, Linked mem m.keySize m.elemSize h p → p ≠ 0 → AllReadable env mem kt et m.keySize m.elemSize p :=
      fun p hp h0 => all p (.linked hp h0) (.next hp h0)
    have r : ∀ i, read ⟨mem, next, []⟩ (h + i) = some (mem (h + i)) := fun i => read_at rfl hh i
    have r0 : read ⟨mem, next, []⟩ h = some (mem h) := r 0
    obtain ⟨s1, h1, m1⟩ := putAt_runs (mem := mem) (f := fun s p => encodeBuckets m (n + 1) (2 ^ (mem (h + 1) / 256 % 256)) p s)
      (p := mem (h + 2)) ⟨mem, next, []⟩ rfl
      (fun h0 => buckets_run hks hes (n + 1) _ _ h0 (fun i hi =>
        ⟨all _ (.inArray i h0 hi) (.inBuckets i h0 hi), first _ (.inBuckets i h0 hi)⟩) _ rfl)
    obtain ⟨s2, h2, m2⟩ := putAt_runs (mem := mem) (f := fun s p => encodeBuckets m (n + 1) (2 ^ (mem (h + 1) / 256 % 256) / 2) p s)
      (p := mem (h + 3)) s1 m1
      (fun h0 => buckets_run hks hes (n + 1) _ _ h0 (fun i hi =>
        ⟨all _ (.inOldArray i h0 hi) (.inOld i h0 hi), first _ (.inOld i h0 hi)⟩) _ m1)
    obtain ⟨s3, h3, m3⟩ := putAt_runs (mem := mem) (f := encodeExtra m (n + 1)) (p := mem (h + 5)) s2 m2 (fun h0 => by
      have q : ∀ i, read s2 (mem (h + 5) + i) = some (mem (mem (h + 5) + i)) := fun i => read_at m2 h0 i
      have q0 : read s2 (mem (h + 5)) = some (mem (mem (h + 5))) := q 0
      obtain ⟨sa, ga, ma⟩ := putAt_runs (mem := mem) (f := encodePtrSlice m (n + 1)) (p := mem (mem (h + 5))) s2 m2 (fun hz =>
        ptrSlice_runs hks hes (n + 1) _ hz (fun hd => hlists h0 0 (by decide) hz hd)
          (fun j hj => ⟨linked _ (.listed 0 j h0 (by omega) hz hj), deeper _ (hn _ (.listed 0 j h0 (by omega) hz hj))⟩) s2 m2)
      obtain ⟨sb, gb, mb⟩ := putAt_runs (mem := mem) (f := encodePtrSlice m (n + 1)) (p := mem (mem (h + 5) + 1)) sa ma (fun hz =>
        ptrSlice_runs hks hes (n + 1) _ hz (fun hd => hlists h0 1 (by decide) hz hd)
          (fun j hj => ⟨linked _ (.listed 1 j h0 (by omega) hz hj), deeper _ (hn _ (.listed 1 j h0 (by omega) hz hj))⟩) sa ma)
      obtain ⟨sc, gc, mc⟩ := ptr_runs hks hes (linked _ (.free h0)) (deeper _ (hn _ (.free h0))) sb mb
      exact ⟨sc, _, by simp only [encodeExtra, q0, q 1, q 2, ga, gb, gc, Option.bind_eq_bind, Option.bind_some]; rfl, mc⟩)
    exact ⟨n + 1, s3, _, by
      simp only [encodeMap, r0, r 1, r 2, r 3, r 4, r 5, h1, h2, h3, Option.bind_eq_bind, Option.bind_some]; rfl⟩

theorem simple_plain (env : Nat → Ty) {t : Ty} (h : Simple env t) : Plain env t := by
  induction h with
  | int => exact .int
  | str => exact .str
  | pair _ _ iha ihb => exact .pair iha ihb
  | named _ ih => exact .named ih

theorem simple_readable (env : Nat → Ty) (mem : Addr → Nat) {t : Ty} (h : Simple env t) :
    ∀ (k : Nat) (a : Nat), Words env t k → a ≠ 0 → Readable env mem t a := by
  induction h with
  | int => intro k a _ h; exact .int h
  | str => intro k a _ h; exact .str h
  | pair _ _ iha ihb =>
    intro k a hw h
    cases hw with
    | pair hx hy => exact .pair (iha _ _ hx h) hx (ihb _ _ hy (by omega))
  | named _ ih =>
    intro k a hw h
    cases hw with
    | named hw => exact .named (ih k a hw h)

/-- C119 (partly): for a map of integers and strings and structs of them, given its header, the dump comes to an end without a panic
exactly if no pointer in the map leads into a circle of buckets, the lists of overflow buckets being slices as Go makes them. -/
theorem simple_map_ends_iff_partial (env : Nat → Ty) (fuel k e : Nat) (kt et : Ty) (m : MapEnc) (hkt : Simple env kt) (het : Simple env et)
    (hk : Words env kt k) (he : Words env et e) (hm : newMapEncoder env fuel kt et = some m) (mem : Addr → Nat) (next h : Addr)
    (hh : h ≠ 0) (hl : ListsFine mem h) :
    (∃ d s' o, encodeMap m d ⟨mem, next, []⟩ h = some (s', o)) ↔ ∃ n, ∀ b, Linked mem k e h b → follow mem k e n b = 0 := by
  rw [map_ends_iff_partial env fuel k e kt et m (simple_plain env hkt) (simple_plain env het) hk he hm mem next h hh]
  refine ⟨fun h => h.2.1, fun hn => ⟨hl, hn, ?_⟩⟩
  intro b hb i _
  exact ⟨simple_readable env mem hkt k _ hk (by omega), simple_readable env mem het e _ he (by omega)⟩

/-! ### Every bucket has an entry -/

/-- C118 (partly): for a map whose keys and elements have no pointers to pointers nor slices of pointers, given its header: every
bucket that a pointer in the map leads to has an entry, and so has the array. -/
theorem every_bucket_entered_partial (env : Nat → Ty) (fuel d k e : Nat) (kt et : Ty) (m : MapEnc) (hkt : Plain env kt)
    (het : Plain env et) (hk : Words env kt k) (he : Words env et e) (hm : newMapEncoder env fuel kt et = some m) (mem : Addr → Nat)
    (next h : Addr) (s' : St) (o : Out) (hr : encodeMap m d ⟨mem, next, []⟩ h = some (s', o)) :
    (∀ b, Linked mem k e h b → b ≠ 0 → ∃ x, (b, x) ∈ s'.table) ∧ (mem (h + 2) ≠ 0 → ∃ x, (mem (h + 2), x) ∈ s'.table) ∧
    (mem (h + 3) ≠ 0 → ∃ x, (mem (h + 3), x) ∈ s'.table) := by
  simp only [newMapEncoder, Option.bind_eq_bind, Option.bind_eq_some_iff] at hm
  obtain ⟨key, hkey, elem, helem, hm⟩ := hm
  injection hm with hm
  have wk := size_is_words env fuel kt key hkey fuel (Nat.le_refl _)
  have we := size_is_words env fuel et elem helem fuel (Nat.le_refl _)
  have ek : k = m.keySize := by rw [← hm]; exact words_det env hk wk
  have ee : e = m.elemSize := by rw [← hm]; exact words_det env he we
  subst ek ee
  have hks : Reads env kt m.key := by rw [← hm]; exact plain_reads env hkt fuel key hkey
  have hes : Reads env et m.elem := by rw [← hm]; exact plain_reads env het fuel elem helem
  obtain ⟨_, l1⟩ := map_leaves (mem := mem) hks.1 hes.1 d h ⟨mem, next, []⟩ s' o rfl (fun b o hb => by cases hb) hr
  refine ⟨?_, ?_⟩
  · intro b hb h0
    rcases (l1 b hb).1 with h1 | h1
    · exact absurd h1 h0
    · exact h1
  · have g3 := (map_good m d ⟨mem, next, []⟩ h s' o (fun b o hb => by cases hb) hr).2.2
    simp only [encodeMap, Option.bind_eq_bind, Option.bind_eq_some_iff] at hr
    obtain ⟨count, e1, w, e2, buckets, e3, oldbuckets, e4, nevacuate, e5, extra, e6, s1, h1, s2, h2, s3, h3, hr⟩ := hr
    simp only [Option.some.injEq, Prod.mk.injEq] at hr
    obtain ⟨rfl, rfl⟩ := hr
    have e3 := read_eq e3
    have e4 := read_eq e4
    subst e3 e4
    refine ⟨fun h0 => ?_, fun h0 => ?_⟩
    · exact (g3 (mem (h + 2)) (by simp [refs])).resolve_left h0
    · exact (g3 (mem (h + 3)) (by simp [refs])).resolve_left h0

/-- C118 (partly): for a map of integers, strings, slices and structs of them, given its header: at the address of a bucket that a
pointer in the map leads to, if nothing but buckets, strings and slices is there and it is not that of the array, the table
shows that bucket, or else the words of a string or the elements of a slice there. -/
theorem every_bucket_or_slice_partial (env : Nat → Ty) (fuel d k e : Nat) (kt et : Ty) (m : MapEnc) (hkt : NoPtr env kt)
    (het : NoPtr env et) (hk : Words env kt k) (he : Words env et e) (hm : newMapEncoder env fuel kt et = some m) (mem : Addr → Nat)
    (next h : Addr) (s' : St) (o : Out) (hr : encodeMap m d ⟨mem, next, []⟩ h = some (s', o)) :
    ∀ b, Linked mem k e h b → b ≠ 0 → b ≠ mem (h + 2) → Apart mem h b →
      ∃ x, (b, x) ∈ s'.table ∧ (IsBucket env mem kt et b x ∨ Shown env mem b x) := by
  intro b hb h0 h2 ha
  have noPtr : ∀ {t : Ty}, NoPtr env t → ¬ IsPtr env t := by
    intro t h
    induction h with
    | int => intro h; cases h
    | str => intro h; cases h
    | slice => intro h; cases h
    | pair => intro h; cases h
    | named _ ih => intro h; cases h with | named h => exact ih h
  have plain : ∀ {t : Ty}, NoPtr env t → Plain env t := by
    intro t h
    induction h with
    | int => exact .int
    | str => exact .str
    | slice h ih => exact .slice ih (noPtr h)
    | pair _ _ iha ihb => exact .pair iha ihb
    | named _ ih => exact .named ih
  obtain ⟨x, hx⟩ := (every_bucket_entered_partial env fuel d k e kt et m (plain hkt) (plain het) hk he hm mem next h s' o hr).1 b hb h0
  refine ⟨x, hx, ?_⟩
  rcases (map_shows_partial env fuel d kt et m hkt het hm mem next h s' o hr).2 b x hx with ho | hs
  · left
    cases ho with
    | buckets => exact absurd rfl h2
    | oldbuckets => exact absurd rfl ha.1
    | extra => exact absurd rfl ha.2.1
    | list i hi => exact absurd rfl (ha.2.2 i hi).1
    | ptrs i hi => exact absurd rfl (ha.2.2 i hi).2
    | bucket _ _ _ _ hb => exact hb
  · exact .inr hs

/-! ### What is not so -/

/-- The full statement of C119 is false: a map whose elements are pointers is never dumped, at any call depth, if one slot of
one bucket holds nil, as the slots not in use do.  No bucket needs to be linked to another. -/
theorem empty_slot_panics (env : Nat → Ty) (fuel d k : Nat) (kt t : Ty) (m : MapEnc) (hkt : Plain env kt) (ht : Plain env t)
    (hp : ¬ IsPtr env t) (hk : Words env kt k) (hm : newMapEncoder env fuel kt (.ptr t) = some m) (mem : Addr → Nat)
    (next h b i : Addr) (hb : BucketOf mem k 1 h b) (hi : i < 8) (hnil : mem (b + 1 + 8 * k + i) = 0) :
    encodeMap m d ⟨mem, next, []⟩ h = none := by
  cases hr : encodeMap m d ⟨mem, next, []⟩ h with
  | none => rfl
  | some r =>
    obtain ⟨s', o⟩ := r
    have hh : h ≠ 0 := by
      rintro rfl
      simp only [encodeMap, read, if_true, Option.bind_eq_bind, Option.bind_none] at hr
      cases hr
    obtain ⟨_, _, h3⟩ := (map_ends_iff_partial env fuel k 1 kt (.ptr t) m hkt (.ptr ht hp) hk (.ptr t) hm mem next h hh).mp
      ⟨d, s', o, hr⟩
    have r := (h3 b hb i hi).2
    rw [Nat.mul_one] at r
    have zero : ∀ {t : Ty} {a : Addr}, Readable env mem t a → a ≠ 0 := by
      intro t a h
      induction h with
      | int h => exact h
      | str h => exact h
      | ptr h => exact h
      | slice h => exact h
      | pair _ _ _ ih => exact ih
      | named _ ih => exact ih
    cases r with
    | ptr _ r => exact absurd hnil (zero r)

/-- Buckets in a circle are never dumped. -/
theorem bucket_circle_hangs (d : Nat) (next : Addr) :
    encodeMap ⟨.int, 1, .int, 1⟩ d ⟨fun a => if a = 317 then 300 else smallMap a, next, []⟩ 100 = none := by
  cases hr : encodeMap ⟨.int, 1, .int, 1⟩ d ⟨fun a => if a = 317 then 300 else smallMap a, next, []⟩ 100 with
  | none => rfl
  | some r =>
    obtain ⟨s', o⟩ := r
    obtain ⟨n, hn⟩ := (simple_map_ends_iff_partial (fun _ => .int) 1 1 1 .int .int ⟨.int, 1, .int, 1⟩ .int .int .int .int rfl
      (fun a => if a = 317 then 300 else smallMap a) next 100 (by decide) (fun h => absurd rfl h)).mp ⟨d, s', o, hr⟩
    have hl : Linked (fun a => if a = 317 then 300 else smallMap a) 1 1 100 300 :=
      .inBuckets 0 (by decide) (by decide)
    have hc : ∀ n, follow (fun a => if a = 317 then 300 else smallMap a) 1 1 n 300 = 300 := by
      intro n
      induction n with
      | zero => rfl
      | succ n ih => simp only [follow]; exact ih
    have := hn 300 hl
    rw [hc] at this
    cases this

/-! ### Cases -/

/-- A map from integers to strings: header at 100, one bucket at 200 with the key 7 and the string of two words at 400. -/
def stringMap : Addr → Nat := fun a =>
  if a = 100 then 1 else if a = 102 then 200 else if a = 200 then 5 else if a = 201 then 7 else if a = 209 then 400
  else if a = 210 then 2 else if a = 400 then 65 else if a = 401 then 66 else 0

theorem stringMap_links (b : Addr) (h : Linked stringMap 1 2 100 b) : b = 0 := by
  induction h with
  | inBuckets i _ hi =>
    have e : bucketCount stringMap 100 = 1 := rfl
    have : i = 0 := by rw [e] at hi; omega
    subst this; rfl
  | inOld i h0 => exact absurd rfl h0
  | listed i j h0 => exact absurd rfl h0
  | free h0 => exact absurd rfl h0
  | next _ h0 ih => exact absurd ih h0

/-- It meets the hypotheses, and its dump comes to an end. -/
example : Simple (fun _ => .int) .int ∧ Simple (fun _ => .int) .str ∧
    newMapEncoder (fun _ => .int) 1 .int .str = some ⟨.int, 1, .str, 2⟩ ∧ ListsFine stringMap 100 ∧
    (∀ b, Linked stringMap 1 2 100 b → follow stringMap 1 2 1 b = 0) ∧
    ((encodeMap ⟨.int, 1, .str, 2⟩ 1 ⟨stringMap, 1000, []⟩ 100).map fun r => r.1.table.map Prod.fst) = some [200, 400] :=
  ⟨.int, .str, rfl, fun h => absurd rfl h, fun b hb => by rw [stringMap_links b hb]; rfl, rfl⟩

/-- A map from integers to pointers, all eight slots in use: it can be dumped; with one of them nil it cannot, though the slot is one
that is not in use. -/
def pointerMap : Addr → Nat := fun a =>
  if a = 100 then 8 else if a = 102 then 200 else if 208 < a ∧ a < 217 then 300 + a else 0

example : Plain (fun _ => .int) (.ptr .int) ∧ newMapEncoder (fun _ => .int) 3 .int (.ptr .int) = some ⟨.int, 1, .ptr .int, 1⟩ ∧
    ((encodeMap ⟨.int, 1, .ptr .int, 1⟩ 1 ⟨pointerMap, 1000, []⟩ 100).map fun r => r.1.table.length) = some 9 ∧
    encodeMap ⟨.int, 1, .ptr .int, 1⟩ 1 ⟨fun a => if a = 216 then 0 else pointerMap a, 1000, []⟩ 100 = none := by
  refine ⟨.ptr .int (by intro h; cases h), rfl, rfl, ?_⟩
  exact empty_slot_panics (fun _ => .int) 3 1 1 .int .int _ .int .int (by intro h; cases h) .int rfl _ _ 100 200 7
    (.inArray 0 (by decide) (by decide)) (by decide) rfl

/-- The small map with its overflow bucket at 300. -/
example : ∃ s' o, encodeMap ⟨.int, 1, .int, 1⟩ 2 ⟨smallMap, 1000, []⟩ 100 = some (s', o) ∧
    ∃ x, (300, x) ∈ s'.table ∧ (IsBucket (fun _ => .int) smallMap .int .int 300 x ∨ Shown (fun _ => .int) smallMap 300 x) := by
  refine ⟨_, _, rfl, ?_⟩
  refine every_bucket_or_slice_partial (fun _ => .int) 1 2 1 1 .int .int ⟨.int, 1, .int, 1⟩ .int .int .int .int rfl smallMap 1000 100 _ _ rfl
    300 (.inBuckets 0 (by decide) (by decide)) (by decide) (by decide) ⟨by decide, by decide, ?_⟩
  intro i hi
  have : i = 0 ∨ i = 1 := by omega
  rcases this with rfl | rfl <;> decide

end Verif.Dump
