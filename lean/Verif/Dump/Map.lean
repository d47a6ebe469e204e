import Verif.Dump.Shows

/-!
# C118, C119: maps in a memory dump

Model of dump/map.go.  Memory is counted in words of eight bytes; keys and elements take whole words, and are held in the bucket
itself.  The header of a map is six words: the count; flags, B, noverflow and hash0 in one; buckets; oldbuckets; nevacuate; extra
(dump/map.go 13-25).  A map is dumped here on its own or in an interface, not as a part of another value.
-/

namespace Verif.Dump

/-! ### Model -/

/-- `mapEncoder`, dump/map.go 62-67: the encoders of one key and of one element, and their sizes; those of the arrays of eight
are made from these, msgfmt/jsonfmt/encoder.go 155-161. -/
structure MapEnc where
  key : Enc
  keySize : Nat
  elem : Enc
  elemSize : Nat

/-- `bucketSize`, dump/map.go 75, in words. -/
def MapEnc.bucketSize (m : MapEnc) : Nat := 1 + 8 * m.keySize + 8 * m.elemSize + 1

/-- `newMapEncoder`, dump/map.go 69-80.  `api.EncoderOf` of an array of eight is never a `onePtrInterfaceEncoder`. -/
def newMapEncoder (env : Nat → Ty) (fuel : Nat) (k e : Ty) : Option MapEnc := do
  let key ← fieldEncoderOf env fuel k
  let elem ← fieldEncoderOf env fuel e
  some ⟨key, size env fuel k, elem, size env fuel e⟩

/-- Numbers in a sequence, as `arrayEncoder` writes them. Models msgfmt/jsonfmt/encoder_array.go 14-24. -/
def nums : List Nat → Out
  | [] => .nothing
  | n :: ns => .both (.num n) (nums ns)

/-- `topHashEncoder` on the first word of a bucket, dump/map.go 60 and 214: eight bytes, the lowest first. -/
def tophash (w : Nat) : Out := nums ((List.range 8).map fun i => w / 256 ^ i % 256)

/-- `encodeBucket`, dump/map.go 211-231, `none` for a panic or when the call depth `fuel` is not enough. -/
def encodeBucket (m : MapEnc) : Nat → St → Addr → Option (St × Out)
  | 0, _, _ => none
  | fuel + 1, s, a => do
    let top ← read s a
    let (s, keys) ← encodeElems (encode m.key) m.keySize 8 (a + 1) s
    let (s, elems) ← encodeElems (encode m.elem) m.elemSize 8 (a + 1 + 8 * m.keySize) s
    let over ← read s (a + m.bucketSize - 1)
    let out := Out.both (tophash top) (.both keys (.both elems (.ref over)))
    if over ≠ 0 then do
      let (s, next) ← encodeBucket m fuel s over
      some (s.put over next, out)
    else some (s, out)

/-- `encodeBuckets`, dump/map.go 197-209: the loop is the one of slices. -/
def encodeBuckets (m : MapEnc) (fuel n : Nat) (a : Addr) (s : St) : Option (St × Out) :=
  encodeElems (encodeBucket m fuel) m.bucketSize n a s

/-- The pattern `if p != nil { data := f(p); addrMap[p] = data }` of dump/map.go 107-121, 137-151 and 188-191. -/
def putAt (f : St → Addr → Option (St × Out)) (p : Addr) (s : St) : Option St :=
  if p ≠ 0 then (f s p).map (fun r => r.1.put p r.2) else some s

/-- `encodeBucketPtrArray`, dump/map.go 175-195. -/
def encodePtrArray (m : MapEnc) (fuel : Nat) : Nat → Addr → St → Option (St × Out)
  | 0, _, s => some (s, .nothing)
  | n + 1, a, s => do
    let p ← read s a
    let s ← putAt (encodeBucket m fuel) p s
    let (s, rest) ← encodePtrArray m fuel n (a + 1) s
    some (s, .both (.ref p) rest)

/-- `encodeBucketPtrSlice`, dump/map.go 156-172. -/
def encodePtrSlice (m : MapEnc) (fuel : Nat) (s : St) (a : Addr) : Option (St × Out) := do
  let data ← read s a
  let len ← read s (a + 1)
  let cap ← read s (a + 2)
  let (s, ptrs) ← encodePtrArray m fuel len data s
  some (if data ≠ 0 then s.put data ptrs else s, .sliceHeader data len cap)

/-- `encodeExtra`, dump/map.go 125-153. -/
def encodeExtra (m : MapEnc) (fuel : Nat) (s : St) (a : Addr) : Option (St × Out) := do
  let overflow ← read s a
  let oldoverflow ← read s (a + 1)
  let nextOverflow ← read s (a + 2)
  let s ← putAt (encodePtrSlice m fuel) overflow s
  let s ← putAt (encodePtrSlice m fuel) oldoverflow s
  let s ← putAt (encodeBucket m fuel) nextOverflow s
  some (s, .both (.ref overflow) (.both (.ref oldoverflow) (.ref nextOverflow)))

/-- `mapEncoder.Encode`, dump/map.go 82-123.  `math.Pow` is exact for the values of B that fit in memory. -/
def encodeMap (m : MapEnc) (fuel : Nat) (s : St) (a : Addr) : Option (St × Out) := do
  let count ← read s a
  let w ← read s (a + 1)
  let buckets ← read s (a + 2)
  let oldbuckets ← read s (a + 3)
  let nevacuate ← read s (a + 4)
  let extra ← read s (a + 5)
  let n := 2 ^ (w / 256 % 256)
  let s ← putAt (fun s p => encodeBuckets m fuel n p s) buckets s
  let s ← putAt (fun s p => encodeBuckets m fuel (n / 2) p s) oldbuckets s
  let s ← putAt (encodeExtra m fuel) extra s
  some (s, .both (.num count) (.both (.num (w % 256)) (.both (.num (w / 256 % 256)) (.both (.num (w / 65536 % 65536))
    (.both (.num (w / 4294967296 % 4294967296)) (.both (.ref buckets) (.both (.ref oldbuckets) (.both (.num nevacuate)
    (.ref extra)))))))))

/-- `onePtrInterfaceEncoder.Encode`, msgfmt/jsonfmt/encoder.go 212-214, which `EncoderOf` (71-73) puts around the encoder of a
map, a map being like a pointer, reflect2/reflect2.go 246-252. -/
def encodeOnePtrMap (m : MapEnc) (fuel : Nat) (s : St) (a : Addr) : Option (St × Out) :=
  let p := s.next
  encodeMap m fuel { s with mem := fun x => if x = p then a else s.mem x, next := p + 1 } p

/-- `Var.String`, dump/dumpvar.go 25-33, and `efaceEncoder.Encode`, dump/eface.go 20-35, for a map; `data` is where its header is. -/
def dumpMap (m : MapEnc) (fuel : Nat) (data : Addr) (mem : Addr → Nat) (next : Addr) : Option (Out × List (Addr × Out)) :=
  (encodeOnePtrMap m fuel ⟨mem, next, []⟩ data).map fun r => (.ref data, (r.1.put data r.2).table)

/-! ### Specification -/

/-- The bytes of a word, the lowest first. -/
def Bytes (w : Nat) (o : Out) : Prop :=
  ∃ l : List Nat, l.length = 8 ∧ (∀ i, i < 8 → l[i]? = some (w / 256 ^ i % 256)) ∧ o = nums l

/-- Where the pointer to the next bucket is, in a bucket of eight keys and eight elements. -/
def linkOf (k e a : Nat) : Nat := a + 1 + 8 * k + 8 * e

/-- A bucket at an address as memory holds it: eight bytes of hashes, eight keys, eight elements, and the next bucket. -/
def IsBucket (env : Nat → Ty) (mem : Addr → Nat) (kt et : Ty) (a : Addr) (o : Out) : Prop :=
  ∃ k e top keys elems, Words env kt k ∧ Words env et e ∧ Bytes (mem a) top ∧ Images env mem kt 8 (a + 1) keys ∧
    Images env mem et 8 (a + 1 + 8 * k) elems ∧ o = .both top (.both keys (.both elems (.ref (mem (linkOf k e a)))))

/-- `n` buckets, one after the other. -/
inductive AreBuckets (env : Nat → Ty) (mem : Addr → Nat) (kt et : Ty) : Nat → Addr → Out → Prop
  | nil (a : Addr) : AreBuckets env mem kt et 0 a .nothing
  | cons {n a k e : Nat} {x y : Out} : IsBucket env mem kt et a x → Words env kt k → Words env et e →
      AreBuckets env mem kt et n (linkOf k e a + 1) y → AreBuckets env mem kt et (n + 1) a (.both x y)

/-- `n` pointers, one after the other. -/
inductive ArePtrs (mem : Addr → Nat) : Nat → Addr → Out → Prop
  | nil (a : Addr) : ArePtrs mem 0 a .nothing
  | cons {n a : Nat} {y : Out} : ArePtrs mem n (a + 1) y → ArePtrs mem (n + 1) a (.both (.ref (mem a)) y)

/-- The number of buckets of the map whose header is at `h`. -/
def bucketCount (mem : Addr → Nat) (h : Addr) : Nat := 2 ^ (mem (h + 1) / 256 % 256)

/-- The header of a map. -/
def IsHeader (mem : Addr → Nat) (h : Addr) (o : Out) : Prop :=
  ∃ flags b noverflow hash0, mem (h + 1) % 2 ^ 64 = flags + b * 2 ^ 8 + noverflow * 2 ^ 16 + hash0 * 2 ^ 32 ∧ flags < 2 ^ 8 ∧
    b < 2 ^ 8 ∧ noverflow < 2 ^ 16 ∧
    o = .both (.num (mem h)) (.both (.num flags) (.both (.num b) (.both (.num noverflow) (.both (.num hash0)
      (.both (.ref (mem (h + 2))) (.both (.ref (mem (h + 3))) (.both (.num (mem (h + 4))) (.ref (mem (h + 5))))))))))

/-- The buckets that a pointer leads to, in a map with its header at `h` and keys and elements of `k` and `e` words: the ones next to
a bucket of the array or of the old array, those in the two lists of overflow buckets, the free one, and all that are next to these. -/
inductive Linked (mem : Addr → Nat) (k e : Nat) (h : Addr) : Addr → Prop
  | inBuckets (i : Nat) : mem (h + 2) ≠ 0 → i < bucketCount mem h →
      Linked mem k e h (mem (linkOf k e (mem (h + 2) + i * (2 + 8 * k + 8 * e))))
  | inOld (i : Nat) : mem (h + 3) ≠ 0 → i < bucketCount mem h / 2 →
      Linked mem k e h (mem (linkOf k e (mem (h + 3) + i * (2 + 8 * k + 8 * e))))
  | listed (i j : Nat) : mem (h + 5) ≠ 0 → i < 2 → mem (mem (h + 5) + i) ≠ 0 → j < mem (mem (mem (h + 5) + i) + 1) →
      Linked mem k e h (mem (mem (mem (mem (h + 5) + i)) + j))
  | free : mem (h + 5) ≠ 0 → Linked mem k e h (mem (mem (h + 5) + 2))
  | next {b : Addr} : Linked mem k e h b → b ≠ 0 → Linked mem k e h (mem (linkOf k e b))

/-- What an entry made for the map with its header at `h` can be: the buckets or the old buckets, the extra fields, a list of
overflow buckets or its pointers, and one bucket that a pointer in the map leads to. -/
inductive OfMap (env : Nat → Ty) (mem : Addr → Nat) (kt et : Ty) (h : Addr) : Addr → Out → Prop
  | buckets {o} : AreBuckets env mem kt et (bucketCount mem h) (mem (h + 2)) o → OfMap env mem kt et h (mem (h + 2)) o
  | oldbuckets {o} : mem (h + 3) ≠ 0 → AreBuckets env mem kt et (bucketCount mem h / 2) (mem (h + 3)) o →
      OfMap env mem kt et h (mem (h + 3)) o
  | extra : mem (h + 5) ≠ 0 → OfMap env mem kt et h (mem (h + 5))
      (.both (.ref (mem (mem (h + 5)))) (.both (.ref (mem (mem (h + 5) + 1))) (.ref (mem (mem (h + 5) + 2)))))
  | list (i : Nat) (hi : i < 2) : mem (h + 5) ≠ 0 → mem (mem (h + 5) + i) ≠ 0 → OfMap env mem kt et h (mem (mem (h + 5) + i))
      (.sliceHeader (mem (mem (mem (h + 5) + i))) (mem (mem (mem (h + 5) + i) + 1)) (mem (mem (mem (h + 5) + i) + 2)))
  | ptrs (i : Nat) (hi : i < 2) {o} : mem (h + 5) ≠ 0 → mem (mem (h + 5) + i) ≠ 0 →
      ArePtrs mem (mem (mem (mem (h + 5) + i) + 1)) (mem (mem (mem (h + 5) + i))) o →
      OfMap env mem kt et h (mem (mem (mem (h + 5) + i))) o
  | bucket {k e : Nat} {b : Addr} {o : Out} : Words env kt k → Words env et e → Linked mem k e h b → b ≠ 0 →
      IsBucket env mem kt et b o → OfMap env mem kt et h b o

/-! ### Proofs -/

theorem words_det (env : Nat → Ty) {t : Ty} {m : Nat} (hm : Words env t m) : ∀ {n : Nat}, Words env t n → m = n := by
  induction hm with
  | int => intro n h; cases h; rfl
  | str => intro n h; cases h; rfl
  | ptr => intro n h; cases h; rfl
  | slice => intro n h; cases h; rfl
  | pair _ _ iha ihb =>
    intro n h
    cases h with
    | pair h1 h2 => rw [iha h1, ihb h2]
  | named _ ih =>
    intro n h
    cases h with
    | named h => exact ih h

theorem link_at (m : MapEnc) (a : Nat) : a + m.bucketSize - 1 = linkOf m.keySize m.elemSize a := by
  simp only [MapEnc.bucketSize, linkOf]; omega

theorem link_next (m : MapEnc) (a : Nat) : linkOf m.keySize m.elemSize a + 1 = a + m.bucketSize := by
  simp only [MapEnc.bucketSize, linkOf]; omega

theorem tophash_bytes (w : Nat) : Bytes w (tophash w) := by
  refine ⟨_, by simp, ?_, rfl⟩
  intro i hi
  simp [List.getElem?_map, List.getElem?_range hi]

/-- What dumping a part of the map at an address guarantees: memory stays, entries keep a property, what is returned is as `R`
says. -/
def Holds (mem : Addr → Nat) (P : Addr → Out → Prop) (R : Out → Prop) (enc : St → Option (St × Out)) : Prop :=
  ∀ s s' o, s.mem = mem → (∀ b o, (b, o) ∈ s.table → P b o) → enc s = some (s', o) →
    s'.mem = mem ∧ (∀ b o, (b, o) ∈ s'.table → P b o) ∧ R o

theorem putAt_holds {mem : Addr → Nat} {P : Addr → Out → Prop} {f : St → Addr → Option (St × Out)} {p : Addr} {s s' : St}
    {R : Out → Prop} (hm : s.mem = mem) (ht : ∀ b o, (b, o) ∈ s.table → P b o)
    (hf : p ≠ 0 → Holds mem P R (fun s => f s p)) (hR : p ≠ 0 → ∀ o, R o → P p o)
    (h : putAt f p s = some s') : s'.mem = mem ∧ ∀ b o, (b, o) ∈ s'.table → P b o := by
  unfold putAt at h
  by_cases h0 : p ≠ 0
  · rw [if_pos h0] at h
    simp only [Option.map_eq_some_iff] at h
    obtain ⟨⟨s1, x⟩, h1, rfl⟩ := h
    obtain ⟨m1, t1, i1⟩ := hf h0 s s1 x hm ht h1
    exact ⟨m1, put_shown P s1 p x t1 (hR h0 x i1)⟩
  · rw [if_neg h0] at h
    injection h with h
    subst h
    exact ⟨hm, ht⟩

section
variable {env : Nat → Ty} {mem : Addr → Nat} {P : Addr → Out → Prop} {kt et : Ty} {m : MapEnc} {L : Addr → Prop}
variable (hk : Faithful env mem P kt (encode m.key)) (he : Faithful env mem P et (encode m.elem))
  (wk : Words env kt m.keySize) (we : Words env et m.elemSize)
  (hL : ∀ b, L b → b ≠ 0 → L (mem (linkOf m.keySize m.elemSize b)))
  (hB : ∀ b o, L b → b ≠ 0 → IsBucket env mem kt et b o → P b o)
include hk he wk we hL hB

theorem bucket_holds : ∀ fuel a, L (mem (linkOf m.keySize m.elemSize a)) →
    Holds mem P (IsBucket env mem kt et a) (fun s => encodeBucket m fuel s a) := by
  intro fuel
  induction fuel with
  | zero => intro a _ s s' o _ _ h; cases h
  | succ n ih =>
    intro a hl s s' o hm ht h
    simp only [encodeBucket, Option.bind_eq_bind, Option.bind_eq_some_iff] at h
    obtain ⟨top, htop, ⟨s1, keys⟩, h1, ⟨s2, elems⟩, h2, over, hover, h⟩ := h
    obtain ⟨m1, t1, i1⟩ := elems_faithful env mem P kt _ _ wk hk 8 s (a + 1) s1 keys hm ht h1
    obtain ⟨m2, t2, i2⟩ := elems_faithful env mem P et _ _ we he 8 s1 _ s2 elems m1 t1 h2
    have e1 : top = mem a := by rw [read_eq htop, hm]
    have e2 : over = mem (linkOf m.keySize m.elemSize a) := by
      rw [read_eq hover, m2]
      rw [link_at]
    have hb : IsBucket env mem kt et a (.both (tophash top) (.both keys (.both elems (.ref over)))) :=
      ⟨m.keySize, m.elemSize, tophash top, keys, elems, wk, we, e1 ▸ tophash_bytes _, i1, i2, by rw [e2]⟩
    by_cases h0 : over ≠ 0
    · rw [if_pos h0] at h
      simp only [Option.bind_eq_some_iff] at h
      obtain ⟨⟨s3, nx⟩, h3, h⟩ := h
      simp only [Option.some.injEq, Prod.mk.injEq] at h
      obtain ⟨rfl, rfl⟩ := h
      rw [← e2] at hl
      obtain ⟨m3, t3, i3⟩ := ih over (hL over hl h0) s2 s3 nx m2 t2 h3
      exact ⟨m3, put_shown P s3 over nx t3 (hB _ _ hl h0 i3), hb⟩
    · rw [if_neg h0] at h
      simp only [Option.some.injEq, Prod.mk.injEq] at h
      obtain ⟨rfl, rfl⟩ := h
      exact ⟨m2, t2, hb⟩

theorem buckets_hold (fuel : Nat) : ∀ (n : Nat) (a : Nat),
    (∀ i, i < n → L (mem (linkOf m.keySize m.elemSize (a + i * (2 + 8 * m.keySize + 8 * m.elemSize))))) →
    Holds mem P (AreBuckets env mem kt et n a) (fun s => encodeBuckets m fuel n a s) := by
  intro n
  induction n with
  | zero =>
    intro a _ s s' o hm ht h
    simp only [encodeBuckets, encodeElems, Option.some.injEq, Prod.mk.injEq] at h
    obtain ⟨rfl, rfl⟩ := h
    exact ⟨hm, ht, .nil a⟩
  | succ n ih =>
    intro a hl s s' o hm ht h
    simp only [encodeBuckets, encodeElems, Option.bind_eq_bind, Option.bind_eq_some_iff] at h
    obtain ⟨⟨s1, x⟩, h1, ⟨s2, y⟩, h2, h⟩ := h
    simp only [Option.some.injEq, Prod.mk.injEq] at h
    obtain ⟨rfl, rfl⟩ := h
    obtain ⟨m1, t1, i1⟩ := bucket_holds hk he wk we hL hB fuel a (by simpa using hl 0 (by omega)) s s1 x hm ht h1
    obtain ⟨m2, t2, i2⟩ := ih (a + m.bucketSize) (fun i hi => by
      have := hl (i + 1) (by omega)
      have e : a + (i + 1) * (2 + 8 * m.keySize + 8 * m.elemSize) =
          a + m.bucketSize + i * (2 + 8 * m.keySize + 8 * m.elemSize) := by
        rw [Nat.add_mul]; simp only [MapEnc.bucketSize]; omega
      rwa [e] at this) s1 s2 y m1 t1 h2
    refine ⟨m2, t2, .cons i1 wk we ?_⟩
    rw [link_next]; exact i2

theorem ptrArray_holds (fuel : Nat) : ∀ (n : Nat) (a : Nat), (∀ j, j < n → L (mem (a + j))) →
    Holds mem P (ArePtrs mem n a) (fun s => encodePtrArray m fuel n a s) := by
  intro n
  induction n with
  | zero =>
    intro a _ s s' o hm ht h
    simp only [encodePtrArray, Option.some.injEq, Prod.mk.injEq] at h
    obtain ⟨rfl, rfl⟩ := h
    exact ⟨hm, ht, .nil a⟩
  | succ n ih =>
    intro a hl s s' o hm ht h
    simp only [encodePtrArray, Option.bind_eq_bind, Option.bind_eq_some_iff] at h
    obtain ⟨p, hp, s1, h1, ⟨s2, y⟩, h2, h⟩ := h
    simp only [Option.some.injEq, Prod.mk.injEq] at h
    obtain ⟨rfl, rfl⟩ := h
    have e1 : p = mem a := by rw [read_eq hp, hm]
    have hp : L p := e1 ▸ hl 0 (by omega)
    have hs := putAt_holds hm ht (fun h0 => bucket_holds hk he wk we hL hB fuel p (hL p hp h0))
      (fun h0 o ho => hB p o hp h0 ho) h1
    obtain ⟨m2, t2, i2⟩ := ih (a + 1) (fun j hj => by
      have := hl (j + 1) (by omega)
      rwa [show a + (j + 1) = a + 1 + j by omega] at this) s1 s2 y hs.1 hs.2 h2
    exact ⟨m2, t2, e1 ▸ .cons i2⟩

theorem ptrSlice_holds (fuel : Nat) (a : Addr) (hl : ∀ j, j < mem (a + 1) → L (mem (mem a + j)))
    (hA : ∀ o, ArePtrs mem (mem (a + 1)) (mem a) o → P (mem a) o) :
    Holds mem P (fun o => o = .sliceHeader (mem a) (mem (a + 1)) (mem (a + 2))) (fun s => encodePtrSlice m fuel s a) := by
  intro s s' o hm ht h
  simp only [encodePtrSlice, Option.bind_eq_bind, Option.bind_eq_some_iff] at h
  obtain ⟨data, hdata, len, hlen, cap, hcap, ⟨s1, x⟩, h1, h⟩ := h
  simp only [Option.some.injEq, Prod.mk.injEq] at h
  obtain ⟨rfl, rfl⟩ := h
  have e1 : data = mem a := by rw [read_eq hdata, hm]
  have e2 : len = mem (a + 1) := by rw [read_eq hlen, hm]
  have e3 : cap = mem (a + 2) := by rw [read_eq hcap, hm]
  subst e1 e2 e3
  obtain ⟨m1, t1, i1⟩ := ptrArray_holds hk he wk we hL hB fuel _ _ hl s s1 x hm ht h1
  refine ⟨?_, ?_, rfl⟩
  · split <;> exact m1
  · split
    · exact put_shown P s1 _ x t1 (hA x i1)
    · exact t1
end

theorem header_isHeader (mem : Addr → Nat) (h : Addr) : IsHeader mem h (.both (.num (mem h)) (.both (.num (mem (h + 1) % 256))
    (.both (.num (mem (h + 1) / 256 % 256)) (.both (.num (mem (h + 1) / 65536 % 65536))
    (.both (.num (mem (h + 1) / 4294967296 % 4294967296)) (.both (.ref (mem (h + 2))) (.both (.ref (mem (h + 3)))
    (.both (.num (mem (h + 4))) (.ref (mem (h + 5))))))))))) :=
  ⟨_, _, _, _, by omega, by omega, by omega, by omega, rfl⟩

theorem map_holds {env : Nat → Ty} {mem : Addr → Nat} {P : Addr → Out → Prop} {kt et : Ty} {m : MapEnc}
    (hk : Faithful env mem P kt (encode m.key)) (he : Faithful env mem P et (encode m.elem))
    (wk : Words env kt m.keySize) (we : Words env et m.elemSize) (fuel : Nat) (a : Addr)
    (hP : ∀ b o, OfMap env mem kt et a b o → P b o) : Holds mem P (IsHeader mem a) (fun s => encodeMap m fuel s a) := by
  have hL : ∀ b, Linked mem m.keySize m.elemSize a b → b ≠ 0 →
      Linked mem m.keySize m.elemSize a (mem (linkOf m.keySize m.elemSize b)) := fun b h h0 => .next h h0
  have hB : ∀ b o, Linked mem m.keySize m.elemSize a b → b ≠ 0 → IsBucket env mem kt et b o → P b o :=
    fun b o hl h0 h => hP _ _ (.bucket wk we hl h0 h)
  intro s s' o hm ht h
  simp only [encodeMap, Option.bind_eq_bind, Option.bind_eq_some_iff] at h
  obtain ⟨count, e1, w, e2, buckets, e3, oldbuckets, e4, nevacuate, e5, extra, e6, s1, h1, s2, h2, s3, h3, h⟩ := h
  simp only [Option.some.injEq, Prod.mk.injEq] at h
  obtain ⟨rfl, rfl⟩ := h
  have e1 := (read_eq e1).trans (congrFun hm _)
  have e2 := (read_eq e2).trans (congrFun hm _)
  have e3 := (read_eq e3).trans (congrFun hm _)
  have e4 := (read_eq e4).trans (congrFun hm _)
  have e5 := (read_eq e5).trans (congrFun hm _)
  have e6 := (read_eq e6).trans (congrFun hm _)
  subst e1 e2 e3 e4 e5 e6
  obtain ⟨m1, t1⟩ := putAt_holds hm ht
    (fun h0 => buckets_hold hk he wk we hL hB fuel _ _ (fun i hi => .inBuckets i h0 hi)) (fun _ _ ho => hP _ _ (.buckets ho)) h1
  obtain ⟨m2, t2⟩ := putAt_holds m1 t1
    (fun h0 => buckets_hold hk he wk we hL hB fuel _ _ (fun i hi => .inOld i h0 hi)) (fun h0 _ ho => hP _ _ (.oldbuckets h0 ho)) h2
  obtain ⟨m3, t3⟩ := putAt_holds (R := fun o => o = .both (.ref (mem (mem (a + 5)))) (.both (.ref (mem (mem (a + 5) + 1)))
      (.ref (mem (mem (a + 5) + 2))))) m2 t2 (fun h0 => by
    intro t t' x hm2 ht2 hx
    simp only [encodeExtra, Option.bind_eq_bind, Option.bind_eq_some_iff] at hx
    obtain ⟨ov, f1, old, f2, nx, f3, sa, g1, sb, g2, sc, g3, hx⟩ := hx
    simp only [Option.some.injEq, Prod.mk.injEq] at hx
    obtain ⟨rfl, rfl⟩ := hx
    have f1 := (read_eq f1).trans (congrFun hm2 _)
    have f2 := (read_eq f2).trans (congrFun hm2 _)
    have f3 := (read_eq f3).trans (congrFun hm2 _)
    subst f1 f2 f3
    obtain ⟨ma, ta⟩ := putAt_holds hm2 ht2
      (fun hz => ptrSlice_holds hk he wk we hL hB fuel _ (fun j hj => .listed 0 j h0 (by omega) hz hj)
        (fun o ho => hP _ _ (.ptrs 0 (by omega) h0 hz ho)))
      (fun hz _ ho => ho ▸ hP _ _ (.list 0 (by omega) h0 hz)) g1
    obtain ⟨mb, tb⟩ := putAt_holds ma ta
      (fun hz => ptrSlice_holds hk he wk we hL hB fuel _ (fun j hj => .listed 1 j h0 (by omega) hz hj)
        (fun o ho => hP _ _ (.ptrs 1 (by omega) h0 hz ho)))
      (fun hz _ ho => ho ▸ hP _ _ (.list 1 (by omega) h0 hz)) g2
    obtain ⟨mc, tc⟩ := putAt_holds mb tb
      (fun hz => bucket_holds hk he wk we hL hB fuel _ (.next (.free h0) hz))
      (fun hz o ho => hB _ _ (.free h0) hz ho) g3
    exact ⟨mc, tc, rfl⟩) (fun h0 o ho => ho ▸ hP _ _ (.extra h0)) h3
  exact ⟨m3, t3, header_isHeader mem a⟩

end Verif.Dump
