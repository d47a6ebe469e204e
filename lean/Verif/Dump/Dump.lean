import Verif.Basic

/-!
# C61: memory dumps

Model of the dump package: the table from addresses to what is found there.  Maps (dump/map.go) are in Verif/Dump/Map.lean.  The
package is read as it is meant to be: at the pinned commit it passes `reflect.Type` where msgfmt/jsonfmt takes its own
types.
-/

namespace Verif.Dump

/-! ### Model -/

/-- An address; memory is counted in words. -/
abbrev Addr := Nat

/-- A Go type as far as dump/dumpvar.go 52-72 looks at it; named types are numbered, so that a type can refer to itself. -/
inductive Ty
  | int
  | str
  | ptr (elem : Ty)
  | slice (elem : Ty)
  | pair (first second : Ty)
  | named (n : Nat)

/-- An encoder: the ones made at dump/dumpvar.go 57-67, and those of jsonfmt for integers, structs (msgfmt/jsonfmt/encoder.go
216-240) and pointer-like values in interfaces (208-214).  A struct is made of pairs; `offset` is where the second part is. -/
inductive Enc
  | int
  | str
  | ptr (elem : Enc)
  | slice (elem : Enc) (elemSize : Nat)
  | pair (first second : Enc) (offset : Nat)
  | onePtr (e : Enc)

/-- The size of a type in words: `valType.Elem().Size()`, dump/dumpvar.go 66. -/
def size (env : Nat → Ty) : Nat → Ty → Nat
  | 0, _ => 0
  | _ + 1, .int => 1
  | _ + 1, .str => 2
  | _ + 1, .ptr _ => 1
  | _ + 1, .slice _ => 3
  | fuel + 1, .pair a b => size env fuel a + size env fuel b
  | fuel + 1, .named n => size env fuel (env n)

/-- `LikePtr`, reflect2/reflect2.go 246-271, for the types here: structs of pairs have two fields. -/
def likePtr (env : Nat → Ty) : Nat → Ty → Bool
  | 0, _ => false
  | _ + 1, .ptr _ => true
  | fuel + 1, .named n => likePtr env fuel (env n)
  | _ + 1, _ => false

mutual
/-- `dumper.EncoderOf`, msgfmt/jsonfmt/encoder.go 65-77, called from the extension, dump/dumpvar.go 52-72.  `none` when the
call depth `fuel` is not enough.  The cache is filled after building only, so that it plays no role within one call. -/
def encoderOf (env : Nat → Ty) : Nat → Ty → Option Enc
  | 0, _ => none
  | fuel + 1, t => do
    let e ← fieldEncoderOf env fuel t
    some (if likePtr env fuel t then .onePtr e else e)
/-- `encoderOf`, msgfmt/jsonfmt/encoder.go 103-176, with the extension of dump/dumpvar.go 52-72. -/
def fieldEncoderOf (env : Nat → Ty) : Nat → Ty → Option Enc
  | 0, _ => none
  | _ + 1, .int => some .int
  | _ + 1, .str => some .str
  | fuel + 1, .ptr t => (encoderOf env fuel t).map .ptr
  | fuel + 1, .slice t => (encoderOf env fuel t).map fun e => .slice e (size env fuel t)
  | fuel + 1, .pair a b => do
    let x ← fieldEncoderOf env fuel a
    let y ← fieldEncoderOf env fuel b
    some (.pair x y (size env fuel a))
  | fuel + 1, .named n => fieldEncoderOf env fuel (env n)
end

/-- What is written for a value: a number, the text of a string, a reference `{"__ptr__":…}`, dump/pointer.go 15-18, the
header of a string, dump/str.go 23-28, or of a slice, dump/slice.go 23-30, and sequences of these. -/
inductive Out
  | num (n : Nat)
  | text (words : List Nat)
  | ref (a : Addr)
  | strHeader (data : Addr) (len : Nat)
  | sliceHeader (data : Addr) (len cap : Nat)
  | nothing
  | both (x y : Out)

/-- Memory, the next free address (`&ptr` escapes to the heap, msgfmt/jsonfmt/encoder.go 213), and the table, dump/dumpvar.go
26. -/
structure St where
  mem : Addr → Nat
  next : Addr
  table : List (Addr × Out)

/-- Reading memory, which panics at nil, as at dump/pointer.go 19. -/
def read (s : St) (a : Addr) : Option Nat := if a = 0 then none else some (s.mem a)

/-- `addrMap[ptrStr] = …`, dump/pointer.go 21, dump/slice.go 34 and dump/str.go 32. -/
def St.put (s : St) (a : Addr) (o : Out) : St :=
  { s with table := (a, o) :: s.table.filter (fun e => e.1 ≠ a) }

/-- The loop of `encodeData`, dump/slice.go 43-49. -/
def encodeElems (enc : St → Addr → Option (St × Out)) (elemSize : Nat) : Nat → Addr → St → Option (St × Out)
  | 0, _, s => some (s, .nothing)
  | n + 1, a, s => do
    let (s, x) ← enc s a
    let (s, y) ← encodeElems enc elemSize n (a + elemSize) s
    some (s, .both x y)

/-- `Encode` of the encoders: of pointers, dump/pointer.go 14-23, slices, dump/slice.go 21-52, strings, dump/str.go 21-35,
integers and structs, msgfmt/jsonfmt/encoder_stuct.go 19-28, and `onePtrInterfaceEncoder`, msgfmt/jsonfmt/encoder.go
212-214.  `none` is a panic.  The text of a string is its words. -/
def encode : Enc → St → Addr → Option (St × Out)
  | .int, s, a => do
    let n ← read s a
    some (s, .num n)
  | .str, s, a => do
    let data ← read s a
    let len ← read s (a + 1)
    let text := Out.text ((List.range len).map fun i => s.mem (data + i))
    some (if data ≠ 0 then s.put data text else s, .strHeader data len)
  | .ptr e, s, a => do
    let p ← read s a
    let (s, elem) ← encode e s p
    some (s.put a elem, .ref a)
  | .slice e elemSize, s, a => do
    let data ← read s a
    let len ← read s (a + 1)
    let cap ← read s (a + 2)
    let (s, elems) ← encodeElems (encode e) elemSize len data s
    some (if data ≠ 0 then s.put data elems else s, .sliceHeader data len cap)
  | .pair x y offset, s, a => do
    let (s, u) ← encode x s a
    let (s, v) ← encode y s (a + offset)
    some (s, .both u v)
  | .onePtr e, s, a =>
    let p := s.next
    encode e { s with mem := fun x => if x = p then a else s.mem x, next := p + 1 } p

/-- `efaceEncoder.Encode`, dump/eface.go 20-35; the name of the type is left out. -/
def encodeEface (env : Nat → Ty) (fuel : Nat) (t : Ty) (data : Addr) (s : St) : Option (St × Out) := do
  let e ← encoderOf env fuel t
  let (s, elem) ← encode e s data
  some (s.put data elem, .ref data)

/-- `Var.String`, dump/dumpvar.go 25-33: the root and the table. -/
def dump (env : Nat → Ty) (fuel : Nat) (t : Ty) (data : Addr) (mem : Addr → Nat) (next : Addr) :
    Option (Out × List (Addr × Out)) :=
  (encodeEface env fuel t data ⟨mem, next, []⟩).map fun (s, root) => (root, s.table)

/-! ### Specification -/

/-- The references in what is written. -/
def refs : Out → List Addr
  | .num _ => []
  | .text _ => []
  | .ref a => [a]
  | .strHeader data _ => [data]
  | .sliceHeader data _ _ => [data]
  | .nothing => []
  | .both x y => refs x ++ refs y

/-- A dump is complete: every reference but nil has an entry. -/
def Complete (root : Out) (table : List (Addr × Out)) : Prop :=
  (∀ a ∈ refs root, a = 0 ∨ ∃ o, (a, o) ∈ table) ∧
  ∀ b o, (b, o) ∈ table → ∀ a ∈ refs o, a = 0 ∨ ∃ o', (a, o') ∈ table

/-! ### Proofs -/

/-- An address in the table. -/
def Has (s : St) (a : Addr) : Prop := a = 0 ∨ ∃ o, (a, o) ∈ s.table

/-- Every reference in the table has an entry. -/
def Closed (s : St) : Prop := ∀ b o, (b, o) ∈ s.table → ∀ a ∈ refs o, Has s a

theorem has_put (s : St) (b a : Addr) (o : Out) (h : Has s a) : Has (s.put b o) a := by
  rcases h with h | ⟨x, h⟩
  · exact .inl h
  · right
    by_cases hb : a = b
    · exact ⟨o, by subst hb; simp [St.put]⟩
    · exact ⟨x, by simp [St.put, h, hb]⟩

theorem has_put_self (s : St) (b : Addr) (o : Out) : Has (s.put b o) b := .inr ⟨o, by simp [St.put]⟩

theorem closed_put (s : St) (b : Addr) (o : Out) (hc : Closed s) (ho : ∀ a ∈ refs o, Has s a) : Closed (s.put b o) := by
  intro c x hx a ha
  simp only [St.put, List.mem_cons, List.mem_filter] at hx
  rcases hx with hx | ⟨hx, _⟩
  · injection hx with h1 h2
    subst h2
    exact has_put s b a x (ho a ha)
  · exact has_put s b a o (hc c x hx a ha)

/-- What encoding guarantees. -/
def Good (enc : St → Addr → Option (St × Out)) : Prop :=
  ∀ s a s' o, Closed s → enc s a = some (s', o) → Closed s' ∧ (∀ b, Has s b → Has s' b) ∧ ∀ b ∈ refs o, Has s' b

theorem elems_good (enc : St → Addr → Option (St × Out)) (hg : Good enc) (k n : Nat) :
    Good (fun s a => encodeElems enc k n a s) := by
  induction n with
  | zero =>
    intro s a s' o hc h
    simp only [encodeElems, Option.some.injEq, Prod.mk.injEq] at h
    obtain ⟨rfl, rfl⟩ := h
    exact ⟨hc, fun _ h => h, by simp [refs]⟩
  | succ n ih =>
    intro s a s' o hc h
    simp only [encodeElems, Option.bind_eq_bind, Option.bind_eq_some_iff] at h
    obtain ⟨⟨s1, x⟩, h1, ⟨s2, y⟩, h2, h⟩ := h
    simp only [Option.some.injEq, Prod.mk.injEq] at h
    obtain ⟨rfl, rfl⟩ := h
    obtain ⟨g1, g2, g3⟩ := hg s a s1 x hc h1
    obtain ⟨i1, i2, i3⟩ := ih s1 (a + k) s2 y g1 h2
    refine ⟨i1, fun b hb => i2 b (g2 b hb), ?_⟩
    intro b hb
    simp only [refs, List.mem_append] at hb
    rcases hb with hb | hb
    · exact i2 b (g3 b hb)
    · exact i3 b hb

theorem encode_good (e : Enc) : Good (encode e) := by
  induction e with
  | int =>
    intro s a s' o hc h
    simp only [encode, Option.bind_eq_bind, Option.bind_eq_some_iff] at h
    obtain ⟨n, _, h⟩ := h
    simp only [Option.some.injEq, Prod.mk.injEq] at h
    obtain ⟨rfl, rfl⟩ := h
    exact ⟨hc, fun _ h => h, by simp [refs]⟩
  | str =>
    intro s a s' o hc h
    simp only [encode, Option.bind_eq_bind, Option.bind_eq_some_iff] at h
    obtain ⟨data, _, len, _, h⟩ := h
    simp only [Option.some.injEq, Prod.mk.injEq] at h
    obtain ⟨rfl, rfl⟩ := h
    split
    · refine ⟨closed_put s data _ hc (by simp [refs]), fun b hb => has_put s data b _ hb, ?_⟩
      intro b hb
      simp only [refs, List.mem_singleton] at hb
      subst hb; exact has_put_self s b _
    · rename_i h0
      refine ⟨hc, fun _ h => h, ?_⟩
      intro b hb
      simp only [refs, List.mem_singleton] at hb
      subst hb
      exact .inl (by simpa using h0)
  | ptr e ih =>
    intro s a s' o hc h
    simp only [encode, Option.bind_eq_bind, Option.bind_eq_some_iff] at h
    obtain ⟨p, _, ⟨s1, x⟩, h1, h⟩ := h
    simp only [Option.some.injEq, Prod.mk.injEq] at h
    obtain ⟨rfl, rfl⟩ := h
    obtain ⟨g1, g2, g3⟩ := ih s p s1 x hc h1
    refine ⟨closed_put s1 a x g1 g3, fun b hb => has_put s1 a b x (g2 b hb), ?_⟩
    intro b hb
    simp only [refs, List.mem_singleton] at hb
    subst hb; exact has_put_self s1 b x
  | slice e k ih =>
    intro s a s' o hc h
    simp only [encode, Option.bind_eq_bind, Option.bind_eq_some_iff] at h
    obtain ⟨data, _, len, _, cap, _, ⟨s1, x⟩, h1, h⟩ := h
    simp only [Option.some.injEq, Prod.mk.injEq] at h
    obtain ⟨rfl, rfl⟩ := h
    obtain ⟨g1, g2, g3⟩ := elems_good _ ih k len s data s1 x hc h1
    split
    · refine ⟨closed_put s1 data x g1 g3, fun b hb => has_put s1 data b x (g2 b hb), ?_⟩
      intro b hb
      simp only [refs, List.mem_singleton] at hb
      subst hb; exact has_put_self s1 b x
    · rename_i h0
      refine ⟨g1, g2, ?_⟩
      intro b hb
      simp only [refs, List.mem_singleton] at hb
      subst hb
      exact .inl (by simpa using h0)
  | pair x y k ihx ihy =>
    intro s a s' o hc h
    simp only [encode, Option.bind_eq_bind, Option.bind_eq_some_iff] at h
    obtain ⟨⟨s1, u⟩, h1, ⟨s2, v⟩, h2, h⟩ := h
    simp only [Option.some.injEq, Prod.mk.injEq] at h
    obtain ⟨rfl, rfl⟩ := h
    obtain ⟨g1, g2, g3⟩ := ihx s a s1 u hc h1
    obtain ⟨i1, i2, i3⟩ := ihy s1 (a + k) s2 v g1 h2
    refine ⟨i1, fun b hb => i2 b (g2 b hb), ?_⟩
    intro b hb
    simp only [refs, List.mem_append] at hb
    rcases hb with hb | hb
    · exact i2 b (g3 b hb)
    · exact i3 b hb
  | onePtr e ih =>
    intro s a s' o hc h
    simp only [encode] at h
    exact ih { s with mem := fun x => if x = s.next then a else s.mem x, next := s.next + 1 } s.next s' o
      (fun b x hb c hcx => hc b x hb c hcx) h

/-- C61 (partly): in a dump that comes to an end without a panic, every reference but nil has an entry in the table, whatever
the types and the memory. -/
theorem complete_partial (env : Nat → Ty) (fuel : Nat) (t : Ty) (data : Addr) (mem : Addr → Nat) (next : Addr) (root : Out)
    (table : List (Addr × Out)) (h : dump env fuel t data mem next = some (root, table)) : Complete root table := by
  simp only [dump, Option.map_eq_some_iff] at h
  obtain ⟨⟨s', o⟩, h, h'⟩ := h
  simp only [Prod.mk.injEq] at h'
  obtain ⟨rfl, rfl⟩ := h'
  simp only [encodeEface, Option.bind_eq_bind, Option.bind_eq_some_iff] at h
  obtain ⟨e, _, ⟨s1, x⟩, h1, h⟩ := h
  simp only [Option.some.injEq, Prod.mk.injEq] at h
  obtain ⟨rfl, rfl⟩ := h
  obtain ⟨g1, g2, g3⟩ := encode_good e _ data s1 x (fun b o hb => by cases hb) h1
  refine ⟨?_, closed_put s1 data x g1 g3⟩
  intro a ha
  simp only [refs, List.mem_singleton] at ha
  subst ha; exact has_put_self s1 a x

/-! ### What is not so -/

/-- `type node struct { value int; next *node }` as named type 0. -/
def nodeEnv : Nat → Ty := fun _ => .pair .int (.ptr (.named 0))

theorem node_none (fuel : Nat) : encoderOf nodeEnv fuel (.named 0) = none ∧ fieldEncoderOf nodeEnv fuel (.named 0) = none ∧
    fieldEncoderOf nodeEnv fuel (.pair .int (.ptr (.named 0))) = none ∧
    fieldEncoderOf nodeEnv fuel (.ptr (.named 0)) = none := by
  induction fuel with
  | zero => simp [encoderOf, fieldEncoderOf]
  | succ n ih =>
    refine ⟨?_, ?_, ?_, ?_⟩
    · simp [encoderOf, ih.2.1]
    · simp only [fieldEncoderOf]; exact ih.2.2.1
    · simp [fieldEncoderOf, ih.2.2.2]
    · simp [fieldEncoderOf, ih.1]

/-- The full statement of C61 is false: a value of a type that refers to itself, be it cyclic or not, is never dumped; no call
depth is enough to build the encoder. -/
theorem recursive_type_never_ends (fuel : Nat) (data : Addr) (mem : Addr → Nat) (next : Addr) :
    dump nodeEnv fuel (.named 0) data mem next = none := by
  simp [dump, encodeEface, (node_none fuel).1]

/-- A reference to nil has no entry: a nil slice in an interface. -/
theorem nil_has_no_entry (next : Addr) :
    dump (fun _ => .int) 5 (.slice .int) 1 (fun _ => 0) next = some (.ref 1, [(1, .sliceHeader 0 0 0)]) := rfl

/-- A nil pointer is a panic. -/
theorem nil_pointer_panics (next : Addr) (hn : next ≠ 0) :
    encode (.onePtr (.ptr .int)) ⟨fun _ => 0, next, []⟩ 0 = none := by
  simp [encode, read, hn]

/-- A pointer to a pointer is followed once only: the number shown is the address of the integer 5, which is not in the dump. -/
theorem pointer_to_pointer :
    (dump (fun _ => .int) 9 (.ptr (.ptr .int)) 1 (fun a => if a = 1 then 2 else if a = 2 then 5 else 0) 100).map
      (fun d => d.2.map Prod.snd) = some [.ref 100, .ref 101, .num 2] := rfl

end Verif.Dump
