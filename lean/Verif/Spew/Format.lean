import Verif.Spew.Text

/-!
# go-spew: the formatter behind `spew.Printf("%v")`

Models /repo/test/go-spew/spew/format.go 89-398.  Values, configuration and heap are those of `Sdump`
(`Verif.Spew.Dump`), as are `handleMethods` and the printers of common.go.  The model takes fuel for the
same reason.
-/

namespace Verif.Spew

/-- The flags of `%+v` and `%#v` that format.go 107, 172, 216 and 341 ask for. -/
structure Flags where
  plus : Bool
  sharp : Bool

/-- `unpackValue`, format.go 94-102, on the state: behind an interface the type is shown. -/
def showBehind (s : St) : Val → St
  | .iface _ _ | .nilIface _ => { s with noType := false }
  | _ => s

/-- `strings.Count(ve.Type().String(), "*")`, format.go 164. -/
def starCount (ty : Bytes) : Nat := ty.count 42

/-- `formatPtr`, format.go 105-195; `f` is `f.format`. -/
def formatPtr (E : Env) (F : Flags) (f : St → Val → Option St) (fuel : Nat) (s : St) (ty : Bytes) (a : Nat) : Option St :=
  if a = 0 ∧ (F.sharp = false ∨ s.noType = true) then some (s.write (asc "<nil>"))
  else match chase E s.depth fuel (prune s.depth s.ptrs) [] 0 (.ptr ty a) with
    | none => none
    | some c =>
      let s := { s with ptrs := c.ptrs }
      let s := if F.sharp = true ∧ s.noType = false then
          s.write (asc "(" ++ rep (asc "*") c.indirects ++ typeName c.last ++ asc ")")
        else
          s.write (asc "<" ++ rep (asc "*") (if c.stop = .value then c.indirects else c.indirects + starCount (typeName c.last)) ++ asc ">")
      let s := if F.plus = true ∧ c.chain ≠ [] then s.write (asc "(" ++ chainText c.chain ++ asc ")") else s
      match c.stop with
      | .nil => some (s.write (asc "<nil>"))
      | .cycle => some (s.write (asc "<shown>"))
      | .value => f { s with noType := true } c.last

/-- The blank between parts, format.go 274-276, 315-317 and 337-339. -/
def gap (first : Bool) (s : St) : St := if first then s else s.write (asc " ")

/-- One element, key or value without its type, format.go 277-278, 318-319 and 321-322. -/
def formatBare (f : St → Val → Option St) (s : St) (v : Val) : Option St :=
  f (showBehind { s with noType := true } v) (unpack v)

/-- The elements of a slice or array, format.go 273-279; `first` tells `i = 0`. -/
def formatElems (f : St → Val → Option St) : Bool → St → List Val → Option St
  | _, s, [] => some s
  | first, s, v :: vs => (formatBare f (gap first s) v).bind fun s => formatElems f false s vs

/-- The entries of a map, format.go 314-323. -/
def formatEntries (f : St → Val → Option St) : Bool → St → List (Val × Val) → Option St
  | _, s, [] => some s
  | first, s, (k, v) :: kvs => (formatBare f (gap first s) k).bind fun s =>
    (formatBare f (s.write (asc ":")) v).bind fun s => formatEntries f false s kvs

/-- The fields of a struct, format.go 336-346. -/
def formatFields (F : Flags) (f : St → Val → Option St) : Bool → St → List (Bytes × Val) → Option St
  | _, s, [] => some s
  | first, s, (name, v) :: fvs =>
    let s := gap first s
    let s := if F.plus = true ∨ F.sharp = true then s.write (name ++ asc ":") else s
    (f (showBehind s v) (unpack v)).bind fun s => formatFields F f false s fvs

/-- The elements of a slice or array of bytes, format.go 273-279 with 244-245.  Simplification: a byte has
no `Error` or `String` method. -/
def byteTexts : Bool → Bytes → Bytes
  | _, [] => []
  | first, b :: bs => (if first then [] else asc " ") ++ Difflib.decimal b.toNat ++ byteTexts false bs

/-- The brackets around the parts, format.go 267-282, 305-326 and 330-349: one level deeper, unless that
is too deep. -/
def formatBlock (E : Env) (before after : Bytes) (body : St → Option St) (s : St) : Option St :=
  let s := s.write before
  let s := { s with depth := s.depth + 1 }
  (if E.maxDepth ≠ 0 ∧ (s.depth : Int) > E.maxDepth then some (s.write (asc "<max>")) else body s).map
    fun s => { s with depth := s.depth - 1 }.write after

/-- The switch over the kinds, format.go 233-366. -/
def formatKind (E : Env) (F : Flags) (f : St → Val → Option St) (s : St) : Val → Option St
  | .invalid => some s
  | .bool _ b => some (s.write (if b then asc "true" else asc "false"))
  | .num _ t => some (s.write t)
  | .str _ t => some (s.write t)
  | .word _ n _ _ => some (s.write (hexText n))
  | .nilIface _ => some (s.write (asc "<nil>"))
  | .iface _ _ => some s
  | .ptr _ _ => some s
  | .slice _ a _ => if a = 0 then some (s.write (asc "<nil>"))
    else formatBlock E (asc "[") (asc "]") (fun s => formatElems f true s (E.elems a)) s
  | .blob _ isNil b _ => if isNil then some (s.write (asc "<nil>"))
    else formatBlock E (asc "[") (asc "]") (fun s => some (s.write (byteTexts true b))) s
  | .array _ vs => formatBlock E (asc "[") (asc "]") (fun s => formatElems f true s vs) s
  | .map _ a => if a = 0 then some (s.write (asc "<nil>"))
    else formatBlock E (asc "map[") (asc "]") (fun s => formatEntries f true s (E.entries a)) s
  | .struct _ fs => formatBlock E (asc "{") (asc "}") (fun s => formatFields F f true s fs) s

/-- `format` after the pointers are done, format.go 215-366. -/
def formatRest (E : Env) (F : Flags) (f : St → Val → Option St) (s : St) (v : Val) : Option St :=
  let s := if s.noType = false ∧ F.sharp = true then s.write (asc "(" ++ typeName v ++ asc ")") else s
  let s := { s with noType := false }
  let s := s.write (methText E v).1
  if (methText E v).2 then some s else formatKind E F f s v

/-- `format`, format.go 201-367; the number is fuel. -/
def format (E : Env) (F : Flags) : Nat → St → Val → Option St
  | 0, _, _ => none
  | n + 1, s, v => match v with
    | .invalid => some (s.write (asc "<invalid>"))
    | .ptr ty a => formatPtr E F (format E F n) n s ty a
    | v => formatRest E F (format E F n) s v

/-- `Format` for the verb `v`, format.go 381-389, on a formatter as made by `newFormatter` (394-398);
`none` for the argument is `nil`. -/
def formatV (E : Env) (F : Flags) (n : Nat) : Option Val → Option Bytes
  | none => some ((if F.sharp then asc "(interface {})" else []) ++ asc "<nil>")
  | some v => (format E F n St.init v).map St.out

/-! ## Specification: the one-line form -/

/-- Texts with blanks between them. -/
def blanks (ts : List Bytes) : Bytes := (asc " ").intercalate ts

/-- Whether the value lies in an interface. -/
def Behind : Val → Prop
  | .iface _ _ | .nilIface _ => True
  | _ => False

instance : DecidablePred Behind := fun v => by cases v <;> unfold Behind <;> infer_instance

/-- The type in front of a value, which `%#v` asks for and `bare` leaves out. -/
def typeMark (F : Flags) (bare : Bool) (ty : Bytes) : Bytes :=
  if F.sharp = true ∧ bare = false then asc "(" ++ ty ++ asc ")" else []

/-- What stands for the pointers of a chain: with `%#v` stars and type, otherwise only stars. -/
def ptrMark (F : Flags) (bare : Bool) (passed hidden : Nat) (ty : Bytes) : Bytes :=
  if F.sharp = true ∧ bare = false then asc "(" ++ rep (asc "*") passed ++ ty ++ asc ")"
  else asc "<" ++ rep (asc "*") (passed + hidden) ++ asc ">"

/-- The addresses, which `%+v` asks for. -/
def addrMark (F : Flags) (chain : List Nat) : Bytes :=
  if F.plus = true ∧ chain ≠ [] then asc "(" ++ (asc "->").intercalate (chain.map hexText) ++ asc ")" else []

/-- Values without parts. -/
inductive Simple : Val → Bytes → Prop where
  | bool {ty b} : Simple (.bool ty b) (if b then asc "true" else asc "false")
  | num {ty t} : Simple (.num ty t) t
  | str {ty t} : Simple (.str ty t) t
  | word {ty n l c} : Simple (.word ty n l c) (hexText n)
  | nilIface {ty} : Simple (.nilIface ty) (asc "<nil>")
  | iface {ty v} : Simple (.iface ty v) []
  | nilSlice {ty c} : Simple (.slice ty 0 c) (asc "<nil>")
  | nilMap {ty} : Simple (.map ty 0) (asc "<nil>")
  | nilBlob {ty s c} : Simple (.blob ty true s c) (asc "<nil>")

/-- The brackets of a value with parts. -/
def brackets : Val → Option (Bytes × Bytes)
  | .slice _ a _ => if a = 0 then none else some (asc "[", asc "]")
  | .blob _ isNil _ _ => if isNil then none else some (asc "[", asc "]")
  | .array _ _ => some (asc "[", asc "]")
  | .map _ a => if a = 0 then none else some (asc "map[", asc "]")
  | .struct _ _ => some (asc "{", asc "}")
  | _ => none

/-- The depth is one that is not shown. -/
def TooDeep (E : Env) (D : Nat) : Prop := E.maxDepth ≠ 0 ∧ (D : Int) > E.maxDepth

mutual
  /-- `Shows E F D bare K v t K'`: `t` is the one-line form of `v` at depth `D`, without its type if `bare`,
  where the targets of the addresses `K` stand further left; reading on, those of `K'` do. -/
  inductive Shows (E : Env) (F : Flags) : Nat → Bool → List Nat → Val → Bytes → List Nat → Prop where
    | invalid {D bare K} : Shows E F D bare K .invalid (asc "<invalid>") K
    | handled {D bare K v} : ¬IsPtr v → v ≠ .invalid → (methText E v).2 = true →
        Shows E F D bare K v (typeMark F bare (typeName v) ++ (methText E v).1) K
    | simple {D bare K v t} : (methText E v).2 = false → Simple v t →
        Shows E F D bare K v (typeMark F bare (typeName v) ++ (methText E v).1 ++ t) K
    | deep {D bare K v o c} : (methText E v).2 = false → brackets v = some (o, c) → TooDeep E (D + 1) →
        Shows E F D bare K v (typeMark F bare (typeName v) ++ (methText E v).1 ++ (o ++ asc "<max>" ++ c)) K
    | group {D bare K v o c ts K'} : (methText E v).2 = false → brackets v = some (o, c) → ¬TooDeep E (D + 1) →
        ShowsParts E F (D + 1) K v ts K' →
        Shows E F D bare K v (typeMark F bare (typeName v) ++ (methText E v).1 ++ (o ++ blanks ts ++ c)) K'
    /-- A pointer that is nil itself, where its type is not asked for. -/
    | bareNil {D bare K ty} : (F.sharp = false ∨ bare = true) → Shows E F D bare K (.ptr ty 0) (asc "<nil>") K
    | ptrNil {D bare K ty a chain w} : ¬(a = 0 ∧ (F.sharp = false ∨ bare = true)) → Leads E (.ptr ty a) chain w →
        ((∃ ty, w = .ptr ty 0) ∨ ∃ ty, w = .nilIface ty) →
        Shows E F D bare K (.ptr ty a)
          (ptrMark F bare chain.length (starCount (typeName w)) (typeName w) ++ addrMark F chain ++ asc "<nil>") (K ++ chain)
    | ptrShown {D bare K ty a chain ty' b} : Leads E (.ptr ty a) chain (.ptr ty' b) → b ≠ 0 → b ∈ K ++ chain →
        Shows E F D bare K (.ptr ty a)
          (ptrMark F bare chain.length (starCount ty') ty' ++ addrMark F (chain ++ [b]) ++ asc "<shown>") (K ++ chain)
    | ptr {D bare K ty a chain w t K'} : Leads E (.ptr ty a) chain w → ¬IsPtr w → (∀ ty, w ≠ .nilIface ty) →
        Shows E F D true (K ++ chain) w t K' →
        Shows E F D bare K (.ptr ty a) (ptrMark F bare chain.length 0 (typeName w) ++ addrMark F chain ++ t) K'
  /-- The parts of a value with the texts for them. -/
  inductive ShowsParts (E : Env) (F : Flags) : Nat → List Nat → Val → List Bytes → List Nat → Prop where
    | slice {D K ty a c ts K'} : ShowsElems E F D K (E.elems a) ts K' → ShowsParts E F D K (.slice ty a c) ts K'
    | array {D K ty vs ts K'} : ShowsElems E F D K vs ts K' → ShowsParts E F D K (.array ty vs) ts K'
    | blob {D K ty i b c} : ShowsParts E F D K (.blob ty i b c) (b.map fun x => Difflib.decimal x.toNat) K
    | map {D K ty a ts K'} : ShowsEntries E F D K (E.entries a) ts K' → ShowsParts E F D K (.map ty a) ts K'
    | struct {D K ty fs ts K'} : ShowsFields E F D K fs ts K' → ShowsParts E F D K (.struct ty fs) ts K'
  /-- Elements: the type is known from the slice, unless the element lies in an interface. -/
  inductive ShowsElems (E : Env) (F : Flags) : Nat → List Nat → List Val → List Bytes → List Nat → Prop where
    | nil {D K} : ShowsElems E F D K [] [] K
    | cons {D K v vs t ts K' K''} : Shows E F D (decide (¬Behind v)) K (unpack v) t K' → ShowsElems E F D K' vs ts K'' →
        ShowsElems E F D K (v :: vs) (t :: ts) K''
  /-- Entries of a map, likewise. -/
  inductive ShowsEntries (E : Env) (F : Flags) : Nat → List Nat → List (Val × Val) → List Bytes → List Nat → Prop where
    | nil {D K} : ShowsEntries E F D K [] [] K
    | cons {D K k v kvs s t ts K1 K2 K3} : Shows E F D (decide (¬Behind k)) K (unpack k) s K1 →
        Shows E F D (decide (¬Behind v)) K1 (unpack v) t K2 → ShowsEntries E F D K2 kvs ts K3 →
        ShowsEntries E F D K ((k, v) :: kvs) ((s ++ asc ":" ++ t) :: ts) K3
  /-- Fields: `%#v` shows the type of each. -/
  inductive ShowsFields (E : Env) (F : Flags) : Nat → List Nat → List (Bytes × Val) → List Bytes → List Nat → Prop where
    | nil {D K} : ShowsFields E F D K [] [] K
    | cons {D K name v fvs t ts K' K''} : Shows E F D false K (unpack v) t K' → ShowsFields E F D K' fvs ts K'' →
        ShowsFields E F D K ((name, v) :: fvs) (((if F.plus = true ∨ F.sharp = true then name ++ asc ":" else []) ++ t) :: ts) K''
end

/-- The elements of lists and the keys and values of maps, as they lie there. -/
def items (E : Env) : Val → List Val
  | .slice _ a _ => if a = 0 then [] else E.elems a
  | .array _ vs => vs
  | .map _ a => if a = 0 then [] else (E.entries a).flatMap fun kv => [kv.1, kv.2]
  | _ => []

/-- No list or map reached from `v` holds pointers, except behind interfaces, and nothing is invalid (the
value of a key that is not equal to itself would be). -/
def NoPtrItems (E : Env) (v : Val) : Prop := ∀ w, Reach E v w → w ≠ .invalid ∧ ∀ x ∈ items E w, ¬IsPtr x

/-! ## Proofs -/

/-- What formatting in state `s` did. -/
structure Formed (F : Flags) (K' : List Nat) (s r : St) (text : Bytes) : Prop where
  depth : r.depth = s.depth
  noType : F.sharp = true → r.noType = false
  out : r.out = s.out ++ text
  ptrs : ∀ a, r.ptrs a ≠ none → a ∈ K'

/-- `f` writes one-line forms. -/
def Forms (E : Env) (F : Flags) (f : St → Val → Option St) : Prop :=
  ∀ (s : St) (v : Val) (r : St) (K : List Nat) (bare : Bool), f s v = some r → (F.sharp = true → bare = s.noType) →
    (F.sharp = true → NoPtrItems E v ∧ (s.noType = true → ¬IsPtr v ∧ v ≠ .invalid)) →
    (∀ a, s.ptrs a ≠ none → a ∈ K) → ∃ t K', Shows E F s.depth bare K v t K' ∧ Formed F K' s r t

theorem NoPtrItems.part {E : Env} {v w : Val} (h : NoPtrItems E v) (hp : Part E w v) : NoPtrItems E w :=
  fun u hu => h u (Reach.trans (.part .refl hp) hu)

theorem Formed.then {F : Flags} {K1 K2 : List Nat} {s r t : St} {x y : Bytes} (h : Formed F K1 s r x) (k : Formed F K2 r t y) :
    Formed F K2 s t (x ++ y) where
  depth := k.depth.trans h.depth
  noType := k.noType
  out := by rw [k.out, h.out, List.append_assoc]
  ptrs := k.ptrs

theorem Formed.after {F : Flags} {K : List Nat} {s s' r : St} {x y : Bytes} (k : Formed F K s' r y)
    (hd : s'.depth = s.depth) (ho : s'.out = s.out ++ x) : Formed F K s r (x ++ y) where
  depth := k.depth.trans hd
  noType := k.noType
  out := by rw [k.out, ho, List.append_assoc]
  ptrs := k.ptrs

/-- The texts as the loops write them. -/
def gaps (first : Bool) (ts : List Bytes) : Bytes := if first then blanks ts else ts.flatMap (asc " " ++ ·)

theorem gaps_cons (first : Bool) (t : Bytes) (ts : List Bytes) :
    gaps first (t :: ts) = (if first then [] else asc " ") ++ t ++ gaps false ts := by
  have h : ∀ (us : List Bytes) (u : Bytes), blanks (u :: us) = u ++ us.flatMap (asc " " ++ ·) := by
    intro us
    induction us with
    | nil => intro u; simp [blanks]
    | cons w us ih =>
      intro u
      have := ih w
      simp only [blanks] at this ⊢
      rw [List.intercalate_cons_cons, this]
      simp
  cases first with
  | true => simp only [gaps, if_true]; rw [h]; simp
  | false => simp [gaps]

theorem gap_out (first : Bool) (s : St) : (gap first s).out = s.out ++ (if first then [] else asc " ") := by
  cases first <;> simp [gap, St.write]

theorem gap_depth (first : Bool) (s : St) : (gap first s).depth = s.depth := by cases first <;> rfl

theorem gap_ptrs (first : Bool) (s : St) : (gap first s).ptrs = s.ptrs := by cases first <;> rfl

theorem gap_noType (first : Bool) (s : St) : (gap first s).noType = s.noType := by cases first <;> rfl

theorem showBehind_fields (s : St) (v : Val) : (showBehind s v).out = s.out ∧ (showBehind s v).depth = s.depth ∧
    (showBehind s v).ptrs = s.ptrs := by cases v <;> exact ⟨rfl, rfl, rfl⟩

/-- What an interface holds is no interface: the condition under which an item is not a pointer after
opening. -/
theorem bare_formed {E : Env} {F : Flags} {f} (hf : Forms E F f) {v : Val} {s r : St} {K : List Nat} (h : formatBare f s v = some r)
    (hp : F.sharp = true → NoPtrItems E (unpack v) ∧ ¬IsPtr v ∧ v ≠ .invalid) (hK : ∀ a, s.ptrs a ≠ none → a ∈ K) :
    ∃ t K', Shows E F s.depth (decide (¬Behind v)) K (unpack v) t K' ∧ Formed F K' s r t := by
  obtain ⟨e1, e2, e3⟩ := showBehind_fields { s with noType := true } v
  have hb : (showBehind { s with noType := true } v).noType = decide (¬Behind v) := by
    cases v <;> simp [showBehind, Behind]
  obtain ⟨t, K', ht, hd⟩ := hf _ _ r K (decide (¬Behind v)) h (fun _ => hb.symm) (fun hs => ⟨(hp hs).1, fun hb' => by
    obtain ⟨-, h1, h2⟩ := hp hs
    cases v <;> first | exact ⟨h1, h2⟩ | (simp [showBehind] at hb')⟩) (by rw [e3]; exact hK)
  rw [e2] at ht
  exact ⟨t, K', ht, hd.depth.trans e2, hd.noType, by rw [hd.out, e1], hd.ptrs⟩

theorem elems_formed {E : Env} {F : Flags} {f} (hf : Forms E F f) : ∀ (vs : List Val) (first : Bool) (s r : St) (K : List Nat),
    formatElems f first s vs = some r → (F.sharp = true → ∀ v ∈ vs, NoPtrItems E (unpack v) ∧ ¬IsPtr v ∧ v ≠ .invalid) →
    (F.sharp = true → s.noType = false) → (∀ a, s.ptrs a ≠ none → a ∈ K) →
    ∃ ts K', ShowsElems E F s.depth K vs ts K' ∧ Formed F K' s r (gaps first ts) := by
  intro vs
  induction vs with
  | nil =>
    intro first s r K h _ h1 hK
    cases h
    refine ⟨[], K, .nil, rfl, h1, ?_, hK⟩
    cases first <;> simp [gaps, blanks]
  | cons v vs ih =>
    intro first s r K h hv h1 hK
    simp only [formatElems, Option.bind_eq_some_iff] at h
    obtain ⟨x, hx, h⟩ := h
    obtain ⟨t, K1, ht, hd⟩ := bare_formed (K := K) hf hx (fun hs => hv hs v (by simp)) (by rw [gap_ptrs]; exact hK)
    obtain ⟨ts, K2, hts, hd2⟩ := ih _ _ _ K1 h (fun hs u hu => hv hs u (by simp [hu])) hd.noType hd.ptrs
    rw [gap_depth] at ht
    rw [hd.depth, gap_depth] at hts
    refine ⟨t :: ts, K2, .cons ht hts, ?_⟩
    have := (hd.then hd2).after (gap_depth first s) (gap_out first s)
    rw [gaps_cons, List.append_assoc]
    exact this

theorem entries_formed {E : Env} {F : Flags} {f} (hf : Forms E F f) : ∀ (vs : List (Val × Val)) (first : Bool) (s r : St) (K : List Nat),
    formatEntries f first s vs = some r →
    (F.sharp = true → ∀ v ∈ vs, (NoPtrItems E (unpack v.1) ∧ ¬IsPtr v.1 ∧ v.1 ≠ .invalid) ∧ (NoPtrItems E (unpack v.2) ∧ ¬IsPtr v.2 ∧ v.2 ≠ .invalid)) →
    (F.sharp = true → s.noType = false) → (∀ a, s.ptrs a ≠ none → a ∈ K) →
    ∃ ts K', ShowsEntries E F s.depth K vs ts K' ∧ Formed F K' s r (gaps first ts) := by
  intro vs
  induction vs with
  | nil =>
    intro first s r K h _ h1 hK
    cases h
    refine ⟨[], K, .nil, rfl, h1, ?_, hK⟩
    cases first <;> simp [gaps, blanks]
  | cons kv vs ih =>
    obtain ⟨k, v⟩ := kv
    intro first s r K h hv h1 hK
    simp only [formatEntries, Option.bind_eq_some_iff] at h
    obtain ⟨x, hx, y, hy, h⟩ := h
    obtain ⟨t1, K1, ht1, hd1⟩ := bare_formed (K := K) hf hx (fun hs => (hv hs (k, v) (by simp)).1) (by rw [gap_ptrs]; exact hK)
    obtain ⟨t2, K2, ht2, hd2⟩ := bare_formed (K := K1) hf hy (fun hs => (hv hs (k, v) (by simp)).2) hd1.ptrs
    obtain ⟨ts, K3, hts, hd3⟩ := ih _ _ _ K2 h (fun hs u hu => hv hs u (by simp [hu])) hd2.noType hd2.ptrs
    have hx : x.depth = s.depth := hd1.depth.trans (gap_depth first s)
    have hy : y.depth = s.depth := hd2.depth.trans hx
    rw [gap_depth] at ht1
    have ht2 : Shows E F s.depth (decide (¬Behind v)) K1 (unpack v) t2 K2 := by rw [← hx]; exact ht2
    rw [hy] at hts
    refine ⟨(t1 ++ asc ":" ++ t2) :: ts, K3, .cons ht1 ht2 hts, ?_⟩
    have h23 : Formed F K3 x r (asc ":" ++ (t2 ++ gaps false ts)) := (hd2.then hd3).after rfl rfl
    have := (hd1.then h23).after (gap_depth first s) (gap_out first s)
    rw [gaps_cons]
    simpa only [List.append_assoc] using this

theorem fields_formed {E : Env} {F : Flags} {f} (hf : Forms E F f) : ∀ (vs : List (Bytes × Val)) (first : Bool) (s r : St) (K : List Nat),
    formatFields F f first s vs = some r → (F.sharp = true → ∀ v ∈ vs, NoPtrItems E (unpack v.2)) →
    (F.sharp = true → s.noType = false) → (∀ a, s.ptrs a ≠ none → a ∈ K) →
    ∃ ts K', ShowsFields E F s.depth K vs ts K' ∧ Formed F K' s r (gaps first ts) := by
  intro vs
  induction vs with
  | nil =>
    intro first s r K h _ h1 hK
    cases h
    refine ⟨[], K, .nil, rfl, h1, ?_, hK⟩
    cases first <;> simp [gaps, blanks]
  | cons nv vs ih =>
    obtain ⟨name, v⟩ := nv
    intro first s r K h hv h1 hK
    simp only [formatFields, Option.bind_eq_some_iff] at h
    obtain ⟨x, hx, h⟩ := h
    generalize hs1 : (if F.plus = true ∨ F.sharp = true then (gap first s).write (name ++ asc ":") else gap first s) = s1 at hx
    have e1 : s1.depth = s.depth := by rw [← hs1]; split <;> simp [St.write, gap_depth]
    have e2 : s1.ptrs = s.ptrs := by rw [← hs1]; split <;> simp [St.write, gap_ptrs]
    have e3 : s1.noType = s.noType := by rw [← hs1]; split <;> simp [St.write, gap_noType]
    have e4 : s1.out = s.out ++ ((if first then [] else asc " ") ++ (if F.plus = true ∨ F.sharp = true then name ++ asc ":" else [])) := by
      rw [← hs1]
      split
      · simp [St.write, gap_out]
      · simp [gap_out]
    obtain ⟨g1, g2, g3⟩ := showBehind_fields s1 v
    have g4 : s1.noType = false → (showBehind s1 v).noType = false := by
      intro h; cases v <;> first | exact h | rfl
    obtain ⟨t, K1, ht, hd⟩ := hf _ _ x K false hx (fun hs => (g4 (e3.trans (h1 hs))).symm)
      (fun hs => ⟨hv hs (name, v) (by simp), fun hb => by rw [g4 (e3.trans (h1 hs))] at hb; cases hb⟩) (by rw [g3, e2]; exact hK)
    have hxd : x.depth = s.depth := hd.depth.trans (g2.trans e1)
    obtain ⟨ts, K2, hts, hd2⟩ := ih _ _ _ K1 h (fun hs u hu => hv hs u (by simp [hu])) hd.noType hd.ptrs
    rw [g2, e1] at ht
    rw [hxd] at hts
    refine ⟨_ :: ts, K2, .cons ht hts, ?_⟩
    have := (hd.then hd2).after (s := s) (g2.trans e1) (g1.trans e4)
    rw [gaps_cons]
    simpa only [List.append_assoc] using this

theorem byteTexts_gaps : ∀ (b : Bytes) (first : Bool), byteTexts first b = gaps first (b.map fun x => Difflib.decimal x.toNat) := by
  intro b
  induction b with
  | nil => intro first; cases first <;> rfl
  | cons x b ih => intro first; rw [byteTexts, List.map_cons, gaps_cons, ih]

/-- A value in brackets. -/
theorem block_formed {E : Env} {F : Flags} {K : List Nat} {s r : St} {o c : Bytes} {body : St → Option St} {Q : List Bytes → List Nat → Prop}
    (h : formatBlock E o c body s = some r) (hs : F.sharp = true → s.noType = false) (hK : ∀ a, s.ptrs a ≠ none → a ∈ K)
    (hb : ∀ r, body { s.write o with depth := s.depth + 1 } = some r →
      ∃ ts K', Q ts K' ∧ Formed F K' { s.write o with depth := s.depth + 1 } r (gaps true ts)) :
    (TooDeep E (s.depth + 1) ∧ Formed F K s r (o ++ asc "<max>" ++ c)) ∨
    (¬TooDeep E (s.depth + 1) ∧ ∃ ts K', Q ts K' ∧ Formed F K' s r (o ++ blanks ts ++ c)) := by
  simp only [formatBlock, Option.map_eq_some_iff] at h
  obtain ⟨x, hx, rfl⟩ := h
  split at hx
  · rename_i hm
    cases hx
    refine .inl ⟨hm, ?_, hs, ?_, hK⟩
    · simp [St.write]
    · simp [St.write]
  · rename_i hm
    obtain ⟨ts, K', hq, hd⟩ := hb x hx
    refine .inr ⟨hm, ts, K', hq, ?_, hd.noType, ?_, hd.ptrs⟩
    · have := hd.depth
      simp only [St.write] at this ⊢
      omega
    · have := hd.out
      simp only [St.write] at this ⊢
      rw [this]
      simp [gaps]

theorem items_part {E : Env} {v x : Val} (h : x ∈ items E v) : Part E (unpack x) v := by
  unfold Part
  cases v with
  | slice ty a c =>
    by_cases h0 : a = 0
    · simp [items, h0] at h
    · simp only [items, h0, if_false] at h
      simp only [parts, h0, if_false]
      exact List.mem_map_of_mem h
  | array ty vs => exact List.mem_map_of_mem h
  | map ty a =>
    by_cases h0 : a = 0
    · simp [items, h0] at h
    · simp only [items, h0, if_false, List.mem_flatMap] at h
      simp only [parts, h0, if_false, List.mem_flatMap]
      obtain ⟨kv, hkv, h⟩ := h
      refine ⟨kv, hkv, ?_⟩
      simp only [List.mem_cons, List.not_mem_nil, or_false] at h ⊢
      exact h.imp (congrArg unpack) (congrArg unpack)
  | _ => simp [items] at h

theorem rest_formed {E : Env} {F : Flags} {f} (hf : Forms E F f) {v : Val} {s r : St} {K : List Nat} {bare : Bool} (hp : ¬IsPtr v)
    (hi : v ≠ .invalid) (h : formatRest E F f s v = some r) (hb : F.sharp = true → bare = s.noType) (hpl : F.sharp = true → NoPtrItems E v)
    (hK : ∀ a, s.ptrs a ≠ none → a ∈ K) : ∃ t K', Shows E F s.depth bare K v t K' ∧ Formed F K' s r t := by
  simp only [formatRest] at h
  generalize hs1 : (if s.noType = false ∧ F.sharp = true then s.write (asc "(" ++ typeName v ++ asc ")") else s) = s1 at h
  have e1 : s1.depth = s.depth := by rw [← hs1]; split <;> simp [St.write]
  have e2 : s1.ptrs = s.ptrs := by rw [← hs1]; split <;> simp [St.write]
  have e3 : s1.out = s.out ++ typeMark F bare (typeName v) := by
    rw [← hs1]
    by_cases hs : F.sharp = true
    · simp only [typeMark, hb hs, hs, true_and, and_true]
      split <;> simp [St.write]
    · simp [typeMark, hs]
  by_cases hm : (methText E v).2 = true
  · rw [if_pos hm] at h
    cases h
    refine ⟨_, K, .handled hp hi hm, ?_, fun _ => rfl, ?_, ?_⟩
    · exact e1
    · simp [St.write, e3]
    · simpa [St.write, e2] using hK
  · rw [if_neg hm] at h
    have hm' : (methText E v).2 = false := by simpa using hm
    generalize hs2 : ({ s1 with noType := false } : St).write (methText E v).1 = s2 at h
    have f1 : s2.depth = s.depth := by rw [← hs2]; exact e1
    have f2 : s2.ptrs = s.ptrs := by rw [← hs2]; exact e2
    have f3 : s2.out = s.out ++ (typeMark F bare (typeName v) ++ (methText E v).1) := by
      rw [← hs2]; simp [St.write, e3]
    have f4 : s2.noType = false := by rw [← hs2]; rfl
    have hK2 : ∀ a, s2.ptrs a ≠ none → a ∈ K := by rw [f2]; exact hK
    have leaf : ∀ t, Simple v t → r = s2.write t → ∃ t K', Shows E F s.depth bare K v t K' ∧ Formed F K' s r t := by
      intro t ht hr
      subst hr
      exact ⟨_, K, .simple hm' ht, f1, fun _ => f4, by simp [St.write, f3], hK2⟩
    have plain : ∀ x ∈ items E v, F.sharp = true → ¬IsPtr x ∧ x ≠ .invalid := fun x hx hs =>
      ⟨(hpl hs v .refl).2 x hx, fun he => (hpl hs (unpack x) (.part .refl (items_part hx))).1 (by rw [he]; rfl)⟩
    have close : ∀ o c, brackets v = some (o, c) →
        ((TooDeep E (s2.depth + 1) ∧ Formed F K s2 r (o ++ asc "<max>" ++ c)) ∨
        (¬TooDeep E (s2.depth + 1) ∧ ∃ ts K', ShowsParts E F (s2.depth + 1) K v ts K' ∧ Formed F K' s2 r (o ++ blanks ts ++ c))) →
        ∃ t K', Shows E F s.depth bare K v t K' ∧ Formed F K' s r t := by
      intro o c hbr hor
      rw [f1] at hor
      rcases hor with ⟨hd, hfm⟩ | ⟨hd, ts, K', hts, hfm⟩
      · exact ⟨_, K, .deep hm' hbr hd, hfm.after f1 f3⟩
      · exact ⟨_, K', .group hm' hbr hd hts, hfm.after f1 f3⟩
    cases v with
    | invalid => exact absurd rfl hi
    | bool ty b => exact leaf _ .bool (Option.some.inj h).symm
    | num ty t => exact leaf _ .num (Option.some.inj h).symm
    | str ty t => exact leaf _ .str (Option.some.inj h).symm
    | word ty n l c => exact leaf _ .word (Option.some.inj h).symm
    | nilIface ty => exact leaf _ .nilIface (Option.some.inj h).symm
    | iface ty w => exact leaf [] .iface (by cases h; simp [St.write])
    | ptr ty a => exact absurd trivial hp
    | slice ty a c =>
      simp only [formatKind] at h
      by_cases h0 : a = 0
      · rw [if_pos h0] at h
        subst h0
        exact leaf _ .nilSlice (Option.some.inj h).symm
      · rw [if_neg h0] at h
        refine close _ _ (by simp [brackets, h0]) (block_formed h (fun _ => f4) hK2 fun r hr => ?_)
        obtain ⟨ts, K', hts, hd⟩ := elems_formed hf _ _ _ _ K hr (fun hs x hx => ⟨(hpl hs).part (by
          simp only [Part, parts, h0, if_false, List.mem_map]; exact ⟨x, hx, rfl⟩), plain x (by simpa [items, h0] using hx) hs⟩)
          (fun _ => f4) hK2
        exact ⟨ts, K', .slice hts, hd⟩
    | array ty vs =>
      simp only [formatKind] at h
      refine close _ _ rfl (block_formed h (fun _ => f4) hK2 fun r hr => ?_)
      obtain ⟨ts, K', hts, hd⟩ := elems_formed hf _ _ _ _ K hr (fun hs x hx => ⟨(hpl hs).part (by
        simp only [Part, parts, List.mem_map]; exact ⟨x, hx, rfl⟩), plain x hx hs⟩) (fun _ => f4) hK2
      exact ⟨ts, K', .array hts, hd⟩
    | map ty a =>
      simp only [formatKind] at h
      by_cases h0 : a = 0
      · rw [if_pos h0] at h
        subst h0
        exact leaf _ .nilMap (Option.some.inj h).symm
      · rw [if_neg h0] at h
        refine close _ _ (by simp [brackets, h0]) (block_formed h (fun _ => f4) hK2 fun r hr => ?_)
        have hparts : F.sharp = true → ∀ x ∈ E.entries a, (NoPtrItems E (unpack x.1) ∧ ¬IsPtr x.1 ∧ x.1 ≠ .invalid) ∧
            (NoPtrItems E (unpack x.2) ∧ ¬IsPtr x.2 ∧ x.2 ≠ .invalid) := by
          intro hs x hx
          refine ⟨⟨(hpl hs).part ?_, plain x.1 ?_ hs⟩, ⟨(hpl hs).part ?_, plain x.2 ?_ hs⟩⟩
          · simp only [Part, parts, h0, if_false, List.mem_flatMap]; exact ⟨x, hx, by simp⟩
          · simp only [items, h0, if_false, List.mem_flatMap]; exact ⟨x, hx, by simp⟩
          · simp only [Part, parts, h0, if_false, List.mem_flatMap]; exact ⟨x, hx, by simp⟩
          · simp only [items, h0, if_false, List.mem_flatMap]; exact ⟨x, hx, by simp⟩
        obtain ⟨ts, K', hts, hd⟩ := entries_formed hf _ _ _ _ K hr hparts (fun _ => f4) hK2
        exact ⟨ts, K', .map hts, hd⟩
    | struct ty fs =>
      simp only [formatKind] at h
      refine close _ _ rfl (block_formed h (fun _ => f4) hK2 fun r hr => ?_)
      obtain ⟨ts, K', hts, hd⟩ := fields_formed hf _ _ _ _ K hr (fun hs x hx => (hpl hs).part (by
        simp only [Part, parts, List.mem_map]; exact ⟨x, hx, rfl⟩)) (fun _ => f4) hK2
      exact ⟨ts, K', .struct hts, hd⟩
    | blob ty i b c =>
      simp only [formatKind] at h
      by_cases h0 : i = true
      · rw [if_pos h0] at h
        subst h0
        exact leaf _ .nilBlob (Option.some.inj h).symm
      · rw [if_neg h0] at h
        refine close _ _ (by simp [brackets, h0]) (block_formed h (fun _ => f4) hK2 fun r hr => ?_)
        cases hr
        refine ⟨_, K, .blob, ?_, fun _ => f4, ?_, hK2⟩
        · rfl
        · simp only [St.write, byteTexts_gaps]

theorem format_of_not_ptr {E : Env} {F : Flags} {n : Nat} {s : St} {v : Val} (hp : ¬IsPtr v) (hi : v ≠ .invalid) :
    format E F (n + 1) s v = formatRest E F (format E F n) s v := by
  cases v <;> first | rfl | exact absurd rfl hi | exact absurd trivial hp

theorem prune_none {D : Nat} {p : Nat → Option Nat} {a : Nat} (h : prune D p a ≠ none) : p a ≠ none := by
  unfold prune at h
  split at h
  · rename_i e; rw [e]; simp
  · exact absurd rfl h

theorem format_forms (E : Env) (F : Flags) : ∀ n, Forms E F (format E F n) := by
  intro n
  induction n with
  | zero => intro s v r K bare h; cases h
  | succ n ih =>
    intro s v r K bare h hb hpl hK
    by_cases hi : v = .invalid
    · subst hi
      cases h
      refine ⟨_, K, .invalid, rfl, fun hs => ?_, rfl, hK⟩
      by_contra hc
      exact ((hpl hs).2 (by simpa [St.write] using hc)).2 rfl
    by_cases hp : IsPtr v
    · cases v with
      | ptr ty a =>
        have hnt : F.sharp = true → s.noType = false := by
          intro hs
          by_contra hc
          exact ((hpl hs).2 (by simpa using hc)).1 trivial
        simp only [format, formatPtr] at h
        by_cases h0 : a = 0 ∧ (F.sharp = false ∨ s.noType = true)
        · rw [if_pos h0] at h
          cases h
          obtain ⟨rfl, h0⟩ := h0
          refine ⟨_, K, .bareNil ?_, rfl, hnt, rfl, hK⟩
          by_cases hs : F.sharp = true
          · exact .inr ((hb hs).trans (h0.resolve_left (by simp [hs])))
          · exact .inl (by simpa using hs)
        · rw [if_neg h0] at h
          have h0' : ¬(a = 0 ∧ (F.sharp = false ∨ bare = true)) := by
            rintro ⟨h1, h2⟩
            refine h0 ⟨h1, ?_⟩
            by_cases hs : F.sharp = true
            · exact .inr ((hb hs).symm.trans (h2.resolve_left (by simp [hs])))
            · exact .inl (by simpa using hs)
          cases hc : chase E s.depth n (prune s.depth s.ptrs) [] 0 (.ptr ty a) with
          | none => rw [hc] at h; cases h
          | some c =>
            rw [hc] at h
            simp only at h
            obtain ⟨mid, fd⟩ := chase_found hc
            have hind : c.indirects = mid.length := by simpa using fd.indirects
            have hptr : ∀ b, c.ptrs b ≠ none → b ∈ K ++ mid := by
              intro b hb
              rcases fd.ptrs b hb with h | h
              · exact List.mem_append_left _ (hK b (prune_none h))
              · exact List.mem_append_right _ h
            generalize hs1 : (if F.sharp = true ∧ s.noType = false then
                ({ s with ptrs := c.ptrs } : St).write (asc "(" ++ rep (asc "*") c.indirects ++ typeName c.last ++ asc ")")
              else ({ s with ptrs := c.ptrs } : St).write
                (asc "<" ++ rep (asc "*") (if c.stop = .value then c.indirects else c.indirects + starCount (typeName c.last)) ++ asc ">")) = s1 at h
            generalize hs2 : (if F.plus = true ∧ c.chain ≠ [] then s1.write (asc "(" ++ chainText c.chain ++ asc ")") else s1) = s2 at h
            have e1 : s2.depth = s.depth := by rw [← hs2, ← hs1]; split <;> split <;> simp [St.write]
            have e2 : s2.ptrs = c.ptrs := by rw [← hs2, ← hs1]; split <;> split <;> simp [St.write]
            have e3 : s2.noType = s.noType := by rw [← hs2, ← hs1]; split <;> split <;> simp [St.write]
            have o1 : s1.out = s.out ++ ptrMark F bare mid.length (if c.stop = .value then 0 else starCount (typeName c.last)) (typeName c.last) := by
              have hcond : (F.sharp = true ∧ s.noType = false) ↔ (F.sharp = true ∧ bare = false) := by
                constructor
                · rintro ⟨x, y⟩; exact ⟨x, (hb x).trans y⟩
                · rintro ⟨x, y⟩; exact ⟨x, (hb x).symm.trans y⟩
              rw [← hs1, ptrMark, hind]
              by_cases hh : F.sharp = true ∧ s.noType = false
              · rw [if_pos hh, if_pos (hcond.1 hh)]; simp [St.write]
              · rw [if_neg hh, if_neg (fun x => hh (hcond.2 x))]
                split <;> simp [St.write]
            have o2 : s2.out = s1.out ++ addrMark F c.chain := by
              rw [← hs2, addrMark, ← chainText_arrows]
              split <;> simp [St.write]
            have o3 := o2
            rw [o1, List.append_assoc] at o3
            cases hst : c.stop with
            | nil =>
              rw [hst] at h o3
              cases h
              obtain ⟨g1, g2⟩ := fd.nil hst
              simp only [List.nil_append] at g2
              refine ⟨_, K ++ mid, .ptrNil h0' fd.leads g1, e1, fun hs => e3.trans (hnt hs), ?_, ?_⟩
              · simp only [St.write, o3, g2]; simp
              · simpa [St.write, e2] using hptr
            | cycle =>
              rw [hst] at h o3
              cases h
              obtain ⟨ty', b, g1, g2, g3, g4⟩ := fd.cycle hst
              simp only [List.nil_append] at g3
              have hl := fd.leads
              rw [g1] at hl
              refine ⟨_, K ++ mid, .ptrShown hl g2 (hptr b g4), e1, fun hs => e3.trans (hnt hs), ?_, ?_⟩
              · simp only [St.write, o3, g3, g1, typeName]; simp
              · simpa [St.write, e2] using hptr
            | value =>
              rw [hst] at h o3
              simp only at h
              obtain ⟨g1, g2, g3⟩ := fd.value hst
              simp only [List.nil_append] at g2
              have hmid : mid ≠ [] := by
                rintro rfl
                have hl := fd.leads
                generalize c.last = l at hl g1
                cases hl
                exact g1 trivial
              have hside : F.sharp = true → NoPtrItems E c.last ∧ (({ s2 with noType := true } : St).noType = true → ¬IsPtr c.last ∧ c.last ≠ .invalid) :=
                fun hs => ⟨fun u hu => (hpl hs).1 u (fd.leads.reach.trans hu), fun _ => ⟨g1, ((hpl hs).1 _ fd.leads.reach).1⟩⟩
              obtain ⟨t, K', ht, hd⟩ := ih { s2 with noType := true } c.last r (K ++ mid) true h (fun _ => rfl) hside (by simpa [e2] using hptr)
              refine ⟨_, K', .ptr fd.leads g1 (g3 hmid) (by rw [← e1]; exact ht), hd.after e1 ?_⟩
              simp only [o3, g2, if_true]
      | _ => exact absurd hp (by simp [IsPtr])
    · rw [format_of_not_ptr hp hi] at h
      exact rest_formed ih hp hi h hb (fun hs => (hpl hs).1) hK

/-- **C114, where it holds**: what `%v` and `%+v` write for a value is its one-line form: every part once,
from left to right, and a pointer is called `<shown>` only where its target stands further left.  With
`%#v` this holds where no list or map holds pointers.  What is missing: after a list or map whose last
pointer is nil, `%#v` drops the type of the next field (`type_lost`). -/
theorem format_shows_partial {E : Env} {F : Flags} {n : Nat} {v : Val} {out : Bytes} (h : formatV E F n (some v) = some out)
    (hp : F.sharp = true → NoPtrItems E v) : ∃ K, Shows E F 0 false [] v out K := by
  simp only [formatV, Option.map_eq_some_iff] at h
  obtain ⟨r, hr, rfl⟩ := h
  obtain ⟨t, K, ht, hd⟩ := format_forms E F n St.init v r [] false hr (fun _ => rfl)
    (fun hs => ⟨hp hs, fun h => nomatch h⟩) (fun a ha => absurd rfl ha)
  have : r.out = t := by rw [hd.out]; rfl
  exact ⟨K, by rw [this]; exact ht⟩

end Verif.Spew
