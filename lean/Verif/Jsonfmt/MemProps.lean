import Verif.Jsonfmt.MemModel
import Verif.Jsonfmt.ValProps

/-!
# What the JSON encoders print is what memory holds

The specification: `Direct` is the rule of the Go compiler for the types whose values an interface keeps in its data word itself;
`Holds` says that memory holds a value of a type at an address.
-/

namespace Verif.Jsonfmt.Mem

/-- The types whose values are one pointer: an interface keeps them in its data word, and a pointer to a copy for all
others.  `up` says which of the types without encoder are of kind `unsafe.Pointer`. -/
inductive Direct (up : Bytes → Prop) : Ty → Prop where
  | ptr (t : Ty) : Direct up (.ptr t)
  | map (k e : Ty) : Direct up (.map k e)
  | chan (n : Bytes) : Direct up (.chan n)
  | func (n : Bytes) : Direct up (.func n)
  | unsafePointer (n : Bytes) (h : up n) : Direct up (.other n)
  | field (n tag : Bytes) (t : Ty) (h : Direct up t) : Direct up (.struct (.cons n tag t .nil))
  | elem (t : Ty) (h : Direct up t) : Direct up (.array 1 t)

/-- The values without parts of a type. -/
def isLeaf : Ty → Val → Bool
  | .bool, .bool _ => true
  | .int8, .i8 _ => true
  | .uint8, .u8 _ => true
  | .int16, .i16 _ => true
  | .uint16, .u16 _ => true
  | .int32, .i32 _ => true
  | .uint32, .u32 _ => true
  | .int64, .i64 _ => true
  | .uint64, .u64 _ => true
  | .float, .float _ _ _ => true
  | .str, .str _ => true
  | .bytes, .bytes _ => true
  | .err, .err _ => true
  | .marshaler, .marshOk _ => true
  | .marshaler, .marshErr _ => true
  | _, _ => false

/-- The types of which the encoder reads nothing; their values are written `.nil` here, whatever they are. -/
def noEncoder : Ty → Bool
  | .func _ => true
  | .chan _ => true
  | .other _ => true
  | _ => false

mutual
/-- The cells a variable of a type takes. -/
def width : Ty → Nat
  | .array n e => (List.replicate n (width e)).sum
  | .struct fs => (widths fs).sum
  | _ => 1

/-- Those of the fields of a struct. -/
def widths : Fields → List Nat
  | .nil => []
  | .cons _ _ t rest => width t :: widths rest
end

/-- The address so many cells further. -/
def Loc.behind : Loc → Nat → Loc
  | .mem a, k => .mem (k + a)
  | .tmp c off, k => .tmp c (k + off)

mutual
/-- Memory holds the value at the address, as a variable of the type. -/
def Holds (up : Bytes → Prop) (σ : Store) : Val → Ty → Loc → Prop
  | .nil, t, l =>
    match t with
    | .ptr _ => σ.read l = some (.word 0)
    | .map _ _ => σ.read l = some (.word 0)
    | .iface => σ.read l = some .nilIface
    | t => noEncoder t = true
  | .ptr v, t, l =>
    match t with
    | .ptr t => ∃ a, a ≠ 0 ∧ σ.read l = some (.word a) ∧ Holds up σ v t (.mem a)
    | _ => False
  | .seq vs, t, l =>
    match t with
    | .slice t => ∃ a n, σ.read l = some (.slice a n) ∧ HoldsElems up σ vs t n (.mem a)
    | .array n t => HoldsElems up σ vs t n l
    | _ => False
  | .map kvs, t, l =>
    match t with
    | .map k e => ∃ a ps, a ≠ 0 ∧ σ.read l = some (.word a) ∧ σ.maps a = some ps ∧ HoldsPairs up σ kvs k e ps
    | _ => False
  | .struct vs, t, l =>
    match t with
    | .struct fs => HoldsFields up σ vs fs l
    | _ => False
  | .iface dt v, t, l =>
    match t with
    | .iface => ∃ w, σ.read l = some (.iface dt w) ∧
        ((Direct up dt ∧ Holds up σ v dt (.tmp (.word w) 0)) ∨ (¬ Direct up dt ∧ Holds up σ v dt (.mem w)))
    | _ => False
  | v, t, l => isLeaf t v = true ∧ σ.read l = some (.val v)

/-- The values one after the other, as variables of the type. -/
def HoldsElems (up : Bytes → Prop) (σ : Store) : Vals → Ty → Nat → Loc → Prop
  | .nil, _, n, _ => n = 0
  | .cons v vs, t, n, l => ∃ m, n = m + 1 ∧ Holds up σ v t l ∧ HoldsElems up σ vs t m (l.behind (width t))

/-- The entries of a map, each key and element as a variable of its type. -/
def HoldsPairs (up : Bytes → Prop) (σ : Store) : Pairs → Ty → Ty → List (Nat × Nat) → Prop
  | .nil, _, _, ps => ps = []
  | .cons k v kvs, kt, et, ps =>
    ∃ ka va rest, ps = (ka, va) :: rest ∧ Holds up σ k kt (.mem ka) ∧ Holds up σ v et (.mem va) ∧
      HoldsPairs up σ kvs kt et rest

/-- The fields of a struct, one after the other. -/
def HoldsFields (up : Bytes → Prop) (σ : Store) : Vals → Fields → Loc → Prop
  | .nil, fs, _ => fs = .nil
  | .cons v vs, fs, l =>
    match fs with
    | .nil => False
    | .cons _ _ t rest => Holds up σ v t l ∧ HoldsFields up σ vs rest (l.behind (width t))
end

mutual
/-- The keys of maps keyed by interfaces are not nil and not of a type that is one pointer. -/
def PlainKeys (up : Bytes → Prop) : Val → Ty → Prop
  | .ptr v, t =>
    match t with
    | .ptr t => PlainKeys up v t
    | _ => True
  | .seq vs, t =>
    match t with
    | .slice t => PlainElems up vs t
    | .array _ t => PlainElems up vs t
    | _ => True
  | .map kvs, t =>
    match t with
    | .map k e => PlainPairs up kvs k e
    | _ => True
  | .struct vs, t =>
    match t with
    | .struct fs => PlainFields up vs fs
    | _ => True
  | .iface dt v, _ => PlainKeys up v dt
  | _, _ => True

/-- `PlainKeys` of every element. -/
def PlainElems (up : Bytes → Prop) : Vals → Ty → Prop
  | .nil, _ => True
  | .cons v vs, t => PlainKeys up v t ∧ PlainElems up vs t

/-- `PlainKeys` of every key and element, and the condition itself. -/
def PlainPairs (up : Bytes → Prop) : Pairs → Ty → Ty → Prop
  | .nil, _, _ => True
  | .cons k v kvs, kt, et =>
    (kt = .iface → ∃ dt kv, k = .iface dt kv ∧ dt ≠ .iface ∧ ¬ Direct up dt) ∧
      PlainKeys up k kt ∧ PlainKeys up v et ∧ PlainPairs up kvs kt et

/-- `PlainKeys` of every field. -/
def PlainFields (up : Bytes → Prop) : Vals → Fields → Prop
  | .nil, _ => True
  | .cons v vs, fs =>
    match fs with
    | .nil => True
    | .cons _ _ t rest => PlainKeys up v t ∧ PlainFields up vs rest
end

/-! ## The rule of `LikePtr` -/

mutual
theorem likePtr_direct (up : Bytes → Prop) : ∀ t : Ty, likePtr t = true → Direct up t
  | .ptr t, _ => .ptr t
  | .map k e, _ => .map k e
  | .chan n, _ => .chan n
  | .func n, _ => .func n
  | .struct fs, h => by
    rw [likePtr] at h
    exact likePtrs_direct up fs h
  | .array n e, h => by
    rw [likePtr] at h
    by_cases hn : n = 1
    · subst hn
      rw [if_neg (by simp)] at h
      exact .elem e (likePtr_direct up e h)
    · rw [if_pos hn] at h
      simp at h
  | .bool, h => by simp [likePtr] at h
  | .int8, h => by simp [likePtr] at h
  | .uint8, h => by simp [likePtr] at h
  | .int16, h => by simp [likePtr] at h
  | .uint16, h => by simp [likePtr] at h
  | .int32, h => by simp [likePtr] at h
  | .uint32, h => by simp [likePtr] at h
  | .int64, h => by simp [likePtr] at h
  | .uint64, h => by simp [likePtr] at h
  | .float, h => by simp [likePtr] at h
  | .str, h => by simp [likePtr] at h
  | .bytes, h => by simp [likePtr] at h
  | .err, h => by simp [likePtr] at h
  | .marshaler, h => by simp [likePtr] at h
  | .slice _, h => by simp [likePtr] at h
  | .iface, h => by simp [likePtr] at h
  | .other _, h => by simp [likePtr] at h

theorem likePtrs_direct (up : Bytes → Prop) : ∀ fs : Fields, likePtrs fs = true → Direct up (.struct fs)
  | .nil, h => by simp [likePtrs] at h
  | .cons n tag t .nil, h => by
    rw [likePtrs] at h
    exact .field n tag t (likePtr_direct up t h)
  | .cons _ _ _ (.cons _ _ _ _), h => by simp [likePtrs] at h
end

/-- For a type that is one pointer and not like one for reflect2 (an `unsafe.Pointer`, alone in structs and arrays) the encoder
reads nothing. -/
theorem blind (up : Bytes → Prop) (σ : Store) (t : Ty) (h : Direct up t) (hl : likePtr t = false) :
    ∀ (n : Nat) (cfg : Bool) (pfx : Bytes) (l l' : Loc) (space : Bytes),
      encodeAt σ n t (encoderOf cfg pfx t) l space = encodeAt σ n t (encoderOf cfg pfx t) l' space := by
  induction h with
  | ptr => simp [likePtr] at hl
  | map => simp [likePtr] at hl
  | chan => simp [likePtr] at hl
  | func => simp [likePtr] at hl
  | unsafePointer nm _ =>
    intro n cfg pfx l l' space
    cases n with
    | zero => rfl
    | succ n => simp [encodeAt, encoderOf]
  | field nm tag t _ ih =>
    intro n cfg pfx l l' space
    rw [likePtr, likePtrs] at hl
    cases n with
    | zero => rfl
    | succ n =>
      simp only [encodeAt, encoderOf, encoderOfFields]
      by_cases hn : getFieldName cfg nm tag t = []
      · rw [if_pos hn]
        simp [fieldsAt]
      · rw [if_neg hn]
        simp only [fieldsAt]
        rw [ih hl n _ _ l l']
  | elem t _ ih =>
    intro n cfg pfx l l' space
    rw [likePtr, if_neg (by simp)] at hl
    cases n with
    | zero => rfl
    | succ n =>
      simp only [encodeAt, encoderOf, elemsAt]
      rw [ih hl n _ _ l l']

/-! ## Encoding -/

theorem behind_eq (l : Loc) (k : Nat) : l.behind k = l.add k := by
  cases l <;> simp [Loc.behind, Loc.add, Nat.add_comm]

mutual
theorem width_eq : ∀ t : Ty, width t = size t
  | .array n e => by simp [width, size, width_eq e]
  | .struct fs => by rw [width, size, widths_eq fs]
  | .bool | .int8 | .uint8 | .int16 | .uint16 | .int32 | .uint32 | .int64 | .uint64 | .float | .str | .bytes | .err
  | .marshaler | .iface => by simp [width, size]
  | .ptr _ => by simp [width, size]
  | .slice _ => by simp [width, size]
  | .map _ _ => by simp [width, size]
  | .func _ => by simp [width, size]
  | .chan _ => by simp [width, size]
  | .other _ => by simp [width, size]

theorem widths_eq : ∀ fs : Fields, (widths fs).sum = sizes fs
  | .nil => by simp [widths, sizes]
  | .cons _ _ t rest => by simp [widths, sizes, width_eq t, widths_eq rest]
end

theorem unsupported_text (v : Val) (msg space : Bytes) : encode v (.unsupported msg) space = space ++ msg := by
  cases v <;> rfl

/-- The encoder of a type without parts, on a cell with a value of the type. -/
theorem leaf_text (σ : Store) (v : Val) (t : Ty) (l : Loc) (h : isLeaf t v = true) (hr : σ.read l = some (.val v))
    (cfg : Bool) (pfx space : Bytes) (n : Nat) :
    encodeAt σ (n + 1) t (encoderOf cfg pfx t) l space = .ok (encode v (encoderOf cfg pfx t) space) := by
  cases t <;> cases v <;> first | (simp [isLeaf] at h; done) |
    (simp [encodeAt, encoderOf, leafAt, hr, fits]; done)

/-- Every fuel from some on. -/
def Late (P : Nat → Prop) : Prop := ∃ N, ∀ n, N ≤ n → P n

theorem Late.and {P Q : Nat → Prop} (hp : Late P) (hq : Late Q) : Late fun n => P n ∧ Q n := by
  obtain ⟨N, hN⟩ := hp
  obtain ⟨M, hM⟩ := hq
  exact ⟨N + M, fun n hn => ⟨hN n (by omega), hM n (by omega)⟩⟩

theorem Late.mono {P Q : Nat → Prop} (hp : Late P) (h : ∀ n, P n → Q n) : Late Q := by
  obtain ⟨N, hN⟩ := hp
  exact ⟨N, fun n hn => h n (hN n hn)⟩

theorem Late.succ {P Q : Nat → Prop} (hp : Late P) (h : ∀ n, P n → Q (n + 1)) : Late Q := by
  obtain ⟨N, hN⟩ := hp
  refine ⟨N + 1, fun n hn => ?_⟩
  obtain ⟨m, rfl⟩ : ∃ m, n = m + 1 := ⟨n - 1, by omega⟩
  exact h m (hN m (by omega))

theorem Late.now {P : Nat → Prop} (h : ∀ n, P (n + 1)) : Late P :=
  Late.succ (P := fun _ => True) ⟨0, fun _ _ => trivial⟩ fun n _ => h n

theorem leaf_late (σ : Store) (v : Val) (t : Ty) (l : Loc) (h : isLeaf t v = true ∧ σ.read l = some (.val v))
    (cfg : Bool) (pfx : Bytes) :
    Late fun n => ∀ space, encodeAt σ n t (encoderOf cfg pfx t) l space = .ok (encode v (encoderOf cfg pfx t) space) :=
  Late.now fun n space => leaf_text σ v t l h.1 h.2 cfg pfx space n

/-- The key encoders without interfaces. -/
theorem plainKey_late (σ : Store) (v : Val) (t : Ty) (l : Loc) (cfg : Bool) (pfx : Bytes) (ht : t ≠ .iface)
    (h : ∀ cfg pfx, Late fun n => ∀ space,
      encodeAt σ n t (encoderOf cfg pfx t) l space = .ok (encode v (encoderOf cfg pfx t) space)) :
    ∃ e, (encoderOfMapKey cfg pfx t = .number e ∧
          Late fun n => ∀ space, plainKeyAt (encodeAt σ n) t (.number e) l space =
            .ok (encode v e (space ++ [34]) ++ [34, 58])) ∨
        (encoderOfMapKey cfg pfx t = .string e ∧
          Late fun n => ∀ space, plainKeyAt (encodeAt σ n) t (.string e) l space = .ok (encode v e space ++ [58])) := by
  have hk : encoderOfMapKey cfg pfx t = .string (encoderOf cfg (pfx ++ asc " [mapKey]") t) ∨
      encoderOfMapKey cfg pfx t = .number (encoderOf cfg (pfx ++ asc " [mapKey]") t) := by
    cases t <;> simp [encoderOfMapKey, keyIsString] at ht ⊢
  rcases hk with hk | hk
  · refine ⟨_, .inr ⟨hk, (h cfg (pfx ++ asc " [mapKey]")).mono fun n hn space => ?_⟩⟩
    simp only [plainKeyAt, hn, Res.andThen]
  · refine ⟨_, .inl ⟨hk, (h cfg (pfx ++ asc " [mapKey]")).mono fun n hn space => ?_⟩⟩
    simp only [plainKeyAt, hn, Res.andThen]

mutual
theorem encodes (up : Bytes → Prop) (σ : Store) : ∀ (v : Val) (t : Ty) (l : Loc), Holds up σ v t l → PlainKeys up v t →
    ∀ cfg pfx, Late fun n => ∀ space,
      encodeAt σ n t (encoderOf cfg pfx t) l space = .ok (encode v (encoderOf cfg pfx t) space)
  | .nil, t, l, h, _, cfg, pfx => by
    cases t <;> simp [Holds, noEncoder] at h <;> refine Late.now fun n space => ?_ <;>
      first | (simp [encodeAt, encoderOf, h, encode]; done) | (rw [encoderOf_map]; simp [encodeAt, h, encode])
  | .ptr v, .ptr t, l, h, hk, cfg, pfx => by
    rw [Holds] at h
    obtain ⟨a, ha, hr, hv⟩ := h
    rw [PlainKeys] at hk
    refine (encodes up σ v t (.mem a) hv hk cfg (pfx ++ asc " [ptrElem]")).succ fun n hn space => ?_
    simp only [encodeAt, encoderOf, hr, if_neg ha, encode]
    exact hn space
  | .seq vs, .slice t, l, h, hk, cfg, pfx => by
    rw [Holds] at h
    obtain ⟨a, len, hr, hv⟩ := h
    rw [PlainKeys] at hk
    refine (encodesElems up σ vs t len (.mem a) hv hk cfg (pfx ++ asc " [sliceElem]")).succ fun n hn space => ?_
    simp only [encodeAt, encoderOf, hr, encode]
    rw [hn]
    rfl
  | .seq vs, .array len t, l, h, hk, cfg, pfx => by
    rw [Holds] at h
    rw [PlainKeys] at hk
    refine (encodesElems up σ vs t len l h hk cfg (pfx ++ asc " [sliceElem]")).succ fun n hn space => ?_
    simp only [encodeAt, encoderOf, encode]
    rw [hn]
    rfl
  | .map kvs, .map k e, l, h, hk, cfg, pfx => by
    rw [Holds] at h
    obtain ⟨a, ps, ha, hr, hm, hv⟩ := h
    rw [PlainKeys] at hk
    refine (encodesPairs up σ kvs k e ps hv hk cfg pfx (pfx ++ asc " [mapElem]")).succ fun n hn space => ?_
    rw [encoderOf_map]
    simp only [encodeAt, hr, if_neg ha, hm, encode]
    rw [hn]
    rfl
  | .struct vs, .struct fs, l, h, hk, cfg, pfx => by
    rw [Holds] at h
    rw [PlainKeys] at hk
    refine (encodesFields up σ vs fs l h hk cfg false).succ fun n hn space => ?_
    simp only [encodeAt, encoderOf, encode]
    rw [hn]
    rfl
  | .iface dt v, .iface, l, h, hk, cfg, pfx => by
    rw [Holds] at h
    obtain ⟨w, hr, h⟩ := h
    rw [PlainKeys] at hk
    rcases h with ⟨hd, h⟩ | ⟨hd, h⟩
    · refine (encodes up σ v dt _ h hk false []).succ fun n hn space => ?_
      simp only [encodeAt, encoderOf, hr, encode]
      rw [← hn space, dataLoc]
      cases hl : likePtr dt
      · exact blind up σ dt hd hl n _ _ _ _ _
      · rfl
    · refine (encodes up σ v dt _ h hk false []).succ fun n hn space => ?_
      simp only [encodeAt, encoderOf, hr, encode]
      rw [← hn space, dataLoc]
      cases hl : likePtr dt
      · rfl
      · exact absurd (likePtr_direct up dt hl) hd
  | .bool b, t, l, h, _, cfg, pfx => leaf_late σ _ t l h cfg pfx
  | .i8 b, t, l, h, _, cfg, pfx => leaf_late σ _ t l h cfg pfx
  | .u8 b, t, l, h, _, cfg, pfx => leaf_late σ _ t l h cfg pfx
  | .i16 b, t, l, h, _, cfg, pfx => leaf_late σ _ t l h cfg pfx
  | .u16 b, t, l, h, _, cfg, pfx => leaf_late σ _ t l h cfg pfx
  | .i32 b, t, l, h, _, cfg, pfx => leaf_late σ _ t l h cfg pfx
  | .u32 b, t, l, h, _, cfg, pfx => leaf_late σ _ t l h cfg pfx
  | .i64 b, t, l, h, _, cfg, pfx => leaf_late σ _ t l h cfg pfx
  | .u64 b, t, l, h, _, cfg, pfx => leaf_late σ _ t l h cfg pfx
  | .float a b c, t, l, h, _, cfg, pfx => leaf_late σ _ t l h cfg pfx
  | .str b, t, l, h, _, cfg, pfx => leaf_late σ _ t l h cfg pfx
  | .bytes b, t, l, h, _, cfg, pfx => leaf_late σ _ t l h cfg pfx
  | .err b, t, l, h, _, cfg, pfx => leaf_late σ _ t l h cfg pfx
  | .marshOk b, t, l, h, _, cfg, pfx => leaf_late σ _ t l h cfg pfx
  | .marshErr b, t, l, h, _, cfg, pfx => leaf_late σ _ t l h cfg pfx

theorem encodesElems (up : Bytes → Prop) (σ : Store) : ∀ (vs : Vals) (t : Ty) (len : Nat) (l : Loc),
    HoldsElems up σ vs t len l → PlainElems up vs t → ∀ cfg pfx, Late fun n => ∀ first space,
      elemsAt (encodeAt σ n t (encoderOf cfg pfx t)) (size t) len l first space =
        .ok (encodeElems vs (encoderOf cfg pfx t) first space)
  | .nil, t, len, l, h, _, cfg, pfx => by
    rw [HoldsElems] at h
    subst h
    exact Late.now fun n first space => rfl
  | .cons v vs, t, len, l, h, hk, cfg, pfx => by
    rw [HoldsElems, behind_eq, width_eq] at h
    obtain ⟨m, rfl, hv, hvs⟩ := h
    rw [PlainElems] at hk
    refine ((encodes up σ v t l hv hk.1 cfg pfx).and
      (encodesElems up σ vs t m _ hvs hk.2 cfg pfx)).mono fun n hn first space => ?_
    simp only [elemsAt, encodeElems]
    rw [hn.1]
    exact hn.2 _ _

theorem encodesPairs (up : Bytes → Prop) (σ : Store) : ∀ (kvs : Pairs) (k e : Ty) (ps : List (Nat × Nat)),
    HoldsPairs up σ kvs k e ps → PlainPairs up kvs k e → ∀ cfg pfx epfx, Late fun n => ∀ first space,
      pairsAt (keyAt (encodeAt σ n) σ k (encoderOfMapKey cfg pfx k)) (encodeAt σ n e (encoderOf cfg epfx e)) ps first space =
        .ok (encodePairs kvs (encoderOfMapKey cfg pfx k) (encoderOf cfg epfx e) first space)
  | .nil, k, e, ps, h, _, cfg, pfx, epfx => by
    rw [HoldsPairs] at h
    subst h
    exact Late.now fun n first space => rfl
  | .cons kv v kvs, k, e, ps, h, hk, cfg, pfx, epfx => by
    rw [HoldsPairs] at h
    obtain ⟨ka, va, rest, rfl, hkv, hv, hrest⟩ := h
    rw [PlainPairs] at hk
    obtain ⟨hi, hk1, hk2, hk3⟩ := hk
    have h2 := encodes up σ v e _ hv hk2 cfg epfx
    have h3 := encodesPairs up σ kvs k e rest hrest hk3 cfg pfx epfx
    by_cases hki : k = .iface
    · obtain ⟨dt, kw, rfl, hdt, hd⟩ := hi hki
      subst hki
      rw [Holds] at hkv
      obtain ⟨w, hr, hh⟩ := hkv
      rcases hh with ⟨hd', _⟩ | ⟨_, hh⟩
      · exact absurd hd' hd
      rw [PlainKeys] at hk1
      obtain ⟨ke, hke⟩ := plainKey_late σ kw dt (.mem w) cfg pfx hdt
        (fun cfg pfx => encodes up σ kw dt (.mem w) hh hk1 cfg pfx)
      have hie : encoderOfMapKey cfg pfx .iface = .iface cfg pfx := by simp [encoderOfMapKey, keyIsString]
      rw [hie] at h3 ⊢
      rcases hke with ⟨heq, hke⟩ | ⟨heq, hke⟩
      · refine (hke.and (h2.and h3)).mono fun n hn first space => ?_
        rw [encodePairs_iface, heq]
        simp only [pairsAt, keyAt, hr, heq, hn.1, Res.andThen, hn.2.1, hn.2.2]
      · refine (hke.and (h2.and h3)).mono fun n hn first space => ?_
        rw [encodePairs_iface, heq]
        simp only [pairsAt, keyAt, hr, heq, hn.1, Res.andThen, hn.2.1, hn.2.2]
    · obtain ⟨ke, hke⟩ := plainKey_late σ kv k (.mem ka) cfg pfx hki
        (fun cfg pfx => encodes up σ kv k (.mem ka) hkv hk1 cfg pfx)
      rcases hke with ⟨heq, hke⟩ | ⟨heq, hke⟩
      · rw [heq] at h3 ⊢
        refine (hke.and (h2.and h3)).mono fun n hn first space => ?_
        rw [encodePairs_number]
        simp only [pairsAt, keyAt, hn.1, Res.andThen, hn.2.1, hn.2.2]
      · rw [heq] at h3 ⊢
        refine (hke.and (h2.and h3)).mono fun n hn first space => ?_
        rw [encodePairs_string]
        simp only [pairsAt, keyAt, hn.1, Res.andThen, hn.2.1, hn.2.2]

theorem encodesFields (up : Bytes → Prop) (σ : Store) : ∀ (vs : Vals) (fs : Fields) (l : Loc),
    HoldsFields up σ vs fs l → PlainFields up vs fs → ∀ cfg any, Late fun n => ∀ space,
      fieldsAt (encodeAt σ n) fs (encoderOfFields cfg any fs) l space =
        .ok (encodeFields vs (encoderOfFields cfg any fs) space)
  | .nil, fs, l, h, _, cfg, any => by
    rw [HoldsFields] at h
    subst h
    exact Late.now fun n space => rfl
  | .cons v vs, .nil, l, h, _, cfg, any => by
    rw [HoldsFields] at h
    exact h.elim
  | .cons v vs, .cons name tag t rest, l, h, hk, cfg, any => by
    rw [HoldsFields, behind_eq, width_eq] at h
    rw [PlainFields] at hk
    by_cases hn : getFieldName cfg name tag t = []
    · refine (encodesFields up σ vs rest _ h.2 hk.2 cfg any).mono fun n hn' space => ?_
      simp only [encoderOfFields, if_pos hn, fieldsAt, encodeFields]
      exact hn' space
    · refine ((encodes up σ v t l h.1 hk.1 cfg ((if any then [44] else []) ++ [34] ++ getFieldName cfg name tag t ++ [34, 58] ++
        asc " ." ++ getFieldName cfg name tag t)).and
        (encodesFields up σ vs rest _ h.2 hk.2 cfg true)).mono fun n hn' space => ?_
      simp only [encoderOfFields, if_neg hn, fieldsAt, encodeFields]
      rw [hn'.1]
      exact hn'.2 _
end

/-- Memory holds the value an interface of the dynamic type `t` with the data word `w` stands for. -/
def HoldsIface (up : Bytes → Prop) (σ : Store) (v : Val) (t : Ty) (w : Nat) : Prop :=
  (Direct up t ∧ Holds up σ v t (.tmp (.word w) 0)) ∨ (¬ Direct up t ∧ Holds up σ v t (.mem w))

/-- The text is that of the tree. -/
theorem marshal_text (up : Bytes → Prop) (σ : Store) (v : Val) (t : Ty) (w : Nat) (h : HoldsIface up σ v t w)
    (hk : PlainKeys up v t) : ∃ N, ∀ n, N ≤ n → marshalAt σ n (some (t, w)) = .ok (marshal t v) := by
  unfold marshalAt marshal
  rcases h with ⟨hd, h⟩ | ⟨hd, h⟩
  · refine (encodes up σ v t _ h hk false []).mono fun n hn => ?_
    show encodeAt σ n t (encoderOf false [] t) (dataLoc t w) [] = _
    rw [← hn [], dataLoc]
    cases hl : likePtr t
    · exact blind up σ t hd hl n _ _ _ _ _
    · rfl
  · refine (encodes up σ v t _ h hk false []).mono fun n hn => ?_
    show encodeAt σ n t (encoderOf false [] t) (dataLoc t w) [] = _
    rw [← hn [], dataLoc]
    cases hl : likePtr t
    · rfl
    · exact absurd (likePtr_direct up t hl) hd

open Verif.Spec in
/-- C152 (partial): whatever memory holds as the value of the interface given to `MarshalToString` - through
pointers, slices, maps, and interfaces in interfaces, with the values of one pointer in the data word and all others behind
it - the encoders read only what is there as what it is, do not panic, and print JSON that reads as the value.
Missing: keys of maps keyed by interfaces that are nil (`nil_key_panics`) or of one pointer (`pointer_key_misread`), nil
interfaces of types with methods `Error` or `MarshalJSON` (`nil_error_panics`), values that contain themselves
(`cycle_never_ends`), and the leaves and names excluded in C17. -/
theorem memory_read_partial (up : Bytes → Prop) (σ : Store) (v : Val) (t : Ty) (w : Nat) (j : Json)
    (h : HoldsIface up σ v t w) (hk : PlainKeys up v t) (he : expected v t = some j) (hv : GoodVal v) (ht : GoodTy t) :
    ∃ out N, parseDocument out = some j ∧ ∀ n, N ≤ n → marshalAt σ n (some (t, w)) = .ok out := by
  obtain ⟨N, hN⟩ := marshal_text up σ v t w h hk
  exact ⟨_, N, marshal_parses_partial t v j he hv ht, hN⟩

/-- C152, in particular: no read goes astray and no assertion fails, also for the leaves and names excluded in C17. -/
theorem memory_safe_partial (up : Bytes → Prop) (σ : Store) (v : Val) (t : Ty) (w : Nat) (h : HoldsIface up σ v t w)
    (hk : PlainKeys up v t) : ∃ out N, ∀ n, N ≤ n → marshalAt σ n (some (t, w)) = .ok out := by
  obtain ⟨N, hN⟩ := marshal_text up σ v t w h hk
  exact ⟨_, N, hN⟩

/-- C152, negation: a key that is a pointer, in a map keyed by interfaces.  The pointer is taken for the address of a pointer, so
that what it points to is read as an address: whenever that is not itself a pointer (or the like), the read goes
astray. -/
theorem pointer_key_misread (σ : Store) (t e : Ty) (a ka va w : Nat) (rest : List (Nat × Nat)) (ha : a ≠ 0)
    (hm : σ.maps a = some ((ka, va) :: rest)) (hc : σ.cell ka = some (.iface (.ptr t) w))
    (hw : ∀ b, σ.cell w ≠ some (.word b)) (n : Nat) :
    marshalAt σ (n + 2) (some (.map .iface e, a)) = .fault := by
  have hie : encoderOfMapKey false [] .iface = .iface false [] := by simp [encoderOfMapKey, keyIsString]
  unfold marshalAt
  simp only [dataLoc, likePtr, if_true]
  rw [encoderOf_map, hie, encodeAt]
  simp only [Store.read, if_true, if_neg ha, hm, pairsAt, keyAt, hc]
  have hk : encoderOfMapKey false [] (.ptr t) = .number (.ptr (encoderOf false (asc " [mapKey]" ++ asc " [ptrElem]") t)) := by
    simp [encoderOfMapKey, keyIsString, encoderOf]
  rw [hk]
  simp only [plainKeyAt, encodeAt, Store.read]
  cases hcw : σ.cell w with
  | none => rfl
  | some c =>
    cases c with
    | word b => exact absurd hcw (hw b)
    | val v => rfl
    | slice a len => rfl
    | iface t w => rfl
    | nilIface => rfl

/-- C152, negation: a nil key in a map keyed by interfaces. -/
theorem nil_key_panics (σ : Store) (e : Ty) (a ka va : Nat) (rest : List (Nat × Nat)) (ha : a ≠ 0)
    (hm : σ.maps a = some ((ka, va) :: rest)) (hc : σ.cell ka = some .nilIface) (n : Nat) :
    marshalAt σ (n + 1) (some (.map .iface e, a)) = .panic := by
  have hie : encoderOfMapKey false [] .iface = .iface false [] := by simp [encoderOfMapKey, keyIsString]
  unfold marshalAt
  simp only [dataLoc, likePtr, if_true]
  rw [encoderOf_map, hie, encodeAt]
  simp only [Store.read, if_true, if_neg ha, hm, pairsAt, keyAt, hc]
  rfl

/-- C152, negation: a nil interface of type `error` (or another with the method) as the first visible field of a struct: the
encoder asserts that it is an `error`. -/
theorem nil_error_panics (σ : Store) (name tag : Bytes) (rest : Fields) (p : Nat) (c : UInt8) (r : Bytes)
    (hn : name = c :: r) (hu : 65 ≤ c ∧ c ≤ 90) (ht : tag = []) (hrest : rest ≠ .nil) (t : Ty) (h : t = .err ∨ t = .marshaler)
    (hc : σ.cell p = some .nilIface) (n : Nat) :
    marshalAt σ (n + 2) (some (.struct (.cons name tag t rest), p)) = .panic := by
  subst hn ht
  have hl : likePtr (.struct (.cons (c :: r) [] t rest)) = false := by
    cases rest with
    | nil => exact absurd rfl hrest
    | cons => simp [likePtr, likePtrs]
  have hg : getFieldName false (c :: r) [] t = c :: r := by
    rcases h with rfl | rfl <;> simp [getFieldName, isUpperLatin1, hu]
  unfold marshalAt
  simp only [dataLoc, hl, encoderOf, encodeAt, encoderOfFields, hg]
  rcases h with rfl | rfl <;>
    simp [fieldsAt, encoderOf, leafAt, Store.read, hc, Res.andThen]

/-- C152, negation: `var x interface{}; x = &x` is never printed to its end (the recursion ends with the stack). -/
theorem cycle_never_ends (σ : Store) (a : Nat) (ha : a ≠ 0) (hc : σ.cell a = some (.iface (.ptr .iface) a)) (n : Nat) :
    marshalAt σ n (some (.ptr .iface, a)) = .more := by
  have key : ∀ n cfg pfx space,
      encodeAt σ n (.ptr .iface) (encoderOf cfg pfx (.ptr .iface)) (.tmp (.word a) 0) space = .more ∧
      encodeAt σ n .iface (encoderOf cfg pfx .iface) (.mem a) space = .more := by
    intro n
    induction n with
    | zero => intro cfg pfx space; exact ⟨rfl, rfl⟩
    | succ n ih =>
      intro cfg pfx space
      constructor
      · rw [encoderOf]
        simp only [encodeAt, Store.read, if_true, if_neg ha]
        exact (ih _ _ _).2
      · have : encoderOf cfg pfx .iface = .dyn := by simp [encoderOf]
        rw [this]
        simp only [encodeAt, Store.read, hc, dataLoc, likePtr, if_true]
        exact (ih _ _ _).1
  unfold marshalAt
  simp only [dataLoc, likePtr, if_true]
  exact (key n _ _ _).1

/-! ## Examples -/

/-- At 10 a pointer to `struct { P *int64 }` in an interface at 20, which is one pointer, to 30; a map keyed by interfaces at
40. -/
def exStore : Store where
  cell a :=
    if a = 10 then some (.word 20)
    else if a = 20 then some (.iface (.struct (.cons (asc "P") [] (.ptr .int64) .nil)) 30)
    else if a = 30 then some (.val (.i64 7))
    else if a = 41 then some (.iface .str 43)
    else if a = 42 then some (.val (.bool true))
    else if a = 43 then some (.val (.str (asc "k")))
    else none
  maps a := if a = 40 then some [(41, 42)] else none

example : marshalAt exStore 9 (some (.ptr .iface, 20)) = .ok (asc "{\"P\":7}") := by decide +kernel
example : marshalAt exStore 9 (some (.map .iface .bool, 40)) = .ok (asc "{\"k\":true}") := by decide +kernel

/-- The hypotheses of `memory_read_partial`. -/
example : HoldsIface (fun _ => False) exStore
      (.ptr (.iface (.struct (.cons (asc "P") [] (.ptr .int64) .nil)) (.struct (.cons (.ptr (.i64 7)) .nil))))
      (.ptr .iface) 20 ∧
    PlainKeys (fun _ => False)
      (.ptr (.iface (.struct (.cons (asc "P") [] (.ptr .int64) .nil)) (.struct (.cons (.ptr (.i64 7)) .nil)))) (.ptr .iface) := by
  constructor
  · refine .inl ⟨.ptr _, ?_⟩
    rw [Holds]
    refine ⟨20, by decide, rfl, ?_⟩
    rw [Holds]
    refine ⟨30, rfl, .inl ⟨.field _ _ _ (.ptr _), ?_⟩⟩
    rw [Holds, HoldsFields]
    refine ⟨?_, ?_⟩
    · rw [Holds]
      exact ⟨30, by decide, rfl, rfl, rfl⟩
    · rw [HoldsFields]
  · simp [PlainKeys, PlainFields]

/-- And with an interface key. -/
example : HoldsIface (fun _ => False) exStore (.map (.cons (.iface .str (.str (asc "k"))) (.bool true) .nil))
      (.map .iface .bool) 40 ∧
    PlainKeys (fun _ => False) (.map (.cons (.iface .str (.str (asc "k"))) (.bool true) .nil)) (.map .iface .bool) := by
  have hd : ¬ Direct (fun _ => False) .str := fun h => nomatch h
  constructor
  · refine .inl ⟨.map _ _, ?_⟩
    rw [Holds]
    refine ⟨40, [(41, 42)], by decide, rfl, rfl, ?_⟩
    rw [HoldsPairs]
    refine ⟨41, 42, [], rfl, ?_, ⟨rfl, rfl⟩, ?_⟩
    · rw [Holds]
      exact ⟨43, rfl, .inr ⟨hd, rfl, rfl⟩⟩
    · rw [HoldsPairs]
  · simp [PlainKeys, PlainPairs, hd]

/-- `map[interface{}]int64{&x: 1}` for an `x int64` that is 5, at 50; the like with nil at 60; a struct with a nil error at 70; a variable
at 80 that holds its own address. -/
def badStore : Store where
  cell a :=
    if a = 51 then some (.iface (.ptr .int64) 53)
    else if a = 52 then some (.val (.i64 1))
    else if a = 53 then some (.val (.i64 5))
    else if a = 61 then some .nilIface
    else if a = 62 then some (.val (.i64 1))
    else if a = 70 then some .nilIface
    else if a = 71 then some (.val (.bool true))
    else if a = 80 then some (.iface (.ptr .iface) 80)
    else none
  maps a := if a = 50 then some [(51, 52)] else if a = 60 then some [(61, 62)] else none

example : marshalAt badStore 9 (some (.map .iface .int64, 50)) = .fault := by decide +kernel
example : marshalAt badStore 9 (some (.map .iface .int64, 60)) = .panic := by decide +kernel
example : marshalAt badStore 9
    (some (.struct (.cons (asc "Err") [] .err (.cons (asc "Done") [] .bool .nil)), 70)) = .panic := by decide +kernel
example : marshalAt badStore 9 (some (.ptr .iface, 80)) = .more := by decide +kernel

end Verif.Jsonfmt.Mem
