import Verif.Jsonfmt.ValModel

/-!
# C153 and C154: the extensions and caches of jsonfmt's configurations

`ValModel` builds encoders anew for every value and knows no extensions.  Here configurations have
extensions, and keep the encoders they have built: one cache for types of whole values, one for types of map keys.
Go types are the trees `Ty` as there; types of the same tree are one type here, so that extensions cannot tell
them apart.
-/

namespace Verif.Jsonfmt
deriving instance DecidableEq for Ty, Fields
end Verif.Jsonfmt

namespace Verif.Jsonfmt.Cache

/-- The `Encode` of an encoder given by an extension (msgfmt/jsonfmt/encoder.go:19-25).  Simplified: a function of
the value, without effects (it does not call jsonfmt again). -/
abbrev Hook := Val → Bytes → Bytes

/-- `Extension.EncoderOf(prefix, valType)`, msgfmt/jsonfmt/encoder.go:23-25; `none` is nil. -/
abbrev Extension := Bytes → Ty → Option Hook

/-- `Config`, msgfmt/jsonfmt/encoder.go:27-30. -/
structure Config where
  unexported : Bool
  extensions : List Extension

mutual
/-- Encoder objects (msgfmt/jsonfmt/encoder.go:103-176): those of `ValModel` that have no parts, those given by
extensions, and those with parts. -/
inductive Enc where
  | plain (e : Jsonfmt.Enc)
  | ext (h : Hook)
  | ptr (elem : Enc) | slice (elem : Enc) | array (elem : Enc)
  | map (key : KeyEnc) (elem : Enc) | struct (fields : FieldEncs) | dyn
/-- Map key encoders (msgfmt/jsonfmt/encoder_map.go:33-63); the last has its configuration and a prefix. -/
inductive KeyEnc where
  | number (e : Enc)
  | string (e : Enc)
  | iface (c : Nat) (pfx : Bytes)
/-- `structEncoder.fields`, as in `ValModel` (msgfmt/jsonfmt/encoder_stuct.go:9-17). -/
inductive FieldEncs where
  | nil
  | skip (rest : FieldEncs)
  | cons (pfx : Bytes) (e : Enc) (rest : FieldEncs)
end

/-- `mapKeyEncoderCache`, msgfmt/jsonfmt/encoder.go:44. -/
abbrev KeyCache := Ty → Option KeyEnc

/-- The loop over the extensions, msgfmt/jsonfmt/encoder.go:104-109. -/
def consult : List Extension → Bytes → Ty → Option Hook
  | [], _, _ => none
  | x :: xs, pfx, t =>
    match x pfx t with
    | some h => some h
    | none => consult xs pfx t

/-- The wrappers put on by `_encoderOfMapKey`, msgfmt/jsonfmt/encoder.go:197-206. -/
def wrapKey (c : Nat) (pfx : Bytes) (k : Ty) (e : Enc) : KeyEnc :=
  if keyIsString k then .string e
  else match k with
    | .iface => .iface c pfx
    | _ => .number e

mutual
/-- `encoderOf` of configuration number `c`, msgfmt/jsonfmt/encoder.go:103-176, with `encoderOfMap` 186-195 and
`encoderOfMapKey` 79-88 (look the key type up, or build and store its encoder) inlined. -/
def build (cf : Config) (c : Nat) (pfx : Bytes) (t : Ty) (k : KeyCache) : Enc × KeyCache :=
  match consult cf.extensions pfx t with
  | some h => (.ext h, k)
  | none =>
    match t with
    | .ptr t =>
      let r := build cf c (pfx ++ asc " [ptrElem]") t k
      (.ptr r.1, r.2)
    | .slice t =>
      let r := build cf c (pfx ++ asc " [sliceElem]") t k
      (.slice r.1, r.2)
    | .array _ t =>
      let r := build cf c (pfx ++ asc " [sliceElem]") t k
      (.array r.1, r.2)
    | .map kt vt =>
      match k kt with
      | some ke =>
        let r := build cf c (pfx ++ asc " [mapElem]") vt k
        (.map ke r.1, r.2)
      | none =>
        let rk := build cf c (pfx ++ asc " [mapKey]") kt k
        let ke := wrapKey c pfx kt rk.1
        let r := build cf c (pfx ++ asc " [mapElem]") vt (fun t => if t = kt then some ke else rk.2 t)
        (.map ke r.1, r.2)
    | .struct fs =>
      let r := buildFields cf c false fs k
      (.struct r.1, r.2)
    | .iface => (.dyn, k)
    | .func n => (.plain (.unsupported (unsupportedMsg n pfx)), k)
    | .chan n => (.plain (.unsupported (unsupportedMsg n pfx)), k)
    | .other n => (.plain (.unsupported (unsupportedMsg n pfx)), k)
    | .bytes => (.plain .bytes, k)
    | .err => (.plain .err, k)
    | .marshaler => (.plain .marshaler, k)
    | .bool => (.plain .bool, k)
    | .int8 => (.plain .int8, k)
    | .uint8 => (.plain .uint8, k)
    | .int16 => (.plain .int16, k)
    | .uint16 => (.plain .uint16, k)
    | .int32 => (.plain .int32, k)
    | .uint32 => (.plain .uint32, k)
    | .int64 => (.plain .int64, k)
    | .uint64 => (.plain .uint64, k)
    | .float => (.plain .float, k)
    | .str => (.plain .str, k)

/-- The field loop of `encoderOfStruct`, msgfmt/jsonfmt/encoder.go:218-240; the inner `prefix` shadows the outer. -/
def buildFields (cf : Config) (c : Nat) (some : Bool) : Fields → KeyCache → FieldEncs × KeyCache
  | .nil, k => (.nil, k)
  | .cons name tag ty rest, k =>
    let n := getFieldName cf.unexported name tag ty
    if n = [] then
      let r := buildFields cf c some rest k
      (.skip r.1, r.2)
    else
      let pfx := (if some then [44] else []) ++ [34] ++ n ++ [34, 58]
      let e := build cf c (pfx ++ asc " ." ++ n) ty k
      let r := buildFields cf c true rest e.2
      (.cons pfx e.1 r.1, r.2)
end

/-- What a frozen configuration remembers: `encoderCache` and `mapKeyEncoderCache`, msgfmt/jsonfmt/encoder.go:40-54. -/
structure Caches where
  encs : Ty → Option Enc
  keys : KeyCache

/-- The caches of all configurations; configuration 0 is `ConfigDefault` (msgfmt/jsonfmt/encoder.go:37). -/
abbrev World := Nat → Caches

/-- `concurrent.NewMap()` for every cache, msgfmt/jsonfmt/encoder.go:47-54. -/
def World.init : World := fun _ => ⟨fun _ => none, fun _ => none⟩

/-- One configuration's caches change (for msgfmt/jsonfmt/encoder.go:65-88). -/
def World.set (w : World) (c : Nat) (x : Caches) : World := fun d => if d = c then x else w d

/-- `EncoderOf`, msgfmt/jsonfmt/encoder.go:65-77 (`EncoderOfObject` 56-63 does the same).  The wrapper of types of one pointer
(72-74) is a matter of addresses: `MemModel`. -/
def encoderOf (conf : Nat → Config) (c : Nat) (t : Ty) (w : World) : Enc × World :=
  match (w c).encs t with
  | some e => (e, w)
  | none =>
    let r := build (conf c) c [] t (w c).keys
    (r.1, w.set c ⟨fun u => if u = t then some r.1 else (w c).encs u, r.2⟩)

/-- `encoderOfMapKey`, msgfmt/jsonfmt/encoder.go:79-88, as called for keys that are interfaces (encoder_map.go:60-61). -/
def keyEncoderOf (conf : Nat → Config) (c : Nat) (pfx : Bytes) (kt : Ty) (w : World) : KeyEnc × World :=
  match (w c).keys kt with
  | some ke => (ke, w)
  | none =>
    let r := build (conf c) c (pfx ++ asc " [mapKey]") kt (w c).keys
    let ke := wrapKey c pfx kt r.1
    (ke, w.set c ⟨(w c).encs, fun t => if t = kt then some ke else r.2 t⟩)

/-- The key encoders other than that for interfaces, encoder_map.go:33-52; `enc` prints the key. -/
def withKey (enc : Enc → Bytes → World → Bytes × World) : KeyEnc → Bytes → World → Bytes × World
  | .number e, space, w =>
    let r := enc e (space ++ [34]) w
    (r.1 ++ [34, 58], r.2)
  | .string e, space, w =>
    let r := enc e space w
    (r.1 ++ [58], r.2)
  | .iface _ _, space, w => (space, w)

mutual
/-- The `Encode` methods (the files listed at `Verif.Jsonfmt.encode`), which look encoders up for the values in
interfaces: encoder_dynamic.go:13-19 with the default configuration, encoder_map.go:59-63 with their own. -/
def encode (conf : Nat → Config) : Val → Enc → Bytes → World → Bytes × World
  | v, .plain e, space, w => (Jsonfmt.encode v e space, w)
  | v, .ext h, space, w => (h v space, w)
  | .nil, .ptr _, space, w => (space ++ [110, 117, 108, 108], w)
  | .ptr v, .ptr e, space, w => encode conf v e space w
  | .seq vs, .slice e, space, w =>
    let r := encodeElems conf vs e true (space ++ [91]) w
    (r.1 ++ [93], r.2)
  | .seq vs, .array e, space, w =>
    let r := encodeElems conf vs e true (space ++ [91]) w
    (r.1 ++ [93], r.2)
  | .nil, .map _ _, space, w => (space ++ [110, 117, 108, 108], w)
  | .map kvs, .map ke ee, space, w =>
    let r := encodePairs conf kvs ke ee true (space ++ [123]) w
    (r.1 ++ [125], r.2)
  | .struct vs, .struct fs, space, w =>
    let r := encodeFields conf vs fs (space ++ [123]) w
    (r.1 ++ [125], r.2)
  | .nil, .dyn, space, w => (space ++ [110, 117, 108, 108], w)
  | .iface t v, .dyn, space, w =>
    let e := encoderOf conf 0 t w
    encode conf v e.1 space e.2
  | _, _, space, w => (space, w)

/-- The loop of encoder_slice.go:18-24 / encoder_array.go:17-23. -/
def encodeElems (conf : Nat → Config) : Vals → Enc → Bool → Bytes → World → Bytes × World
  | .nil, _, _, space, w => (space, w)
  | .cons v vs, e, first, space, w =>
    let r := encode conf v e (if first then space else space ++ [44]) w
    encodeElems conf vs e false r.1 r.2

/-- The loop of encoder_map.go:21-28, with the key encoder for keys that are interfaces (59-63) inlined. -/
def encodePairs (conf : Nat → Config) : Pairs → KeyEnc → Enc → Bool → Bytes → World → Bytes × World
  | .nil, _, _, _, space, w => (space, w)
  | .cons k v ps, ke, ee, first, space, w =>
    let space := if first then space else space ++ [44]
    let r :=
      match ke with
      | .iface c pfx =>
        match k with
        | .iface t k =>
          let e := keyEncoderOf conf c pfx t w
          withKey (encode conf k) e.1 space e.2
        | _ => (space, w)
      | ke => withKey (encode conf k) ke space w
    let r := encode conf v ee r.1 r.2
    encodePairs conf ps ke ee false r.1 r.2

/-- The loop of encoder_stuct.go:21-25. -/
def encodeFields (conf : Nat → Config) : Vals → FieldEncs → Bytes → World → Bytes × World
  | .cons _ vs, .skip fs, space, w => encodeFields conf vs fs space w
  | .cons v vs, .cons pfx e fs, space, w =>
    let r := encode conf v e (space ++ pfx) w
    encodeFields conf vs fs r.1 r.2
  | _, _, space, w => (space, w)
end

/-- A value is marshalled: `EncoderOfObject` of configuration `c` and `Encode`, msgfmt/jsonfmt/encoder.go:98-101. -/
def marshal (conf : Nat → Config) (c : Nat) (t : Ty) (v : Val) (w : World) : Bytes × World :=
  let e := encoderOf conf c t w
  encode conf v e.1 [] e.2

/-- One value after the other is marshalled, with any configurations (msgfmt/jsonfmt/encoder.go:56-101): the caches after that. -/
def history (conf : Nat → Config) : List (Nat × Ty × Val) → World → World
  | [], w => w
  | (c, t, v) :: rest, w => history conf rest (marshal conf c t v w).2

end Verif.Jsonfmt.Cache
