import Verif.Jsonfmt.IntModel
import Verif.Jsonfmt.StrModel
import Verif.Jsonfmt.FloatModel

/-!
# Model of the value encoders of `msgfmt/jsonfmt`

Go types are the finite trees `Ty` (recursive Go types have no counterpart; see
`Verif.Jsonfmt.RecType`), values are the trees `Val`.  Memory addressing
(`unsafe.Pointer`, `onePtrInterfaceEncoder`) is in `Verif.Jsonfmt.MemModel`; extensions and the encoder caches are
in `Verif.Jsonfmt.CacheModel`.  A value that does not fit its encoder leaves the output
unchanged; Go's reflection rules that out.
-/

namespace Verif.Jsonfmt

mutual
/-- The Go types distinguished by `encoderOf`, msgfmt/jsonfmt/encoder.go:103-176.
`err`/`marshaler` stand for types implementing `error`/`json.Marshaler`;
`int64`/`uint64` also for `int` and `uint`/`uintptr`; `float` for both float
types; the last three carry the type's name. -/
inductive Ty where
  | bool | int8 | uint8 | int16 | uint16 | int32 | uint32 | int64 | uint64 | float
  | str | bytes | err | marshaler
  | ptr (elem : Ty) | slice (elem : Ty) | array (len : Nat) (elem : Ty)
  | map (key elem : Ty) | struct (fields : Fields) | iface
  | func (name : Bytes) | chan (name : Bytes) | other (name : Bytes)
/-- Struct fields in declaration order: name, json tag (`Tag.Get("json")`), type (encoder.go:242-264). -/
inductive Fields where
  | nil
  | cons (name tag : Bytes) (ty : Ty) (rest : Fields)
end

mutual
/-- Encoder objects built by `encoderOf` (msgfmt/jsonfmt/encoder.go:103-176 and the
encoder_*.go files). -/
inductive Enc where
  | bool | int8 | uint8 | int16 | uint16 | int32 | uint32 | int64 | uint64 | float
  | str | bytes | err | marshaler
  | ptr (elem : Enc) | slice (elem : Enc) | array (elem : Enc)
  | map (key : KeyEnc) (elem : Enc) | struct (fields : FieldEncs) | dyn
  | unsupported (msg : Bytes)
/-- Map key encoders (msgfmt/jsonfmt/encoder_map.go:33-63). -/
inductive KeyEnc where
  | number (e : Enc)
  | string (e : Enc)
  | iface (includesUnexported : Bool) (pfx : Bytes)
/-- `structEncoder.fields` (msgfmt/jsonfmt/encoder_stuct.go:9-17), one entry per Go
field: skipped or with its text prefix and encoder.  (Go keeps only the visible
ones together with their offset.) -/
inductive FieldEncs where
  | nil
  | skip (rest : FieldEncs)
  | cons (pfx : Bytes) (e : Enc) (rest : FieldEncs)
end

mutual
/-- Go values.  A nil slice and an empty slice are both `seq .nil` (the slice
encoder only looks at the length). `marshOk`/`marshErr`: the outcome of
`MarshalJSON` (the arguments of `Encode`, encoder.go:56-101). -/
inductive Val where
  | bool (b : Bool) | i8 (v : Int8) | u8 (v : UInt8) | i16 (v : Int16) | u16 (v : UInt16)
  | i32 (v : Int32) | u32 (v : UInt32) | i64 (v : Int64) | u64 (v : UInt64)
  | float (neg : Bool) (m k : Nat)
  | str (s : Bytes) | bytes (s : Bytes) | err (msg : Bytes)
  | marshOk (out : Bytes) | marshErr (msg : Bytes)
  | nil | ptr (v : Val) | seq (vs : Vals) | map (kvs : Pairs) | struct (vs : Vals)
  | iface (t : Ty) (v : Val)
/-- Elements or field values (encoder_slice.go, encoder_stuct.go). -/
inductive Vals where
  | nil
  | cons (v : Val) (vs : Vals)
/-- Map entries in the order of this iteration (encoder_map.go:9-31). -/
inductive Pairs where
  | nil
  | cons (k v : Val) (ps : Pairs)
end

/-- `unicode.IsUpper(rune(b))` for a byte `b` (Latin-1 part of the table; used at
msgfmt/jsonfmt/encoder.go:243). -/
def isUpperLatin1 (b : UInt8) : Bool :=
  (65 ≤ b && b ≤ 90) || (0xC0 ≤ b && b ≤ 0xDE && b != 0xD7)

/-- `getFieldName`, msgfmt/jsonfmt/encoder.go:242-264; empty means "skip". -/
def getFieldName (includesUnexported : Bool) (name tag : Bytes) (ty : Ty) : Bytes :=
  if !includesUnexported && !isUpperLatin1 (name.headD 0) then []
  else
    match ty with
    | .func _ => []
    | .chan _ => []
    | _ =>
      if tag = [] then name
      else
        let part0 := tag.takeWhile (· != 44)   -- strings.Split(jsonTag, ",")[0]
        if part0 = [45] then []
        else if part0 = [] then name
        else part0

/-- `unsupportedEncoder{fmt.Sprintf(...)}`, msgfmt/jsonfmt/encoder.go:175. -/
def unsupportedMsg (name pfx : Bytes) : Bytes :=
  asc "\"can not encode " ++ name ++ asc " " ++ pfx ++ asc " to json\""

/-- `keyType.Kind() == reflect.String || keyType == bytesType`,
msgfmt/jsonfmt/encoder.go:199. -/
def keyIsString : Ty → Bool
  | .str => true
  | .bytes => true
  | _ => false

mutual
/-- `encoderOf`, msgfmt/jsonfmt/encoder.go:103-176, with `encoderOfMap` 186-195 and
`_encoderOfMapKey` 197-206 inlined. -/
def encoderOf (cfg : Bool) (pfx : Bytes) : Ty → Enc
  | .bytes => .bytes
  | .err => .err
  | .marshaler => .marshaler
  | .bool => .bool
  | .int8 => .int8
  | .uint8 => .uint8
  | .int16 => .int16
  | .uint16 => .uint16
  | .int32 => .int32
  | .uint32 => .uint32
  | .int64 => .int64
  | .uint64 => .uint64
  | .float => .float
  | .str => .str
  | .ptr t => .ptr (encoderOf cfg (pfx ++ asc " [ptrElem]") t)
  | .slice t => .slice (encoderOf cfg (pfx ++ asc " [sliceElem]") t)
  | .array _ t => .array (encoderOf cfg (pfx ++ asc " [sliceElem]") t)
  | .struct fs => .struct (encoderOfFields cfg false fs)
  | .map k v =>
    .map
      (if keyIsString k then .string (encoderOf cfg (pfx ++ asc " [mapKey]") k)
       else match k with
        | .iface => .iface cfg pfx
        | k => .number (encoderOf cfg (pfx ++ asc " [mapKey]") k))
      (encoderOf cfg (pfx ++ asc " [mapElem]") v)
  | .iface => .dyn
  | .func n => .unsupported (unsupportedMsg n pfx)
  | .chan n => .unsupported (unsupportedMsg n pfx)
  | .other n => .unsupported (unsupportedMsg n pfx)

/-- The field loop of `encoderOfStruct`, msgfmt/jsonfmt/encoder.go:216-240; `some`
is `len(fields) != 0`. The inner `prefix` shadows the outer one. -/
def encoderOfFields (cfg : Bool) (some : Bool) : Fields → FieldEncs
  | .nil => .nil
  | .cons name tag ty rest =>
    let n := getFieldName cfg name tag ty
    if n = [] then .skip (encoderOfFields cfg some rest)
    else
      let pfx := (if some then [44] else []) ++ [34] ++ n ++ [34, 58]
      .cons pfx (encoderOf cfg (pfx ++ asc " ." ++ n) ty) (encoderOfFields cfg true rest)
end

/-- `_encoderOfMapKey`, msgfmt/jsonfmt/encoder.go:197-206. -/
def encoderOfMapKey (cfg : Bool) (pfx : Bytes) (k : Ty) : KeyEnc :=
  if keyIsString k then .string (encoderOf cfg (pfx ++ asc " [mapKey]") k)
  else match k with
    | .iface => .iface cfg pfx
    | k => .number (encoderOf cfg (pfx ++ asc " [mapKey]") k)

mutual
/-- The `Encode` methods: encoder_bool.go:11-18, encoder_int.go:22-76,
encoder_float.go:16-28, encoder_str.go:116-121, encoder_bytes.go:9-14,
encoder_error.go:13-19, encoder_json_marshaler.go:14-25, encoder_pointer.go:12-18,
encoder_slice.go:14-27, encoder_array.go:14-26, encoder_map.go:15-31,
encoder_stuct.go:19-28, encoder_dynamic.go:13-19 (which always uses the default
configuration), encoder.go:182-184. -/
def encode : Val → Enc → Bytes → Bytes
  | .bool b, .bool, space =>
    if b then space ++ [116, 114, 117, 101] else space ++ [102, 97, 108, 115, 101]
  | .i8 v, .int8, space => writeInt8 space v
  | .u8 v, .uint8, space => writeUint8 space v
  | .i16 v, .int16, space => writeInt16 space v
  | .u16 v, .uint16, space => writeUint16 space v
  | .i32 v, .int32, space => writeInt32 space v
  | .u32 v, .uint32, space => writeUint32 space v
  | .i64 v, .int64, space => writeInt64 space v
  | .u64 v, .uint64, space => writeUint64 space v
  | .float neg m k, .float, space => writeFloatLossy space neg m k
  | .str s, .str, space => writeString space s
  | .bytes s, .bytes, space => writeBytes space s
  | .err msg, .err, space => space ++ [34] ++ msg ++ [34]
  | .marshErr msg, .marshaler, space => space ++ [34] ++ msg ++ [34]
  | .marshOk out, .marshaler, space => space ++ out
  | .nil, .ptr _, space => space ++ [110, 117, 108, 108]
  | .ptr v, .ptr e, space => encode v e space
  | .seq vs, .slice e, space => encodeElems vs e true (space ++ [91]) ++ [93]
  | .seq vs, .array e, space => encodeElems vs e true (space ++ [91]) ++ [93]
  | .nil, .map _ _, space => space ++ [110, 117, 108, 108]
  | .map kvs, .map ke ee, space => encodePairs kvs ke ee true (space ++ [123]) ++ [125]
  | .struct vs, .struct fs, space => encodeFields vs fs (space ++ [123]) ++ [125]
  | .nil, .dyn, space => space ++ [110, 117, 108, 108]
  | .iface t v, .dyn, space => encode v (encoderOf false [] t) space
  | _, .unsupported msg, space => space ++ msg
  | _, _, space => space

/-- The loop of encoder_slice.go:18-24 / encoder_array.go:17-23; `first` is
`i == 0`. -/
def encodeElems : Vals → Enc → Bool → Bytes → Bytes
  | .nil, _, _, space => space
  | .cons v vs, e, first, space =>
    let space := if first then space else space ++ [44]
    encodeElems vs e false (encode v e space)

/-- The loop of encoder_map.go:21-28 with the key encoders 33-63 inlined. -/
def encodePairs : Pairs → KeyEnc → Enc → Bool → Bytes → Bytes
  | .nil, _, _, _, space => space
  | .cons k v ps, ke, ee, first, space =>
    let space := if first then space else space ++ [44]
    let space :=
      match ke with
      | .number e => encode k e (space ++ [34]) ++ [34, 58]
      | .string e => encode k e space ++ [58]
      | .iface cfg pfx =>
        match k with
        | .iface t kv =>
          match encoderOfMapKey cfg pfx t with
          | .number e => encode kv e (space ++ [34]) ++ [34, 58]
          | .string e => encode kv e space ++ [58]
          | .iface _ _ => space
        | _ => space
    encodePairs ps ke ee false (encode v ee space)

/-- The loop of encoder_stuct.go:21-25. -/
def encodeFields : Vals → FieldEncs → Bytes → Bytes
  | .cons _ vs, .skip fs, space => encodeFields vs fs space
  | .cons v vs, .cons pfx e fs, space => encodeFields vs fs (encode v e (space ++ pfx))
  | _, _, space => space
end

/-- `MarshalToString`, msgfmt/jsonfmt/encoder.go:98-101, for a value of type `t`. -/
def marshal (t : Ty) (v : Val) : Bytes := encode v (encoderOf false [] t) []

end Verif.Jsonfmt
