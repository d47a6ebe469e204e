import Verif.Jsonfmt.ValModel

/-!
# The encoders of `msgfmt/jsonfmt` on memory

`Verif.Jsonfmt.ValModel` encodes trees.  The Go encoders get an address and read memory through it
(`unsafe.Pointer`), so that what they print is right only if every address they are given points to a value of their
type.  Here they run on a store of cells; a read of a cell that does not hold what the encoder takes it for is a
`fault` (in Go: undefined, mostly a segmentation fault), and a type assertion on nil is a `panic`.

A cell is one variable without parts: a number, a string, a pointer, an interface, a slice header.  All cells have size 1;
arrays and structs are consecutive cells.  Recursion is by fuel, because values may contain themselves.
-/

namespace Verif.Jsonfmt.Mem

/-- What one cell holds: a number, bool, string, `[]byte`, or value of a type with method `Error` or `MarshalJSON`
(`val`); the word of a pointer, map, channel or function (0 is nil); a slice header (reflect2/unsafe_slice.go:9-13); an
interface with its type and data word, reflect2/unsafe_eface.go:8-11, or nil.  The bytes of strings are
in the cell. -/
inductive Cell where
  | val (v : Val)
  | word (a : Nat)
  | slice (a len : Nat)
  | iface (t : Ty) (w : Nat)
  | nilIface

/-- Memory: cells by address, and by the word of a map the addresses of its keys and elements in the order of this iteration
(the runtime's iterator, encoder_map.go:19-25). -/
structure Store where
  cell : Nat → Option Cell
  maps : Nat → Option (List (Nat × Nat))

/-- An `unsafe.Pointer`: into the store, or `off` cells behind the parameter `ptr` of `onePtrInterfaceEncoder.Encode`, whose
address is taken at encoder.go:213. -/
inductive Loc where
  | mem (a : Nat)
  | tmp (c : Cell) (off : Nat)

/-- `add`, reflect2/unsafe_link.go:57-59, and `arrayAt` 68-70, in cells (as used at reflect2/unsafe_field.go:72-74). -/
def Loc.add : Loc → Nat → Loc
  | .mem a, k => .mem (a + k)
  | .tmp c off, k => .tmp c (off + k)

/-- Reading the cell an address points to (the dereferences in the encoder_*.go files, for example encoder_pointer.go:13). -/
def Store.read (σ : Store) : Loc → Option Cell
  | .mem a => σ.cell a
  | .tmp c off => if off = 0 then some c else none

/-- How an encoding ends: with the text, with a panic, with a read of something else than what the encoder takes it for, or not
within the fuel (the results of `Encode`, encoder.go:19-21). -/
inductive Res where
  | ok (out : Bytes)
  | panic
  | fault
  | more
  deriving DecidableEq

/-- Sequencing, as in `space = encoder.Encode(...)` (encoder_map.go:26-27). -/
def Res.andThen : Res → (Bytes → Res) → Res
  | .ok out, f => f out
  | r, _ => r

mutual
/-- The size of a variable, in cells (`reflect.Type.Size`, as in reflect2/unsafe_array.go:16-24). -/
def size : Ty → Nat
  | .array n e => n * size e
  | .struct fs => sizes fs
  | _ => 1

/-- The size of a struct without padding (`reflect.StructField.Offset`, reflect2/unsafe_field.go:24-26). -/
def sizes : Fields → Nat
  | .nil => 0
  | .cons _ _ t rest => size t + sizes rest
end

mutual
/-- `LikePtr`: `likePtrType` reflect2/reflect2.go:254-271, and always true for maps, pointers, channels and functions
(reflect2/unsafe_map.go:38-40, unsafe_ptr.go:34-36).  The types with a method `Error` or `MarshalJSON` are taken not to be
like pointers (their encoders go through `UnsafeIndirect`, which follows the same rule). -/
def likePtr : Ty → Bool
  | .ptr _ => true
  | .map _ _ => true
  | .chan _ => true
  | .func _ => true
  | .struct fs => likePtrs fs
  | .array n e => if n ≠ 1 then false else likePtr e
  | _ => false

/-- The struct case, reflect2/reflect2.go:258-263. -/
def likePtrs : Fields → Bool
  | .cons _ _ t .nil => likePtr t
  | _ => false
end

/-- The address `Encode` gets for an interface: the data word (`reflect2.PtrOf`, reflect2/reflect2.go:223-225) or, for the types
like pointers, the address of a variable with it (`onePtrInterfaceEncoder`, encoder.go:72-74 and 208-214). -/
def dataLoc (t : Ty) (w : Nat) : Loc := if likePtr t then .tmp (.word w) 0 else .mem w

/-- Whether a cell's value is one the encoder of a type without parts reads (encoder_bool.go:12, encoder_int.go:25-76,
encoder_float.go:19-28, encoder_str.go:119-121, encoder_bytes.go:12-14, encoder_error.go:13-19,
encoder_json_marshaler.go:14-25). -/
def fits : Enc → Val → Bool
  | .bool, .bool _ => true
  | .int8, .i8 _ => true
  | .uint8, .u8 _ => true
  | .int16, .i16 _ => true
  | .uint16, .u16 _ => true
  | .int32, .i32 _ => true
  | .uint32, .u32 _ => true
  | .int64, .i64 _ => true
  | .uint64, .u64 _ => true
  | .float, .float _ _ _ => true
  | .str, .str _ => true
  | .bytes, .bytes _ => true
  | .err, .err _ => true
  | .marshaler, .marshOk _ => true
  | .marshaler, .marshErr _ => true
  | _, _ => false

/-- The encoders of types without parts.  The assertion `obj.(error)` (encoder_error.go:16) or `obj.(json.Marshaler)`
(encoder_json_marshaler.go:16) panics if the variable is a nil interface. -/
def leafAt (e : Enc) (c : Option Cell) (space : Bytes) : Res :=
  match c with
  | some (.val v) => if fits e v then .ok (encode v e space) else .fault
  | some .nilIface =>
    match e with
    | .err => .panic
    | .marshaler => .panic
    | _ => .fault
  | _ => .fault

/-- The loop of encoder_slice.go:18-24 and encoder_array.go:17-23 over `n` elements of size `sz`; `enc` is the element
encoder and `first` is `i == 0`. -/
def elemsAt (enc : Loc → Bytes → Res) (sz : Nat) : Nat → Loc → Bool → Bytes → Res
  | 0, _, _, space => .ok space
  | n + 1, l, first, space =>
    (enc l (if first then space else space ++ [44])).andThen fun space => elemsAt enc sz n (l.add sz) false space

/-- The loop of encoder_stuct.go:21-25; fields and encoders side by side (Go keeps them together, encoder_stuct.go:13-17). -/
def fieldsAt (enc : Ty → Enc → Loc → Bytes → Res) : Fields → FieldEncs → Loc → Bytes → Res
  | .cons _ _ t fs, .skip es, l, space => fieldsAt enc fs es (l.add (size t)) space
  | .cons _ _ t fs, .cons pfx e es, l, space =>
    (enc t e l (space ++ pfx)).andThen fun space => fieldsAt enc fs es (l.add (size t)) space
  | _, _, _, space => .ok space

/-- The loop of encoder_map.go:21-28. -/
def pairsAt (key elem : Loc → Bytes → Res) : List (Nat × Nat) → Bool → Bytes → Res
  | [], _, space => .ok space
  | (k, v) :: ps, first, space =>
    (key (.mem k) (if first then space else space ++ [44])).andThen fun space =>
      (elem (.mem v) space).andThen fun space => pairsAt key elem ps false space

/-- The key encoders without interfaces, encoder_map.go:33-52. -/
def plainKeyAt (enc : Ty → Enc → Loc → Bytes → Res) (t : Ty) (ke : KeyEnc) (l : Loc) (space : Bytes) : Res :=
  match ke with
  | .number e => (enc t e l (space ++ [34])).andThen fun space => .ok (space ++ [34, 58])
  | .string e => (enc t e l space).andThen fun space => .ok (space ++ [58])
  | .iface _ _ => .fault

/-- `mapInterfaceKeyEncoder`, encoder_map.go:54-63, and the other key encoders.  The key's encoder gets the data word
of the interface, whatever its type: `encoderOfMapKey` (encoder.go:79-88, 197-206) has no `onePtrInterfaceEncoder`.  For a nil
interface `reflect2.TypeOf` panics (reflect2/reflect2.go:164-165 calls a method of a nil `reflect.Type`). -/
def keyAt (enc : Ty → Enc → Loc → Bytes → Res) (σ : Store) (t : Ty) (ke : KeyEnc) (l : Loc) (space : Bytes) : Res :=
  match ke with
  | .iface cfg pfx =>
    match σ.read l with
    | some (.iface dt w) => plainKeyAt enc dt (encoderOfMapKey cfg pfx dt) (.mem w) space
    | some .nilIface => .panic
    | _ => .fault
  | ke => plainKeyAt enc t ke l space

/-- `Encode` of the encoder `e` that `encoderOf` (encoder.go:103-176) made for the type `t`, at an address: encoder_pointer.go:12-18,
encoder_slice.go:14-27, encoder_array.go:14-26, encoder_map.go:15-31, encoder_stuct.go:19-28, encoder_dynamic.go:13-19 (with
`EncoderOf`, encoder.go:65-77), encoder.go:182-184, and `leafAt`. -/
def encodeAt (σ : Store) : Nat → Ty → Enc → Loc → Bytes → Res
  | 0, _, _, _, _ => .more
  | n + 1, t, e, l, space =>
    match t, e with
    | .ptr t, .ptr e =>
      match σ.read l with
      | some (.word a) => if a = 0 then .ok (space ++ [110, 117, 108, 108]) else encodeAt σ n t e (.mem a) space
      | _ => .fault
    | .slice t, .slice e =>
      match σ.read l with
      | some (.slice a len) =>
        (elemsAt (encodeAt σ n t e) (size t) len (.mem a) true (space ++ [91])).andThen fun space => .ok (space ++ [93])
      | _ => .fault
    | .array len t, .array e =>
      (elemsAt (encodeAt σ n t e) (size t) len l true (space ++ [91])).andThen fun space => .ok (space ++ [93])
    | .struct fs, .struct es =>
      (fieldsAt (encodeAt σ n) fs es l (space ++ [123])).andThen fun space => .ok (space ++ [125])
    | .map k v, .map ke ee =>
      match σ.read l with
      | some (.word a) =>
        if a = 0 then .ok (space ++ [110, 117, 108, 108])
        else
          match σ.maps a with
          | some ps =>
            (pairsAt (keyAt (encodeAt σ n) σ k ke) (encodeAt σ n v ee) ps true (space ++ [123])).andThen fun space =>
              .ok (space ++ [125])
          | none => .fault
      | _ => .fault
    | .iface, .dyn =>
      match σ.read l with
      | some .nilIface => .ok (space ++ [110, 117, 108, 108])
      | some (.iface t w) => encodeAt σ n t (encoderOf false [] t) (dataLoc t w) space
      | _ => .fault
    | _, .unsupported msg => .ok (space ++ msg)
    | _, e => leafAt e (σ.read l) space

/-- `MarshalToString`, encoder.go:98-101, of an interface (type and data word, or nil).  For nil, `reflect2.TypeOf` panics as
in `keyAt`. -/
def marshalAt (σ : Store) (fuel : Nat) (obj : Option (Ty × Nat)) : Res :=
  match obj with
  | none => .panic
  | some (t, w) => encodeAt σ fuel t (encoderOf false [] t) (dataLoc t w) []

end Verif.Jsonfmt.Mem
