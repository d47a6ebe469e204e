import Verif.Spew.Hex
import Verif.Difflib.Unified

/-!
# go-spew: `Sdump`

Models /repo/test/go-spew/spew/dump.go (51-482) with `handleMethods` and the printers of
/repo/test/go-spew/spew/common.go (72-215).

What a program can reach is a heap: pointers, slices and maps refer to cells of it, so that values may
share parts and may contain themselves.  `dump` is a partial function (it does not end on some values),
so the model takes fuel: `none` means that the fuel did not suffice.
-/

namespace Verif.Spew

/-- A `reflect.Value` as `dump` (dump.go 251-449) tells them apart by `Kind`.  Each but the invalid one
carries the text of its type, `v.Type().String()`.  Simplifications: numbers carry the text that
`strconv` gives for them (common.go 154-181); a slice or array whose elements are bytes for dump.go
179-222 carries the bytes; the other slices and the maps carry an address into the heap, 0 for nil. -/
inductive Val where
  | invalid
  | bool (ty : Bytes) (b : Bool)
  | num (ty : Bytes) (text : Bytes)
  | str (ty : Bytes) (s : Bytes)
  /-- `uintptr`, `unsafe.Pointer`, channels (with length and capacity) and functions. -/
  | word (ty : Bytes) (n len cap : Nat)
  | nilIface (ty : Bytes)
  | iface (ty : Bytes) (v : Val)
  | ptr (ty : Bytes) (a : Nat)
  | slice (ty : Bytes) (a cap : Nat)
  | blob (ty : Bytes) (isNil : Bool) (s : Bytes) (cap : Nat)
  | array (ty : Bytes) (vs : List Val)
  | map (ty : Bytes) (a : Nat)
  | struct (ty : Bytes) (fs : List (Bytes × Val))

/-- What the `Error` or `String` method of a value does when called at common.go 117-139: there is none,
it returns a text, or it panics with something whose `%v` is a text. -/
inductive Meth where
  | none
  | text (s : Bytes)
  | panics (s : Bytes)

/-- The fields of `ConfigState` (config.go 38-105) that `dump` reads, and the world around: what the
addresses of pointers, slices and maps hold, what methods do, what `strconv.Quote` gives, and in which
order the entries of a map come at dump.go 386-389 (each key with what `v.MapIndex(key)` finds).
Simplification: nothing writes to the heap while it is dumped. -/
structure Env where
  indent : Bytes
  maxDepth : Int
  disableMethods : Bool
  disableAddresses : Bool
  disableCapacities : Bool
  continueOnMethod : Bool
  at_ : Nat → Val
  elems : Nat → List Val
  entries : Nat → List (Val × Val)
  meth : Val → Meth
  quote : Bytes → Bytes

/-- `dumpState`, dump.go 51-58, with what was written so far. -/
structure St where
  out : Bytes
  depth : Nat
  ptrs : Nat → Option Nat
  noType : Bool
  noIndent : Bool

/-- The `dumpState` made at dump.go 463-464. -/
def St.init : St := ⟨[], 0, fun _ => none, false, false⟩

/-- `d.w.Write`, as at dump.go 67. -/
def St.write (s : St) (b : Bytes) : St := { s with out := s.out ++ b }

/-- `bytes.Repeat(b, n)`, dump.go 67 and 127. -/
def rep (b : Bytes) (n : Nat) : Bytes := (List.replicate n b).flatten

/-- `indent`, dump.go 62-68. -/
def indent (E : Env) (s : St) : St :=
  if s.noIndent then { s with noIndent := false } else s.write (rep E.indent s.depth)

/-- `unpackValue`, dump.go 73-78. -/
def unpack : Val → Val
  | .iface _ v => v
  | v => v

/-- `v.Type().String()`, dump.go 128 and 270. -/
def typeName : Val → Bytes
  | .invalid => []
  | .bool ty _ | .num ty _ | .str ty _ | .word ty _ _ _ | .nilIface ty | .iface ty _ | .ptr ty _
  | .slice ty _ _ | .blob ty _ _ _ | .array ty _ | .map ty _ | .struct ty _ => ty

/-- How the loop at dump.go 100-123 ended: `nilFound`, `cycleFound`, or at a value that is no pointer. -/
inductive Stop where
  | nil
  | cycle
  | value
deriving DecidableEq

/-- The variables of dump.go 91-99 after the loop. -/
structure Chase where
  ptrs : Nat → Option Nat
  chain : List Nat
  indirects : Nat
  stop : Stop
  last : Val

/-- `d.pointers[addr] = d.depth`, dump.go 113. -/
def setPtr (p : Nat → Option Nat) (a d : Nat) : Nat → Option Nat := fun b => if b = a then some d else p b

/-- `pd, ok := d.pointers[addr]; ok && pd < d.depth`, dump.go 108. -/
def shownAbove (p : Nat → Option Nat) (depth a : Nat) : Bool :=
  match p a with
  | some pd => pd < depth
  | none => false

/-- The loop that follows the pointers, dump.go 100-123; the first number is fuel.  The interface is opened
before the test for nil rather than after it; that is the same, as no interface holds an interface. -/
def chase (E : Env) (depth : Nat) : Nat → (Nat → Option Nat) → List Nat → Nat → Val → Option Chase
  | 0, p, ch, ind, v => match v with
    | .ptr _ _ => none
    | v => some ⟨p, ch, ind, .value, v⟩
  | fuel + 1, p, ch, ind, v => match v with
    | .ptr ty a =>
      if a = 0 then some ⟨p, ch, ind, .nil, .ptr ty a⟩
      else if shownAbove p depth a then
        some ⟨p, ch ++ [a], ind, .cycle, .ptr ty a⟩
      else match unpack (E.at_ a) with
        | .nilIface ty => some ⟨setPtr p a depth, ch ++ [a], ind + 1, .nil, .nilIface ty⟩
        | ve => chase E depth fuel (setPtr p a depth) (ch ++ [a]) (ind + 1) ve
    | v => some ⟨p, ch, ind, .value, v⟩

/-- Forgetting the pointers at or below the current depth, dump.go 84-88. -/
def prune (depth : Nat) (p : Nat → Option Nat) : Nat → Option Nat := fun a =>
  match p a with
  | some d => if depth ≤ d then none else some d
  | none => none

/-- `printHexPtr` (common.go 185-215) of an address; C106 shows that it does not fail below 2^64. -/
def hexText (n : Nat) : Bytes := (printHexPtr n).getD []

/-- The addresses of the chain, dump.go 133-140. -/
def chainText : List Nat → Bytes
  | [] => []
  | [a] => hexText a
  | a :: as => hexText a ++ asc "->" ++ chainText as

/-- `dumpPtr`, dump.go 81-157; `f` is `d.dump`. -/
def dumpPtr (E : Env) (f : St → Val → Option St) (fuel : Nat) (s : St) (v : Val) : Option St :=
  match chase E s.depth fuel (prune s.depth s.ptrs) [] 0 v with
  | none => none
  | some c =>
    let s := { s with ptrs := c.ptrs }
    let s := s.write (asc "(" ++ rep (asc "*") c.indirects ++ typeName c.last ++ asc ")")
    let s := if E.disableAddresses = false ∧ c.chain ≠ [] then s.write (asc "(" ++ chainText c.chain ++ asc ")") else s
    let s := s.write (asc "(")
    match c.stop with
    | .nil => some (s.write (asc "<nil>" ++ asc ")"))
    | .cycle => some (s.write (asc "<already shown>" ++ asc ")"))
    | .value => (f { s with noType := true } c.last).map fun s => s.write (asc ")")

/-- Length and capacity, dump.go 278-284. -/
def lenCap (E : Env) : Val → Nat × Nat
  | .slice _ a cap => if a = 0 then (0, 0) else ((E.elems a).length, cap)
  | .blob _ isNil s cap => if isNil then (0, 0) else (s.length, cap)
  | .array _ vs => (vs.length, vs.length)
  | .word _ _ len cap => (len, cap)
  | .map _ a => if a = 0 then (0, 0) else ((E.entries a).length, 0)
  | .str _ s => (s.length, 0)
  | _ => (0, 0)

/-- Showing length and capacity, dump.go 285-300. -/
def lenText (E : Env) (v : Val) : Bytes :=
  let len := (lenCap E v).1
  let cap := (lenCap E v).2
  let showCap := E.disableCapacities = false ∧ cap ≠ 0
  if len ≠ 0 ∨ showCap then
    asc "(" ++ (if len ≠ 0 then asc "len=" ++ Difflib.decimal len else []) ++
      (if showCap then (if len ≠ 0 then asc " " else []) ++ asc "cap=" ++ Difflib.decimal cap else []) ++ asc ") "
  else []

/-- `handleMethods` with `catchPanic`, common.go 72-78 and 85-141, and the test around the call at
dump.go 304-310: what is written, and whether the value counts as handled.  Where the method panics,
the result of the deferred recover is `false`. -/
def methText (E : Env) (v : Val) : Bytes × Bool :=
  if E.disableMethods then ([], false)
  else match v with
    | .nilIface _ | .iface _ _ => ([], false)
    | v => match E.meth v with
      | .none => ([], false)
      | .text t => if E.continueOnMethod then (asc "(" ++ t ++ asc ") ", false) else (t, true)
      | .panics t => ((if E.continueOnMethod then asc "(" else []) ++ asc "(PANIC=" ++ t ++ asc ")", false)

/-- `strings.Replace(str, "\n", "\n"+indent, -1)`, dump.go 230. -/
def afterLines (ind : Bytes) (s : Bytes) : Bytes := s.flatMap fun c => if c = 10 then 10 :: ind else [c]

/-- `strings.TrimRight(str, cutset)`, dump.go 231.  Simplification: the cutset is taken as bytes (the
usual indents are blanks and tabs). -/
def trimRight (cut s : Bytes) : Bytes := (s.reverse.dropWhile (cut.contains ·)).reverse

/-- The hex dump of bytes, dump.go 227-234. -/
def blobText (E : Env) (depth : Nat) (b : Bytes) : Bytes :=
  if b = [] then [] else trimRight E.indent (afterLines (rep E.indent depth) (rep E.indent depth ++ hexDump b))

/-- The elements of a slice or array, dump.go 237-244. -/
def dumpElems (f : St → Val → Option St) : St → List Val → Option St
  | s, [] => some s
  | s, [v] => (f s (unpack v)).map fun s => s.write (asc "\n")
  | s, v :: vs => (f s (unpack v)).bind fun s => dumpElems f (s.write (asc ",\n")) vs

/-- One entry of a map, dump.go 391-394. -/
def dumpEntry (f : St → Val → Option St) (s : St) (kv : Val × Val) : Option St :=
  (f s (unpack kv.1)).bind fun s => f { s.write (asc ": ") with noIndent := true } (unpack kv.2)

/-- The entries of a map, dump.go 390-400. -/
def dumpEntries (f : St → Val → Option St) : St → List (Val × Val) → Option St
  | s, [] => some s
  | s, [kv] => (dumpEntry f s kv).map fun s => s.write (asc "\n")
  | s, kv :: kvs => (dumpEntry f s kv).bind fun s => dumpEntries f (s.write (asc ",\n")) kvs

/-- One field of a struct, dump.go 416-421. -/
def dumpField (E : Env) (f : St → Val → Option St) (s : St) (fv : Bytes × Val) : Option St :=
  f { (indent E s).write (fv.1 ++ asc ": ") with noIndent := true } (unpack fv.2)

/-- The fields of a struct, dump.go 415-427. -/
def dumpFields (E : Env) (f : St → Val → Option St) : St → List (Bytes × Val) → Option St
  | s, [] => some s
  | s, [fv] => (dumpField E f s fv).map fun s => s.write (asc "\n")
  | s, fv :: fvs => (dumpField E f s fv).bind fun s => dumpFields E f (s.write (asc ",\n")) fvs

/-- The braces around a slice, map or struct, dump.go 346-356, 379-404 and 407-431: one level deeper,
unless that is too deep. -/
def block (E : Env) (body : St → Option St) (s : St) : Option St :=
  let s := s.write (asc "{\n")
  let s := { s with depth := s.depth + 1 }
  (if E.maxDepth ≠ 0 ∧ (s.depth : Int) > E.maxDepth then some ((indent E s).write (asc "<max depth reached>\n")) else body s).map
    fun s => (indent E { s with depth := s.depth - 1 }).write (asc "}")

/-- The switch over the kinds, dump.go 312-448. -/
def dumpKind (E : Env) (f : St → Val → Option St) (s : St) : Val → Option St
  | .invalid => some s
  | .bool _ b => some (s.write (if b then asc "true" else asc "false"))
  | .num _ t => some (s.write t)
  | .str _ t => some (s.write (E.quote t))
  | .word _ n _ _ => some (s.write (hexText n))
  | .nilIface _ => some (s.write (asc "<nil>"))
  | .iface _ _ => some s
  | .ptr _ _ => some s
  | .slice _ a _ => if a = 0 then some (s.write (asc "<nil>")) else block E (fun s => dumpElems f s (E.elems a)) s
  | .blob _ isNil b _ =>
    if isNil then some (s.write (asc "<nil>")) else block E (fun s => some (s.write (blobText E s.depth b))) s
  | .array _ vs => block E (fun s => dumpElems f s vs) s
  | .map _ a => if a = 0 then some (s.write (asc "<nil>")) else block E (fun s => dumpEntries f s (E.entries a)) s
  | .struct _ fs => block E (fun s => dumpFields E f s fs) s

/-- `dump` after the pointers are done, dump.go 266-448. -/
def dumpRest (E : Env) (f : St → Val → Option St) (s : St) (v : Val) : Option St :=
  let s := if s.noType then s else (indent E s).write (asc "(" ++ typeName v ++ asc ") ")
  let s := { s with noType := false }
  let s := s.write (lenText E v)
  let s := s.write (methText E v).1
  if (methText E v).2 then some s else dumpKind E f s v

/-- `dump`, dump.go 251-449; the number is fuel. -/
def dump (E : Env) : Nat → St → Val → Option St
  | 0, _, _ => none
  | n + 1, s, v => match v with
    | .invalid => some (s.write (asc "<invalid>"))
    | .ptr ty a => dumpPtr E (dump E n) n (indent E s) (.ptr ty a)
    | v => dumpRest E (dump E n) s v

/-- `fdump`, dump.go 453-468, for `Sdump` (478-482) of one argument; `none` for the argument is `nil`. -/
def sdump (E : Env) (n : Nat) : Option Val → Option Bytes
  | none => some (asc "(interface {}) <nil>\n")
  | some v => (dump E n St.init v).map fun s => s.out ++ asc "\n"

end Verif.Spew
