import Verif.Msgfmt.FormatModel

/-!
# Specification: message templates and what they print

A template is literal text with placeholders `{name}` or `{name, function, arg, …}`,
white space allowed around the name and before the function.
-/

namespace Verif.Msgfmt
open Verif.Spec

/-- ASCII white space bytes. -/
def spaceByte (b : UInt8) : Prop := b.toNat = 32 ∨ (9 ≤ b.toNat ∧ b.toNat ≤ 13)

/-- White space of Unicode (property White_Space). -/
def white (n : Nat) : Prop :=
  (9 ≤ n ∧ n ≤ 13) ∨ n = 0x20 ∨ n = 0x85 ∨ n = 0xA0 ∨ n = 0x1680 ∨ (0x2000 ≤ n ∧ n ≤ 0x200A) ∨
  n = 0x2028 ∨ n = 0x2029 ∨ n = 0x202F ∨ n = 0x205F ∨ n = 0x3000

/-- White space that ends a name; all other white space is taken as part of the name (`wide_space_named`). -/
def whiteEnds (n : Nat) : Prop := (9 ≤ n ∧ n ≤ 13) ∨ n = 0x20 ∨ n = 0x85 ∨ n = 0x2028 ∨ n = 0x2029

/-- White space as bytes. -/
def Blank (s : Bytes) : Prop := ∃ rs : List Nat, (∀ n ∈ rs, white n) ∧ s = rs.flatMap utf8Encode

/-- White space that can follow a name. -/
def BlankAfter (s : Bytes) : Prop :=
  ∃ rs : List Nat, (∀ n ∈ rs, white n) ∧ (∀ n ∈ rs.head?, whiteEnds n) ∧ s = rs.flatMap utf8Encode

theorem blank_nil : Blank [] := ⟨[], by simp, rfl⟩
theorem blankAfter_nil : BlankAfter [] := ⟨[], by simp, by simp, rfl⟩

/-- A rune that can stand in a name. -/
def idRune (n : Nat) : Prop :=
  isScalar n = true ∧ patternWhiteSpace n = false ∧ patternSyntax n = false

/-- The function part of a placeholder: white space after the comma, name, arguments. -/
structure Func where
  lead : Bytes
  name : Bytes
  args : List Bytes

/-- A placeholder: white space, name (as runes), white space, function. -/
structure Placeholder where
  lead : Bytes
  id : List Nat
  trail : Bytes
  func : Option Func

/-- The name as it would be written as a key. -/
def Placeholder.name (p : Placeholder) : Bytes := p.id.flatMap utf8Encode

def Func.text (f : Func) : Bytes := f.lead ++ (f.name ++ f.args.flatMap (fun a => 44 :: a))

/-- What follows the name: up to the closing brace. -/
def Placeholder.tail (p : Placeholder) : Bytes :=
  p.trail ++ (match p.func with
    | none => []
    | some f => 44 :: f.text)

def Placeholder.text (p : Placeholder) : Bytes := 123 :: (p.lead ++ (p.name ++ (p.tail ++ [125])))

/-- A function part whose name starts with an ASCII character that is not white space
and is not one of the reserved words. -/
structure Func.wf (f : Func) : Prop where
  lead : Blank f.lead
  name : ∀ c ∈ f.name, c ≠ 44 ∧ c ≠ 125
  first : ∃ c t, f.name = c :: t ∧ c.toNat < 0x80 ∧ ¬ spaceByte c
  select : ¬ asc "select" <+: f.name
  plural : ¬ asc "plural" <+: f.name
  args : ∀ a ∈ f.args, ∀ c ∈ a, c ≠ 44 ∧ c ≠ 125

structure Placeholder.wf (p : Placeholder) : Prop where
  lead : Blank p.lead
  id : ∀ n ∈ p.id, idRune n
  first : ∃ n rs, p.id = n :: rs ∧ isSpaceRune n = false
  trail : BlankAfter p.trail
  func : ∀ f ∈ p.func, f.wf

/-- Arguments as names and values. -/
abbrev Pairs := List (Bytes × Arg)

/-- How they are passed: `"name", value, "name", value, …`. -/
def kvOf (pairs : Pairs) : List Arg := pairs.flatMap (fun p => [.str p.1, p.2])

/-- A value without function: strings and stringers as they are, byte slices escaped (C24),
other values as JSON. -/
def showValue : Arg → Option Bytes
  | .str s => some s
  | .bytes b => some (writeBytes [] b)
  | .stringer t => some t
  | .time t _ => some t
  | .other _ json => some json
  | .nil => none

/-- What a placeholder prints: the value of the first argument with that name, times
through `goTime` in the given layout (RFC 3339 without one). `none`: cannot be printed. -/
def Placeholder.output (pairs : Pairs) (p : Placeholder) : Option Bytes :=
  match pairs.lookup p.name with
  | none => none
  | some v =>
    match p.func with
    | none => showValue v
    | some f =>
      match v with
      | .time _ format =>
        if f.name = asc "goTime" then some (format (trimSpace (f.args.headD (asc "2006-01-02T15:04:05Z07:00")))) else none
      | _ => none

/-- A template: literal text, then placeholders each followed by literal text. -/
structure Template where
  head : Bytes
  parts : List (Placeholder × Bytes)

def partsText : List (Placeholder × Bytes) → Bytes
  | [] => []
  | (p, lit) :: rest => p.text ++ (lit ++ partsText rest)

def Template.text (t : Template) : Bytes := t.head ++ partsText t.parts

def Template.wf (t : Template) : Prop :=
  (∀ c ∈ t.head, c ≠ 123) ∧ ∀ q ∈ t.parts, q.1.wf ∧ ∀ c ∈ q.2, c ≠ 123

def partsOutput (pairs : Pairs) : List (Placeholder × Bytes) → Option Bytes
  | [] => some []
  | (p, lit) :: rest =>
    match p.output pairs, partsOutput pairs rest with
    | some a, some b => some (a ++ (lit ++ b))
    | _, _ => none

/-- The template with every placeholder replaced by what it prints. -/
def Template.output (pairs : Pairs) (t : Template) : Option Bytes :=
  (partsOutput pairs t.parts).map (t.head ++ ·)

end Verif.Msgfmt
