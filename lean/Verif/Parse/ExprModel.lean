import Verif.Parse.ReadModel

/-!
# Model of `parse.Parse` with the sample expression lexer
(parse/parse.go:23-49, parse/example/expr/parse_test.go:30-113)
-/

namespace Verif.Parse

/-- The infix tokens, parse_test.go:85-113. -/
inductive InfixTok where
  | plus
  | minus
  | multiply
  deriving DecidableEq

/-- `exprLexer.InfixToken`, parse_test.go:61-72, on the byte `src.Peek()[0]`: token and
precedence, `none` for the nil token. -/
def infixToken (b : UInt8) : Option (InfixTok × Nat) :=
  if b = 43 then some (.plus, 3)
  else if b = 45 then some (.minus, 3)
  else if b = 42 then some (.multiply, 4)
  else none

/-- The operation done by `InfixParse`, parse_test.go:92, 102, 112 (`int` is 64 bits). -/
def InfixTok.apply : InfixTok → Int64 → Int64 → Int64
  | .plus, l, r => l + r
  | .minus, l, r => l - r
  | .multiply, l, r => l * r

/-- The precedence `InfixParse` passes to `expr.Parse`, parse_test.go:91, 101, 111. -/
def InfixTok.rightPrec : InfixTok → Nat
  | .plus => 3
  | .minus => 3
  | .multiply => 4

mutual
/-- `Parse` with the sample lexer, parse/parse.go:23-49: `PrefixToken` is always the value
token (parse_test.go:74-76), whose `PrefixParse` is `read.Int` (81-83; `int` of 64 bits).
The log messages are left out.  `fuel` bounds the number of rounds and nested calls;
every round consumes an operator, so the length of the input is enough. -/
def exprParse : Nat → Source → Nat → Out (Int64 × Source)
  | 0, _, _ => .error .hang
  | fuel + 1, s, prec =>
    match readInt64 s with
    | .error f => .error f
    | .ok (left, s) => exprLoop fuel s prec left

/-- The loop of `Parse`, parse/parse.go:32-47, with `InfixParse` (parse_test.go:88-113). -/
def exprLoop : Nat → Source → Nat → Int64 → Out (Int64 × Source)
  | 0, _, _, _ => .error .hang
  | fuel + 1, s, prec, left =>
    if s.err.isSome then .ok (left, s)
    else
      match s.peek1 with
      | .error f => .error f
      | .ok b =>
        match infixToken b with
        | none => .ok (left, s)
        | some (tok, infixPrec) =>
          if prec ≥ infixPrec then .ok (left, s)
          else
            match s.consumeN 1 with
            | .error f => .error f
            | .ok s =>
              match exprParse fuel s tok.rightPrec with
              | .error f => .error f
              | .ok (right, s) => exprLoop fuel s prec (tok.apply left right)
end

/-- `expr.Parse(src, 0)` (parse_test.go:57-59). -/
def exprRun (s : Source) : Out (Int64 × Source) := exprParse (s.bytesLeft + 4) s 0

/-- `parse.String(input, expr)`, parse/parse.go:11-21: value and error. -/
def exprString (input : Bytes) : Out (Option Int64 × Option Err) :=
  match exprRun (newSourceString input) with
  | .error f => .error f
  | .ok (left, s) =>
    match s.err with
    | none => .ok (some left, none)
    | some .eof => .ok (some left, none)
    | some e => .ok (none, some e)

end Verif.Parse
