import Verif.Parse.ReadModel
import Verif.Jsonfmt.StrModel
import Verif.Spec.Utf8

/-!
# Model of message formats (msgfmt/parse.go, formatter.go, msgfmt.go, custom.go)

The format string is parsed through `parse.Source` as modelled in `Verif.Parse`.
-/

namespace Verif.Msgfmt
open Verif.Parse

/-! ### Tables of Go's `unicode` package (standard library, not in the repository) -/

/-- `unicode.IsSpace` (used by skip/space.go). -/
def isSpaceRune (r : Nat) : Bool :=
  (9 ≤ r && r ≤ 13) || r == 0x20 || r == 0x85 || r == 0xA0 || r == 0x1680 || (0x2000 ≤ r && r ≤ 0x200a) ||
  r == 0x2028 || r == 0x2029 || r == 0x202f || r == 0x205f || r == 0x3000

/-- `unicode.Pattern_White_Space` (parse.go:123-126). -/
def patternWhiteSpace (r : Nat) : Bool :=
  (9 ≤ r && r ≤ 13) || r == 0x20 || r == 0x85 || r == 0x200e || r == 0x200f || r == 0x2028 || r == 0x2029

/-- `unicode.Pattern_Syntax` (parse.go:123-126). -/
def patternSyntax (r : Nat) : Bool :=
  (0x21 ≤ r && r ≤ 0x2f) || (0x3a ≤ r && r ≤ 0x40) || (0x5b ≤ r && r ≤ 0x5e) || r == 0x60 ||
  (0x7b ≤ r && r ≤ 0x7e) || (0xa1 ≤ r && r ≤ 0xa7) || r == 0xa9 || r == 0xab || r == 0xac || r == 0xae ||
  r == 0xb0 || r == 0xb1 || r == 0xb6 || r == 0xbb || r == 0xbf || r == 0xd7 || r == 0xf7 ||
  (0x2010 ≤ r && r ≤ 0x2027) || (0x2030 ≤ r && r ≤ 0x203e) || (0x2041 ≤ r && r ≤ 0x2053) ||
  (0x2055 ≤ r && r ≤ 0x205e) || (0x2190 ≤ r && r ≤ 0x245f) || (0x2500 ≤ r && r ≤ 0x2775) ||
  (0x2794 ≤ r && r ≤ 0x2bff) || (0x2e00 ≤ r && r ≤ 0x2e7f) || (0x3001 ≤ r && r ≤ 0x3003) ||
  (0x3008 ≤ r && r ≤ 0x3020) || r == 0x3030 || r == 0xfd3e || r == 0xfd3f || r == 0xfe45 || r == 0xfe46

/-- The runes of `unicode.IsSpace` as UTF-8, for `strings.TrimSpace` (standard library, called at custom.go:45). -/
def spaceTexts : List Bytes :=
  [[9], [10], [11], [12], [13], [32], [0xC2, 0x85], [0xC2, 0xA0], [0xE1, 0x9A, 0x80],
   [0xE2, 0x80, 0x80], [0xE2, 0x80, 0x81], [0xE2, 0x80, 0x82], [0xE2, 0x80, 0x83], [0xE2, 0x80, 0x84], [0xE2, 0x80, 0x85],
   [0xE2, 0x80, 0x86], [0xE2, 0x80, 0x87], [0xE2, 0x80, 0x88], [0xE2, 0x80, 0x89], [0xE2, 0x80, 0x8A],
   [0xE2, 0x80, 0xA8], [0xE2, 0x80, 0xA9], [0xE2, 0x80, 0xAF], [0xE2, 0x81, 0x9F], [0xE3, 0x80, 0x80]]

/-- The left half of `strings.TrimSpace` (for custom.go:45). -/
def trimLeft : Nat → Bytes → Bytes
  | 0, s => s
  | fuel + 1, s =>
    match spaceTexts.find? fun t => t.isPrefixOf s with
    | none => s
    | some t => trimLeft fuel (s.drop t.length)

/-- The right half of `strings.TrimSpace` (for custom.go:45): `utf8.DecodeLastRune` finds a rune where its encoding ends the string. -/
def trimRight : Nat → Bytes → Bytes
  | 0, s => s
  | fuel + 1, s =>
    match spaceTexts.find? fun t => t.isSuffixOf s with
    | none => s
    | some t => trimRight fuel (s.take (s.length - t.length))

/-- `strings.TrimSpace` (standard library, called at custom.go:45). -/
def trimSpace (s : Bytes) : Bytes := trimRight s.length (trimLeft s.length s)

/-! ### Arguments and formatters -/

/-- One element of `kv []interface{}`: a string, a `[]byte`, a `fmt.Stringer` with the text
of its `String()`, a `time.Time` with the text of `String()` and of `Format(layout)`,
a value of another type (numbered) with its JSON text, or nil (msgfmt.go:19-24 and formatter.go:42-70). -/
inductive Arg where
  | str (s : Bytes)
  | bytes (b : Bytes)
  | stringer (text : Bytes)
  | time (text : Bytes) (format : Bytes → Bytes)
  | other (ty : Nat) (json : Bytes)
  | nil

/-- The formatters: `fixedFormatter` (formatter_fixed.go:3), `strFormatter`
(formatter_str.go:3), `bytesFormatter` (formatter_bytes.go:5), `stringerFormatter`
(formatter_stringer.go:5), `jsonFormatter` (formatter_json.go:8-11, with the type its
encoder is for), `goTimeFormatter` (custom.go:55-58), `invalidFormatter`
(formatter_invalid.go:8).  The integers are indices into `kv`. -/
inductive Fmt1 where
  | fixed (text : Bytes)
  | str (idx : Nat)
  | bytes (idx : Nat)
  | stringer (idx : Nat)
  | json (idx : Nat) (ty : Nat)
  | goTime (idx : Nat) (layout : Bytes)
  | invalid (msg : Bytes)
  deriving DecidableEq

/-- A `Formatter`: a single one or `Formatters` (formatter.go:15-17). -/
inductive Formatter where
  | one (f : Fmt1)
  | many (fs : List Fmt1)
  deriving DecidableEq

/-- What a formatting call can do besides returning; `garbage` is an encoder applied to a
value of another type through an unsafe pointer (formatter.go:25-30). -/
inductive Bad where
  | panic
  | hang
  | garbage
  deriving DecidableEq

abbrev Res (α : Type) := Except Bad α

/-- Outcomes of the parser package as outcomes here (formatter.go:88-99). -/
def lift {α : Type} : Out α → Res α
  | .ok a => .ok a
  | .error .panic => .error .panic
  | .error .hang => .error .hang

/-- `findValueIndex`, formatter.go:78-86, from index `i` on; the type assertion on a key
panics if it is not a string. -/
def findValueIndex (target : Bytes) : Nat → List Arg → Res (Option Nat)
  | _, [] => .ok none
  | i, [.str key] => .ok (if key = target then some (i + 1) else none)
  | i, .str key :: _ :: rest =>
    if key = target then .ok (some (i + 1)) else findValueIndex target (i + 2) rest
  | _, _ => .error .panic

/-- What `parseVariable` and `parseFunc` give: a formatter, or nil with a reported error (formatter.go:32-76). -/
inductive Made where
  | fmt (f : Fmt1)
  | err (msg : Bytes)

/-- The formatter for a sample value at `idx`, formatter.go:40-55. -/
def formatterFor (idx : Nat) : Arg → Res Made
  | .stringer _ => .ok (.fmt (.stringer idx))
  | .time _ _ => .ok (.fmt (.stringer idx))
  | .str _ => .ok (.fmt (.str idx))
  | .bytes _ => .ok (.fmt (.bytes idx))
  | .other ty _ => .ok (.fmt (.json idx ty))
  | .nil => .error .panic

/-- `parseVariable`, formatter.go:33-56. -/
def parseVariable (kv : List Arg) (id : Bytes) : Res Made :=
  match findValueIndex id 0 kv with
  | .error b => .error b
  | .ok none => .ok (.err (id ++ asc " not found in args"))
  | .ok (some idx) =>
    match kv[idx]? with
    | none => .error .panic
    | some v => formatterFor idx v

/-- The body of the loop of `GoTimeFormat.FormatterOf` on a key that matches,
custom.go:41-49. -/
def goTimeOf (key layout : Bytes) (idx : Nat) : Arg → Made
  | .time _ _ => .fmt (.goTime idx (trimSpace layout))
  | _ => .err (key ++ asc " is not time.Time")

/-- The loop of `GoTimeFormat.FormatterOf`, custom.go:38-51, from index `i`; panics are
recovered by `newFuncFormatter` (custom.go:18-23), whose message is abbreviated. -/
def goTimeFind (key layout : Bytes) : Nat → List Arg → Made
  | _, [] => .err (key ++ asc " not found in properties")
  | _, [.str k] => if k = key then .err (asc "newFormatter panic")
      else .err (key ++ asc " not found in properties")
  | i, .str k :: v :: rest =>
    if k = key then goTimeOf key layout (i + 1) v else goTimeFind key layout (i + 2) rest
  | _, _ => .err (asc "newFormatter panic")

/-- `time.RFC3339` (custom.go:34-53). -/
def rfc3339 : Bytes := asc "2006-01-02T15:04:05Z07:00"

/-- `parseFunc`, formatter.go:57-65, with `newFuncFormatter` (custom.go:17-29) and
`GoTimeFormat.FormatterOf` (custom.go:34-53); `Formats` holds only "goTime", as it
is initialised (custom.go:9-11). -/
def parseFunc (kv : List Arg) (id name : Bytes) (args : List Bytes) : Made :=
  if name = asc "goTime" then goTimeFind id (args.headD rfc3339) 0 kv
  else .err (asc "format " ++ name ++ asc " is not supported")

/-! ### The lexers -/

/-- A value of `interface{}` passed between the tokens: nil, an identifier or a formatter (parse.go:36-197). -/
inductive Obj where
  | nil
  | id (text : Bytes)
  | fmt (f : Fmt1)

/-- `expect , or }, but found c`, parse.go:115 and 193. -/
def expectMsg (c : UInt8) : Bytes := asc "expect , or }, but found " ++ [c]

/-- The loop of `funcNameToken.PrefixParse`, parse.go:184-196. -/
def funcArgsLoop : Nat → Source → List Bytes → Res (List Bytes × Source)
  | 0, _, _ => .error .hang
  | fuel + 1, s, args =>
    match lift (skipUnicodeSpace s isSpaceRune) with
    | .error b => .error b
    | .ok (_, s) =>
      match lift s.peek1 with
      | .error b => .error b
      | .ok c =>
        if c = 44 then
          match lift (s.consume1 44) with
          | .error b => .error b
          | .ok s =>
            match lift (anyExcept2 s [] 44 125) with
            | .error b => .error b
            | .ok (arg, s) => funcArgsLoop fuel s (args ++ [arg])
        else if c = 125 then .ok (args, s)
        else .ok (args, s.report (.msg (expectMsg c)))

/-- `parse.Parse(src, formatterLexer, 0)`: `formatterLexer.PrefixToken` (parse.go:154-166)
and `funcNameToken.PrefixParse` (181-197); there is no infix token (168-170). -/
def parseFormatter (s : Source) : Res ((Bytes × List Bytes) × Source) :=
  match lift (skipUnicodeSpace s isSpaceRune) with
  | .error b => .error b
  | .ok (_, s) =>
    let p := s.peekN 6
    if p.1.1 = asc "select" ∨ p.1.1 = asc "plural" then .error .panic
    else
      match lift (anyExcept2 p.2 [] 44 125) with
      | .error b => .error b
      | .ok (name, s) =>
        match funcArgsLoop (s.bytesLeft + 2) s [] with
        | .error b => .error b
        | .ok (args, s) => .ok ((name, args), s)

/-- The infix loop of `parse.Parse(src, variableLexer, 0)` (parse/parse.go:32-47) with
`variableLexer.InfixToken` (parse.go:107-118) and `commaToken.InfixParse` (137-141). -/
def variableLoop (pf : Bytes → Bytes → List Bytes → Made) : Nat → Source → Obj → Res (Obj × Source)
  | 0, _, _ => .error .hang
  | fuel + 1, s, left =>
    if s.err.isSome then .ok (left, s)
    else
      match lift (skipUnicodeSpace s isSpaceRune) with
      | .error b => .error b
      | .ok (_, s) =>
        match lift s.peek1 with
        | .error b => .error b
        | .ok c =>
          if c = 44 then
            match lift (s.consume1 44) with
            | .error b => .error b
            | .ok s =>
              match parseFormatter s with
              | .error b => .error b
              | .ok (inv, s) =>
                match left with
                | .id id =>
                  match pf id inv.1 inv.2 with
                  | .fmt f => variableLoop pf fuel s (.fmt f)
                  | .err m => variableLoop pf fuel (s.report (.msg m)) .nil
                | _ => .error .panic
          else if c = 125 then .ok (left, s)
          else .ok (left, s.report (.msg (expectMsg c)))

/-- `parse.Parse(src, variableLexer, 0)`: `variableLexer.PrefixToken` (parse.go:102-105),
`idToken.PrefixParse` (128-131), then the infix loop. -/
def parseVar (pf : Bytes → Bytes → List Bytes → Made) (s : Source) : Res (Obj × Source) :=
  match lift (skipUnicodeSpace s isSpaceRune) with
  | .error b => .error b
  | .ok (_, s) =>
    match lift (unicodeRanges s [] [] [patternWhiteSpace, patternSyntax]) with
    | .error b => .error b
    | .ok (runes, s) => variableLoop pf (s.bytesLeft + 2) s (.id (runes.flatMap Spec.utf8Encode))

/-- `leftCurlyToken.PrefixParse`, parse.go:65-78: `none` is the nil result. -/
def parseCurly (pv : Bytes → Res Made) (pf : Bytes → Bytes → List Bytes → Made) (s : Source) :
    Res (Option Fmt1 × Source) :=
  match lift (s.consume1 123) with
  | .error b => .error b
  | .ok s =>
    match parseVar pf s with
    | .error b => .error b
    | .ok (obj, s) =>
      if s.err.isSome then .ok (none, s)
      else
        let made : Res (Option Fmt1 × Source) :=
          match obj with
          | .id id =>
            match pv id with
            | .error b => .error b
            | .ok (.fmt f) => .ok (some f, s)
            | .ok (.err m) => .ok (none, s.report (.msg m))
          | .fmt f => .ok (some f, s)
          | .nil => .ok (none, s)
        match made with
        | .error b => .error b
        | .ok (none, _) => .error .panic
        | .ok (some f, s) =>
          match lift (s.consume1 125) with
          | .error b => .error b
          | .ok s => .ok (some f, s)

/-- `parse.Parse(src, lexer, 0)`: `lexer.PrefixToken` (parse.go:48-55) and the two prefix
parsers; there is no infix token (57-59). -/
def parsePart (pv : Bytes → Res Made) (pf : Bytes → Bytes → List Bytes → Made) (s : Source) :
    Res (Option Fmt1 × Source) :=
  match lift s.peek1 with
  | .error b => .error b
  | .ok c =>
    if c = 123 then parseCurly pv pf s
    else
      match lift (anyExcept1 s [] 123) with
      | .error b => .error b
      | .ok (text, s) => .ok (some (.fixed text), s)

/-- `merge`, formatter.go:69-75; the assertion on a nil right side panics. -/
def merge (left : Formatter) (right : Option Fmt1) : Res Formatter :=
  match right with
  | none => .error .panic
  | some r =>
    match left with
    | .many fs => .ok (.many (fs ++ [r]))
    | .one f => .ok (.many [f, r])

/-- `lexer.Parse`, parse.go:36-46; `none` is nil. -/
def parseLoop (pv : Bytes → Res Made) (pf : Bytes → Bytes → List Bytes → Made) :
    Nat → Source → Option Formatter → Res (Option Formatter × Source)
  | 0, _, _ => .error .hang
  | fuel + 1, s, left =>
    if s.err.isSome then .ok (left, s)
    else
      match parsePart pv pf s with
      | .error b => .error b
      | .ok (part, s) =>
        match left with
        | none => parseLoop pv pf fuel s (part.map .one)
        | some l =>
          match merge l part with
          | .error b => .error b
          | .ok l => parseLoop pv pf fuel s (some l)

/-- Text of an error value (formatter.go:92-95). -/
def errText : Err → Bytes
  | .eof => asc "EOF"
  | .io _ => asc "io"
  | .msg m => m

/-- `compile`, formatter.go:88-99. -/
def compile (format : Bytes) (kv : List Arg) : Res Formatter :=
  let s := newSourceString format
  match parseLoop (parseVariable kv) (parseFunc kv) (s.bytesLeft + 2) s none with
  | .error b => .error b
  | .ok (left, s) =>
    match s.err with
    | some .eof =>
      match left with
      | some f => .ok f
      | none => .error .panic
    | some e => .ok (.one (.invalid (errText e)))
    | none => .ok (.one (.invalid (asc "format not parsed completely")))

/-! ### Formatting -/

/-- The `Format` methods of the single formatters (formatter_*.go, custom.go:60-62);
`show` is the text `invalidFormatter` prints for the arguments
(formatter_invalid.go:10-24, both branches have the same shape). -/
def Fmt1.format (shw : List Arg → Bytes) (kv : List Arg) (space : Bytes) : Fmt1 → Res Bytes
  | .fixed text => .ok (space ++ text)
  | .str idx => match kv[idx]? with
    | some (.str s) => .ok (space ++ s)
    | _ => .error .panic
  | .bytes idx => match kv[idx]? with
    | some (.bytes b) => .ok (writeBytes space b)
    | _ => .error .panic
  | .stringer idx => match kv[idx]? with
    | some (.stringer t) => .ok (space ++ t)
    | some (.time t _) => .ok (space ++ t)
    | _ => .error .panic
  | .json idx ty => match kv[idx]? with
    | some (.other ty' text) => if ty = ty' then .ok (space ++ text) else .error .garbage
    | some _ => .error .garbage
    | none => .error .panic
  | .goTime idx layout => match kv[idx]? with
    | some (.time _ f) => .ok (space ++ f layout)
    | _ => .error .panic
  | .invalid msg =>
    .ok (space ++ asc "%! (INVALID FORMAT) " ++ msg ++ asc "%! (FORMAT ARGS) " ++ shw kv)

/-- The loop of `Formatters.Format`, formatter.go:25-30. -/
def formatAll (shw : List Arg → Bytes) (kv : List Arg) : Bytes → List Fmt1 → Res Bytes
  | space, [] => .ok space
  | space, f :: fs =>
    match f.format shw kv space with
    | .error b => .error b
    | .ok space => formatAll shw kv space fs

/-- `Formatter.Format` (formatter.go:11-30 and formatter_*.go). -/
def Formatter.format (shw : List Arg → Bytes) (kv : List Arg) (space : Bytes) : Formatter → Res Bytes
  | .one f => f.format shw kv space
  | .many fs => formatAll shw kv space fs

/-- The formatter cache, msgfmt.go:70, keyed by the format string. -/
abbrev Cache := List (Bytes × Formatter)

/-- `FormatterOf`, msgfmt.go:72-80: the result and the cache afterwards (unchanged when
`compile` panics or never returns). -/
def formatterOf (cache : Cache) (format : Bytes) (kv : List Arg) : Res Formatter × Cache :=
  match cache.lookup format with
  | some f => (.ok f, cache)
  | none =>
    match compile format kv with
    | .ok f => (.ok f, (format, f) :: cache)
    | .error b => (.error b, cache)

/-- `Sprintf`, msgfmt.go:19-24. -/
def sprintf (shw : List Arg → Bytes) (cache : Cache) (format : Bytes) (kv : List Arg) : Res Bytes × Cache :=
  match formatterOf cache format kv with
  | (.ok f, cache) => (f.format shw kv [], cache)
  | (.error b, cache) => (.error b, cache)

/-- A formatting call in a process that has not formatted anything (msgfmt.go:19-24). -/
def sprintfFresh (shw : List Arg → Bytes) (format : Bytes) (kv : List Arg) : Res Bytes :=
  (sprintf shw [] format kv).1

end Verif.Msgfmt
