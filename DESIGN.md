# Formal model of v2pro/plz in Lean 4

## Trusted base

* Lean 4.33.0's kernel.  Theorems depend on `propext`, `Classical.choice` and
  `Quot.sound` at most; the table at the end lists the axioms of every theorem
  named in MANIFEST.json.  No axioms are added; there is no `sorry`, no
  `native_decide`, no `bv_decide`.
* The hand translation of the Go source into Lean definitions.  Every definition
  cites the file and lines it models and states its simplifications.
* Go's semantics as encoded in the models: fixed-width integers as `UIntN` or as
  `Nat`/`Int` with explicit wrapping; byte strings as `List UInt8`; slices as
  lists, with explicit backing arrays where aliasing is the subject; nil as an
  explicit case; a panic and an endless loop as explicit outcomes (`none`, a
  constructor, or "no fuel is enough"); goroutines as state machines whose steps
  interleave freely (one step = one critical section, channel operation or
  file-system call).
* Standard library functions are modelled by what their documentation says
  (`append`, maps, channels, mutexes, `strconv`, `utf8.DecodeRune`,
  `fmt.Sprintf` without arguments, `sort`), or are parameters about which a
  theorem assumes nothing, or only what it states (`bytes.TrimSpace`, gzip,
  rounding of floating point division, Unicode classes).

Not modelled: the Go runtime (fair scheduling, garbage collection, memory
ordering below sequential consistency), `unsafe` layout tricks beyond their
intended reading, the internals of `sync.Pool`, `sync.Map` and `reflect`, the
operating system's file system beyond paths, inodes and contents, compression,
HTTP and the scripts in the web pages of `witch`.  Packages without a model so far:
the rest of `test/testify`.  Matching of regular expressions is a parameter.

## Layout of `lean/Verif`

| directory | code | properties |
|-----------|------|------------|
| `Spec` | (none) independent JSON grammar, parser and string decoder; UTF-8; bytes text | used by C14-C18, C59, C62-C64, C69 |
| `Parse` | `parse/` and `parse/read`, `parse/discard` | C01-C11 |
| `Jsonfmt` | `msgfmt/jsonfmt` | C12-C19, C24, C63-C66 |
| `Msgfmt` | `msgfmt` | C20-C23, C67, C146 |
| `Countlog` | `countlog`, `countlog/spi`, `countlog/output/*` formats | C25-C27, C68-C72, C78, C79, C123, C131, C135 |
| `Stats` | `countlog/stats` | C28-C30, C73, C74, C120, C121, C144 |
| `Output` | `countlog/output/lumberjack`, `async`, `rotation`, `witch` | C31-C42, C62, C122, C130, C134 |
| `Concurrent`, `Gls`, `Reflect2`, `Closer.lean` | `concurrent`, `gls`, `reflect2`, `plz.go` | C43-C50, C75, C76, C80-C85, C109-C111, C132, C133, C141-C143, C145 |
| `Difflib` | `test/go-difflib/difflib` | C51-C58, C86 |
| `Test` | `test/case.go`, `test/report.go`, `test/must`, `test/should` | C59, C60, C98-C102, C124, C140 |
| `Assert` | `test/testify/assert` | C87-C97, C112, C113, C125-C129 |
| `Spew` | `test/go-spew/spew` | C103-C108, C114-C117, C136-C139 |
| `Dump` | `dump` | C61, C77, C118, C119 |

In each file the model comes first, then the specification, then the proofs, then
concrete cases meeting the hypotheses.  When a property is false of the code, the
file proves its negation with a concrete witness and a `_partial` theorem for the
largest natural region where it holds.

## Plan per property

| id | model | proof |
|----|-------|-------|
| C01 | `Source` as error + current chunk + look-ahead list + list of pending reader results; each operation a function | simulation: abstraction `rest = current ++ lookahead ++ pending`; every operation commutes with it; induction over operation lists |
| C02 | same | `PeekN` returns `rest.take n` and keeps `rest`; invariants over histories |
| C03 | `PeekRune` with the `first` table; Go's `utf8.DecodeRune` transcribed | equals an independent UTF-8 decoder defined by code point ranges, on `rest` |
| C04 | `Uint64` loop over chunks with wrapping arithmetic | induction over chunks and digits |
| C05 | same | false: witness; `_partial`: exact region where overflow is detected |
| C06 | `Int64`/`Int32` | from C04 |
| C07 | `AnyExcept1/2`, `Space` | equals `takeWhile`/`dropWhile` on `rest` |
| C08 | Unicode class readers over an abstract class predicate | `UnicodeRange` = longest run; `UnicodeRanges` false: witness + exact behaviour |
| C09 | `Parse` with the sample lexer, fuel = input length | equals a two-level grammar evaluator, for all token lists |
| C10 | `ConsumeN` as fuel-indexed loop | false: no fuel suffices; `_partial` inside the input |
| C11 | all operations | invariant `err = some e -> err' = some e` |
| C12 C13 | digit-group writers over `Nat` with the 1000-entry table | equal to an independent decimal printer; uint32: negation and exact region |
| C14 C15 C16 C24 | string and bytes escapers, fast and slow path | decode∘encode = id outside the last-byte bug, exact characterisation, negation witnesses |
| C17 | value encoder over an inductive value type | independent recursive-descent JSON parser accepts and inverts |
| C18 | `getFieldName` and field loop over field descriptions | equals filterMap spec |
| C19 | the integer part of the lossy float writers, from the rounded magnitude on (IEEE multiplication/rounding not modelled) | printed text denotes lval/10^6 exactly |
| C20 C21 C22 C23 | format lexer, compiler, formatters, cache | by induction over format segments; witnesses for hang/panic/caching |
| C25 C26 | level logic | decision logic over all levels and histories |
| C27 | handler cache, root handler, panics as outcomes | over all event sequences; construction-time panics escape: negation |
| C28 C29 C30 | sharded window, extractor, exporter state machine | conservation invariant over interleavings; periodic export false |
| C31 C32 C33 C34 | lumberjack over an abstract file system | invariants over operation lists; timestamp collision negation |
| C35 C36 C37 C38 | queues as state machines, buffers with identity for aliasing | invariants over interleavings |
| C39 C40 C41 C42 | rotation writer with inodes (open file vs path) | invariants; size trigger never archives: negation |
| C43 C44 | executor state machine | invariant count = running goroutines |
| C45 C46 | shards of maps with map identity | refinement to goroutine -> storage; WithGls sharing witness |
| C47 | lock based map | refinement to a function |
| C48 | closers with outcomes and call log | equality with spec |
| C49 C50 | slice headers over a heap of arrays | refinement to list append; calcNewCap fuel-free bound |
| C51–C56 | difflib matcher, transcribed | invariants of matching blocks, opcode replay, DP correctness for longest match, ratio arithmetic on integers (float rounding not modelled) |
| C57 C58 | hunk writer with `fmt.Sprintf` of a line without arguments | round trip through an independent patch reader; `%` negation |
| C59 | template substitution over JSON trees with explicit key order | acceptance iff spec |
| C60 | statement extraction | equals spec |
| C61 | dump encoder over an object graph with addresses | completeness; termination on cycles false: witness |
| C62 | response bytes | false: unbalanced bracket |
| C63 | the encoder for unsupported kinds inside the value encoder of C17 | the marker is a JSON string; in structs: negation |
| C64 | `errorEncoder` | independent JSON string decoder; negation for texts with quotes |
| C65 | `EncoderOf` with explicit call depth over types that may refer to themselves | returns iff the part of the type it looks at is well-founded |
| C66 | construction with a configuration passed down | structural induction; interfaces: witness |
| C67 | `Fprintln` on the format cache of C21 | first line; witnesses for none and for later lines |
| C68 C69 C72 | `hrf`, `compact` and `json` formats on the formatter model of C20-C23 | line equals an independent description; invalid JSON by the grammar |
| C70 C71 | the root handler with panics as outcomes and handler caches | counting writes along all runs; invariant on the cache |
| C73 C74 | the window with its locks as a state machine | invariants over all interleavings |
| C75 | `CloseAll` with the events it logs | induction over the resources |
| C76 | slice headers over a heap, as C49 | frame lemmas; witnesses |
| C77 | the dump model of C61 | invariant: every table entry is an image of memory |
| C78 | parts of the human readable format for context properties and timers, in the model of C72 | composition of printed parts; concrete entries for the failures |
| C79 | `printf.Format` over the message formatter of C23 | layout and message as templates, printed by the compiled formatters |
| C80 | types as trees, memory as words, interface values as a type and a word | recursion on the type |
| C81 | as C80 | case analysis on the kind; witnesses |
| C82 | fields as offsets into memory, as C80 | frame lemmas; witnesses for promoted fields |
| C83 | as C80 | frame lemmas; witnesses outside the array |
| C84 | maps as lists of entries with addresses over the memory of C80; `reflect.Value` of the safe implementation | invariant of the runtime's maps; refinement to key-value contents |
| C85 | calls as program counters around the cache | invariant over all interleavings; witness for the race |
| C86 | as C57, with the two sections of a hunk | round trip through a reader of context diffs; witnesses for percent signs |
| C87 | values as trees with types and addresses; `reflect.DeepEqual` | equivalence with an inductive definition of sameness |
| C88 | integers with their kinds; conversion as taking the low bits | decision logic for all integers; witnesses |
| C89 | loops over elements, with the flags of `ElementsMatch` | greedy matching succeeds exactly if a permutation exists |
| C90 | an assertion returns its result and whether it reported, or panics | all branches; witnesses for silent failures |
| C91 | as C87 | equivalence with nil, length and zero value of the language |
| C92 | `float64` as rationals with IEEE rounding, NaN and infinities | monotonicity of rounding and its error bound; witnesses |
| C93 | loops over C92 | induction over slices; keys as permutations |
| C94 | as C92, with division | monotonicity of rounding; witnesses |
| C95 | times and durations as integers, with saturation and overflow | decision logic; witnesses |
| C96 | calls that return or panic; Go's comparison of interfaces | decision logic; witnesses |
| C97 | `bufio.Scanner` with its limit | round trip through a reader of the table |
| C98 | the storage of C45 with the key of the test in it | invariant of the storage under operations of other goroutines; inheritance from C46 |
| C99 | a test as a tree of actions run on one goroutine, with `Goexit` and panics as ends | refinement of an inductive meaning of actions that knows neither storage nor state; flat tests as a corollary |
| C100 | deferred `recover` around the actions of the function | mutual induction over actions |
| C101 | functions with parameter types, zero values and assignability | equations for all calls that fit; witnesses |
| C102 | variables as addresses, the loop with its panics | induction over the variables |
| C103 | values over a heap of addresses, `dump` with fuel, the state of `dumpState` | lexicographic induction: addresses not yet met, then well-foundedness of parts; witnesses run out of every amount of fuel |
| C104 | the same | refinement of an inductive picture of the value and its text, which know no state |
| C105 | `hex.Dump`, the line trimming by regular expression, `TrimRight` | induction over rows |
| C106 | the loop over the buffer, with its index | loop invariant |
| C107 | the picture of C104 | unique readability: injectivity of the text of pictures of typed values |
| C108 | keys by kind, `valueSortLess`, any sorting algorithm as a relation | strict total order by induction over key types; uniqueness of sorted permutations |
| C109 | slice headers over arrays as in C49, both implementations as interpreters of calls; method sets as lists | both refine an interpreter over lists, by induction over programs |
| C110 | memory as words, paths of field indices as in C82 | induction over the path |
| C111 | the iterator with a map given anew to every call | induction over the keys left |
| C112 | handlers as lists of actions on the recorder | decision logic |
| C113 | the splitting of URLs at `#` and `?` | induction over the text |
| C114 | `format` over the heap of C103; a relation between values and texts that threads the addresses shown so far | induction on fuel, loops by induction on the parts |
| C115 | the same | as C103: induction on the pointers not yet shown, then on parts |
| C116 | directives as records, and a reader after the rules of package fmt | decimal numbers are read back; cases on flags |
| C117 | calls as state machines over one shared array | invariant over all interleavings |
| C118 | dump/map.go over the memory of C61, in words; buckets, overflow chains, extra fields | invariants of the table: every entry is an image, every linked bucket has one |
| C119 | the same with call depth | the run succeeds exactly if following links ends, by induction on depth |
| C120 | HandlerOf/createHandler as the aggregator of the countlog model (C25), counters as acts | invariant: the cache holds the handler of the first call of each event name |
| C121 | the same, the acts that write | runs with and without a collector compared call by call |
| C122 | the channel of one element, the goroutine of millRun and the writers as a transition system over the directory of C34 | invariant: a signal is pending, or what is listed is what is there, or the directory is clean; decreasing measure |
| C123 | contexts as values, their log contexts on a heap; programs as lists of operations | simulation with notes of where each variable comes from and what was added |
| C124 | substituteVars with the waiting functions, maps on a heap, fuel | the state of the loop after each key, in all orders; witnesses by computation, never_ends by induction on the fuel |
| C125 | tables of the wrappers and of the calls of Fail, an interpreter for calls | all forms by cases on the assertion; messages by induction on how a failure is reported |
| C126 | a tree with links, Lstat as a walk with a bound on links | the walk against a relation for following links |
| C127 | the loop over the frames with strings.Split | induction on the frames up to the test |
| C128 | syntax trees, decoding to float64 and maps, DeepEqual | decoding against a relation of same meaning, by induction on the size of the tree |
| C129 | the functions over types and an abstract regular expression engine | by cases, against a predicate for deciding a proposition |
| C130 | Sscanf with one %d, the listing | against a relation between names and indices |
| C131 | slices with backing arrays, one step per goroutine | reading after appending; invariance of other arrays |
| C132 | method sets of all implementations, the assertions | complete table of kinds by the kernel |
| C133 | type links, the maps made of them, the lookup | by induction on the links |
| C134 | replacement in texts, places with files, the two pages | the placeholder has no border, so it is replaced where it stands |
| C135 | timers, Duration.String, the formatter | against an independent reading of texts with units |
| C136 | the state of a formatter kept between uses | states that format alike, by induction on the fuel |
| C137 | reading of formats by package fmt, with arguments that are values or formatters | induction on a filled format; a directive read is handed on as itself |
| C138 | the loops of Sprint, Sprintln and fdump | induction on the arguments |
| C139 | layouts of reflect.Value by version; init and unsafeReflectValue on words and flags | case analysis on versions and flags, arithmetic of bits |
| C140 | helpers of a test and the search for the frame to show | induction on the calls and on the stack |
| C141 | the calls of both configurations on maps by handle, arguments by how far they are from a pointer to the type | induction on the calls; a relation that tells what the language does |
| C142 | entries in slots that are cleared and moved; an iterator one slot ahead | invariant of the slot the iterator stands at, induction on the calls |
| C143 | the table of kinds | case analysis on kinds |
| C144 | strings as places in memory; the rest of the program writes anywhere but where the counters allocated | invariant that keys are made of allocated pieces, induction on what happens |
| C145 | programs of one goroutine as trees, over the model of C45 | induction on programs against a stack of storages; what holds after any call for the negation |
| C146 | buffers by number, a pool that chooses, goroutines at a place in fprintf | invariant that no buffer has two owners, induction on events, against the texts by goroutine |
| C147 | types with sizes, alignment and padding, memory of bytes, Get and Set along a path | offsets of paths that part do not overlap (induction on paths), then refinement of programs against assignments to trees of parts |
| C148 | directory of names and open files, every system call of compressLogFile with success or failure, goroutines of several Loggers, kills | invariant on where each goroutine is and what has become of each backup, induction on steps; counterexamples by concrete runs |
| C149 | composition of the models of C35 and C32: the worker's writes are calls of lumberjack's Write | each complete write starts, extends or moves aside the live file (cases on size and state); induction on the messages; with C35's invariant for the order; counterexamples by concrete runs |
| C150 | argument numbers of package fmt (argNumber, parseArgNumber, doPrintf) over arguments with states; formatters keep theirs (model of C136) | directives read alike with and without a number before the verb; induction on the specification with the invariant that each state allows what is still to be picked; counterexamples by concrete runs |
| C151 | the methods of Source on a memory of bytes with slices as address, length and capacity; append in place or into new memory; readers that use the rest of the buffer as scratch space | refinement of the model on values: each method keeps the invariant that the slices of a source lie apart in memory it owns, and writes nowhere else; induction on the calls; counterexamples by concrete runs |
| C152 | the Encode methods on a store of cells with addresses, interfaces as type and data word; wrong reads as faults, failed assertions as panics | refinement: where memory holds a value (recursive predicate, with the compiler's rule for values in the data word), the encoders on memory end like the encoders on trees (mutual induction on the value, fuel existential); then C17; counterexamples for all memories of the shape |
| C153 | encoderOf with the loop over extensions and the prefixes it passes, extensions as arbitrary functions | refinement of a type-directed specification of the text (mutual induction on the value); induction on the path into the type; counterexamples |
| C154 | both caches of every configuration as state, passed through the building of encoders and through Encode | invariant: what is remembered of encodable types is, up to prefixes, what would be built anew; then mutual induction on the value against printing with new encoders; counterexamples by evaluation |
| C155 | FormatterOf and Format of json.go over the memory model of C152: names and types kept, later events read with them | composition of the memory theorem with the line theorem of C69, by induction on the properties; for the negations, independence of the result from names and surplus, and evaluation of the wrong read |
| C156 | exportShard with the one array the dimensions are cut from, append on pieces of it, points kept by the collector | invariant: the loop writes only behind the piece it is at; negations by evaluation for arbitrary strings |
| C157 | the callback of the asynchronous writer with its unsynchronised counter, read and written in separate steps; the atomic counter of the viewer | invariants over all interleavings; negations by constructed runs, one for every number of drops |
| C158 | init of gls on the map of TypeByName and the fields of structs, GoID reading 8 bytes of memory; shards indexed by the signed remainder | composition with C133; little-endian load against the bytes a number has; refinement of the shards to one map by id |
| C159 | diff of assertions.go on the models of go-spew (C103-C107) and go-difflib (C57): same type after one pointer, kinds with parts, dumps, lines, unified diff with context 1 | composition of C57, C103 and C107; a patch without removed and added lines changes nothing; witnesses for percent signs, look-alikes and circles |
| C160 | the functions of C154 as programs whose accesses to the caches are single steps; goroutines by number, any schedule | rely/guarantee: a program that finds right entries stores right entries and returns the right text; schedule induction; structural induction on programs for termination |
| C161 | the functions of C27 as programs whose accesses to the handler cache are single steps; goroutines by number, any schedule, any earlier history | rely/guarantee: a call that finds fit handlers stores fit handlers and returns what it returns alone with some fit cache; schedule induction; witness schedule for counts |
| C162 | calls of Sprintf whose accesses to the formatter cache are single steps; goroutines by number, any schedule | invariant: every stored formatter was compiled for a call of some goroutine with its format; with C23: equal shapes compile alike; measure for termination; witness schedules |
| C163 | SetMinLevel as two writes and log calls as two reads of MinLevel and MinCallLevel; goroutines by number, any schedule | invariant relating the two variables to the calls of SetMinLevel begun and finished; each outcome by the states read; witness schedules |
| C164 | handlers that remember the numbers of the writer and aggregator they were made from, in the cache of C27; assignments and log calls in any order | invariant on cached handlers by induction over the history; exact characterisation by the operations before the first call with the name; witness family |
| C165 | the stack at the two calls of runtime.Caller, the two caches of handlers with their log sites, panics as a predicate on sites | invariants on both caches by induction over the calls; exact place while the handler does not panic; witnesses |
| C166 | the bytes left in the reader cut again by the new buffer (values); the slice buf replaced in the model of C151 (memory) | simulation by the remaining input as for C01; ownership of memory as for C151, the old buffer given up at Consume |
| C167 | the loop of EventHandlers inside the root handler, with the two caches and panics as a predicate on handlers and samples | case analysis of a call under an invariant of the caches; prefix and counting lemmas; witnesses |
| C168 | chains of functions over the log model of C25 to C27, errors with an identity | induction on the chain from the exact result of one call; fresh identities; witness |
| C169 | the lexers of C20 to C22 with an arbitrary table of formats | the lemmas on parts of a template, with what the formats say as parameter; agreement with C21 for the initial table; witnesses |
| C170 | the readers of C04 to C06, and Int for both sizes | the abstract input of C01 with an empty run of digits; states at the end of the input |
| C171 | safeType Set, IsNil, Indirect over the memory of C80 and C81 | both sides against the values interfaces hold; cases on the type; what is kept in the data word by induction on the type; witnesses |
| C172 | Close and CloseAll over the array of the caller's slice, append in place or to a new array | induction on the resources with the exact contents of the array at every index; witnesses |
| C173 | Formatters as slices over arrays with capacities, programs of Appends, any growth | invariant on who is last in an array, by induction on the program; witness |

## What is proved, and where code and property disagree

* **C01** (partial) Streamed parsing does not depend on how the reader chunks the input.  All sequences of 15 operations inside the input, all ways of cutting it into non-empty reads; false for readers returning data together with EOF (data_with_eof_lost) and for the recorded error after look-ahead past the end (eof_not_recorded).
* **C02** (proved) Look-ahead never consumes or loses input.  Every reader whose error comes last (empty reads and data with the error included), every sequence of look-aheads of any length and consumptions within the input.
* **C03** (proved) PeekRune decodes UTF-8 across chunk boundaries.  Every reachable source, against RFC 3629 encoding.
* **C04** (proved) Unsigned integer reader returns the exact value for in-range numbers.  Every reachable source and chunking.
* **C05** (partial) Unsigned integer reader reports overflow.  Exact region of detection; outside it (overflow_undetected) the number is silently reduced modulo 2^64.
* **C06** (partial) Signed integer readers are exact and range checked.  In range exact; out of range reported only if a byte follows the number (at the end of the input only EOF is recorded: readInt64_overflow_lost).
* **C07** (proved) Byte-class readers take the longest run and nothing more.  
* **C08** (partial) Unicode class readers take the longest run and nothing more.  UnicodeRange exact for classes without U+FFFD (hangs otherwise at the end); UnicodeRanges with includes reads one rune only or duplicates it.
* **C09** (proved) Operator precedence parser computes the conventional value.  Every expression of the grammar, every chunking, every following byte that is no digit or operator. A dangling operator panics.
* **C10** (partial) Consuming past the end of input terminates and reports EOF.  Inside the input exact; past the end it never returns, for any fuel.
* **C11** (proved) The first reported error is the one the user sees.  All operations, all readers, all states.
* **C12** (partial) 8, 16 and 64 bit integers are printed exactly.  Proved for all values of every type except uint64/uint/uintptr values of 10^19 and more, where the code is wrong (writeUint64_wrong proves the output is never the decimal text).
* **C13** (partial) 32 bit integers are printed exactly.  Holds exactly for magnitudes below 10^9; for all larger values the code drops the last six digits (writeUint32_wrong, writeInt32_wrong).
* **C14** (partial) JSON strings decode back to the original bytes.  Round trip for every string except those whose only byte needing an escape is the last one; there the code drops that byte (writeString_loses_last).
* **C15** (proved) JSON strings cannot break out of their quotes.  For every string/byte slice and every following text an RFC 8259 string parser consumes exactly the emitted text.
* **C16** (partial) JSON byte slices decode back to the original bytes.  Holds without backslashes and outside two byte-dropping patterns; false in both patterns (writeBytes_drops) and ambiguous with backslashes (writeBytes_ambiguous).
* **C17** (partial) Nested values are encoded as well-formed JSON.  Every finite nesting of every supported type parses to exactly the expected tree when the leaves are in the regions where the scalar writers are right and names are plain; errors and values with MarshalJSON inside are covered (plain messages, compact output); negations for unsupported field types and quotes in tag names.
* **C18** (partial) Struct encoding emits exactly the fields that should be visible.  Exact for all field lists with names starting with an ASCII byte; false for unexported names starting with a lower case Latin-1 letter.
* **C19** (partial) Floats are printed to six decimals without distortion.  Printed text is exact for the scaled integer and the integer is within the proved error; round-half ties can go the wrong way (lossy_tie_wrong). IEEE multiplication is modelled by exact rounding of m*2^k.
* **C20** (partial) Literal text in a message format is copied verbatim.  Every non-empty brace-free format with any arguments, and every well-formed template; the empty format panics. Calls answered from the cache: see C23.
* **C21** (partial) Placeholders are replaced by the argument with that name.  Every well-formed template (any number of placeholders, white space, goTime functions) and arguments, in a process that has not used the format before; a cached formatter picks arguments by position (cache_by_position). White space before names and functions is any Unicode white space. Full statement is false: no-break and other wide spaces after a name are taken as part of it, so the format panics though the argument is there (wide_space_named).
* **C22** (partial) Malformed formats are reported, never crash or hang.  Holds for well-formed templates and a failing function in first place; false (hang or panic, after any printable template) in the other cases named.
* **C23** (partial) Formatter caching is transparent.  Every history in which calls with the same format have the same names, order and types; false otherwise.
* **C24** (partial) Printing bytes in a message is unambiguous.  Holds exactly outside the two byte-dropping patterns; false inside them.
* **C25** (partial) The minimum level filters exactly the lower levels.  Every history of settings, calls and panics, for events that are not aggregated (exactly one write, or nothing). Aggregated events are filtered five levels higher: false.
* **C26** (partial) Wrapped calls propagate success and failure.  Result exact for every call that returns; delivery of failures for events that are not aggregated. With the default aggregator failures are not written at minimum level Warn; a message format that panics escapes.
* **C27** (partial) A panicking log handler cannot crash or silence the program.  Every history and every pattern of panics in handlers, as long as the sinks can be asked for handlers and the message of a failed call can be formatted; false otherwise.
* **C28** (proved) No counted event is lost or counted twice.  Every interleaving of step-by-step counting and exporting goroutines on the 16 locked shards; counters as unbounded naturals.
* **C29** (partial) Counters are keyed by exactly the declared dimensions.  Holds for events with the property names of the site sample in the same order and string dimensions; other layouts are keyed by position, other values panic.
* **C30** (partial) Statistics keep being exported every interval.  Only the first interval is exported: the timer is never reset.
* **C31** (proved) A rotated log file never exceeds its size limit.  Every sequence of Write, Rotate, Close and faults. Byte counts are unbounded integers (no wrap of the int64 size).
* **C32** (partial) Log rotation loses no bytes and keeps their order.  Full statement is false: two rotations in the same millisecond overwrite a backup (same_millisecond_loses) and a failing Stat truncates the live file (failing_stat_loses). Proved when backup names do not collide and Stat does not fail.
* **C33** (partial) Retention removes exactly the expired backups.  Full statement is false for MaxAge above 106751 days, where the duration overflows and everything is removed (huge_age_removes_all). Proved for names the logger generated and an extension other than ".gz". Removing and compressing are taken to succeed; failures are the subject of C148.
* **C34** (partial) A backup name is recognised and dated back to its rotation time.  Full statement is false: with LocalTime the parsed time is off by the zone offset (local_time_shifted), and a name shorter than prefix and extension together panics (overlap_panics). Proved for the default layout and years up to 9999.
* **C35** (proved) The asynchronous writer delivers in order without corruption or duplication.  Interleaving state machine with an explicit memory, so that buffer reuse is visible. Channel operations are atomic.
* **C36** (partial) Closing the asynchronous writer flushes what was accepted.  Full statement is false if the downstream writer panics: the worker ends and Close returns with messages still queued (panic_loses).
* **C37** (proved) The event queue of the web viewer accounts for every event.  Loggers, pool, queue and readers as an interleaving state machine. The dropped count is exact modulo 2^64.
* **C38** (partial) A queued event keeps the content it was logged with.  Full statement is false: the queue keeps the pooled buffer, which the next event overwrites (recycled_buffer_overwrites). Proved when the pool never hands out a buffer that is still queued.
* **C39** (proved) The rotating writer never loses a write.  Writer and background goroutine interleave between system calls and status accesses; any call may fail; one goroutine writes. The two conditions are needed: same_name_loses, written_after_purge_lost.
* **C40** (partial) Reaching the size trigger leads to a rotation.  Full statement is false: nothing is ever sent on archiveChan, so a size trigger never archives (size_trigger_never_archives), and after the first trigger the size is never counted again (never_counted_again). Proved: the trigger is raised exactly at the configured size, and after a rotation by the timer the next write starts a fresh file.
* **C41** (partial) Archive retention keeps exactly the newest archives.  Proved for every limit of at least zero; a negative limit panics (negative_limit_panics).
* **C42** (partial) Interval trigger always waits a positive time up to one interval.  Full statement is false before 1970 (before_epoch), after 2262 (after_2262) and in the sub-second part of the end point (fraction_ignored). Proved for clock readings in between, counted from whole seconds.
* **C43** (proved) StopAndWait returns only when all goroutines have finished.  Executor as an interleaving state machine; LogPanic and LogInfo are assumed to return.
* **C44** (proved) A panic in one goroutine does not affect the executor.  Executor as an interleaving state machine; LogPanic and LogInfo are assumed to return.
* **C45** (partial) Goroutine-local storage is isolated per goroutine.  Full statement is false if a function made by WithGls runs on two goroutines at a time, which then share one map (two_runs_share). Proved for every interleaving in which no wrapped function is run twice and maps given to ResetGls are not shared.
* **C46** (partial) A child goroutine inherits a copy of its parent's storage.  Full statement is false if a wrapped function is run again: the second run sees what the first set (second_run_sees_first). Proved for functions run once; the end of the storage is proved in general.
* **C47** (proved) Concurrent map behaves like a map.  Lock based version (Go before 1.9) with any number of goroutines. From Go 1.9 on Map is sync.Map of the standard library, not modelled.
* **C48** (proved) Closing several resources attempts every one and reports every failure.  A failure is an error returned by Close; resources may change the world in any way. A Close that panics ends CloseAll, as any panic does.
* **C49** (partial) Reflective append behaves like append.  Proved for capacities below 2^62; above, the computation of the new capacity may not end (huge_never_ends), which needs elements of size zero to happen.
* **C50** (partial) Growth reaches the requested capacity in amortised steps.  Full statement is false near 2^63: the capacity overflows to zero and the loop never ends (huge_never_ends). Proved for expected lengths up to 2^62.
* **C51** (proved) Diff opcodes turn the first sequence into the second.  All pairs of sequences over any element type, with and without junk heuristics.
* **C52** (proved) Matching blocks are ordered, disjoint, maximal-joined and end with the sentinel.  All pairs of sequences, with and without junk.
* **C53** (proved) The longest match is really longest.  Longest and earliest, for inputs without junk; soundness for all inputs.
* **C54** (proved) Similarity ratios are bounded and ordered.  For every monotone rounding of the floating point division.
* **C55** (partial) Grouped opcodes keep all changes with at most n lines of context.  All sequences and all context sizes below 2^62; above, sums overflow and positions become negative (huge_context).
* **C56** (partial) Repeated diff queries give the same answer.  False as stated: GetGroupedOpCodes truncates the cached opcodes in place. Proved for every history and every query the truncation does not reach.
* **C57** (partial) A unified diff carries the lines verbatim and its headers count them.  Round trip through an independent patch reader for lines without percent signs; lines with percent signs are used as format strings and changed.
* **C58** (proved) SplitLines loses nothing.  All texts.
* **C59** (partial) Template JSON comparison accepts exactly the matching documents.  Full statement is false: any null in the template is a panic (null_panics), placeholders in arrays are taken literally (array_placeholder), a missing member is accepted for {ANYTHING} (missing_is_anything), and actual values that are neither strings nor bytes are never accepted (value_never_accepted). Proved for templates without nulls and without placeholders as keys; placeholders as keys are the subject of C124.
* **C60** (proved) Failure report shows the whole failed statement.  Parentheses are counted as bytes, also those in strings and comments, which is what the statement says. bytes.TrimSpace is a parameter.
* **C61** (partial) Property maps and pointers in a memory dump are complete.  Full statement is false: types that refer to themselves are never dumped (recursive_type_never_ends), and nil references have no entry (nil_has_no_entry). Proved for every dump that ends; for maps see C118.
* **C62** (partial) The viewer endpoint returns one well-formed JSON array.  Full statement is false for every batch: an extra "[" is written first (body_never_json). Proved: without that byte the body is the JSON array of the events. The output of the json-iterator stream (an external library) is taken as documented.
* **C63** (partial) A value of an unsupported type still yields valid JSON.  The marker is valid JSON outside structs for plain type names; inside structs it is not valid JSON.
* **C64** (partial) Error values are encoded as JSON strings of their message.  Valid, also inside other values (marshal_parses_partial), for error texts without quote, backslash and control bytes; false otherwise.
* **C65** (partial) An encoder can be built for every type.  Construction returns iff the shown parts of the type are well-founded; for recursive types it never returns.
* **C66** (partial) The configuration applies at every depth.  Every struct encoder built with IncludesUnexported shows all fields; inside interface values the configuration is lost (witness).
* **C67** (partial) Fprintln writes the values and a newline to the given writer.  First line of a process with at least one value; false without values and after a line with another type.
* **C68** (partial) Log lines show the level of the event.  False for the human readable format at every level; holds for the compact format.
* **C69** (partial) JSON log lines are JSON.  False for every event: timestamp and location are written without quotes. The part before them is a valid object of the event and all properties in order.
* **C70** (partial) An event is written exactly once.  At most once when no stats handler panics, exactly once when nothing panics; twice when the stats handler panics after the write.
* **C71** (partial) An event is formatted by the handler of its own event name.  Handlers cached by event name belong to that event (invariant); after panics handlers are cached by place only, so events sharing a place are mixed up.
* **C72** (partial) Every property is logged with its own value.  Both text formats, any template message and properties with distinct names that can stand in placeholders, unless a format of the line was cached for other properties; then values are exchanged. The human readable format with the properties of the context and with timers; the text of a duration is a parameter.
* **C73** (partial) A bad event does not stop the counters.  False: a panic in Handle leaves the shard locked for ever; without such events every held lock is held by a goroutine inside its critical section.
* **C74** (proved) An export reports everything handled before it began.  Every interleaving, every key; collector calls do not panic.
* **C75** (partial) Every failed close is logged with its own error.  Full statement is false: each event also carries the errors of the failures before it (logged_errors_pile_up). Proved: one event per failure, in order, whose last error is its own.
* **C76** (partial) Growing a reflective slice keeps its elements and adds zero values.  Full statement is false: within the capacity the added elements are stale (grow_shows_stale), a smaller length cuts off elements (grow_cuts) and indexes are not checked (index_unchecked). Proved when a new array is made, and for indexes within the slice.
* **C77** (partial) Table entries of a dump show what memory holds.  Full statement is false for slices that share their start, of which one entry is lost (shared_slices_lose_elements), and for pointers to pointers (pointer_to_pointer). Proved for types without pointers and maps.
* **C78** (partial) Context properties are shown.  Holds when the context has the same property names as at the first event of that name, distinct from the event's own. False otherwise: properties added later are not shown, nothing is shown if the first event had no context, an event without context panics after one with, and an own property named like one of the context shows a wrong value.
* **C79** (partial) The layout format shows what the layout asks for.  Every layout and message template, for messages of printable ASCII without backslash and bar and formats not cached for other arguments. False otherwise: the message is escaped, text between letters outside ASCII and a trailing line feed or bar are lost, and the mark event! is shown.
* **C80** (partial) Indirect gives the value pointed to.  Full statement is false: for types that come down to a single unsafe.Pointer the result holds the address of the variable (indirect_unsafe_pointer), and for types not kept in the interface word itself the result changes with the variable (indirect_follows). Proved for all other types, and the second part for types kept in the word.
* **C81** (partial) IsNil says whether the value is nil.  Full statement is false for an interface{} variable holding a nil pointer (isNil_typed_nil), for unsafe.Pointer (isNil_unsafe_pointer) and for reflect2.IsNil of a nil slice (isNilAny_slice). Proved for all other types.
* **C82** (partial) Struct fields are read and set in place.  Full statement is false for fields of embedded structs: the offset is that within the embedded struct (promoted_off, promoted_set_wrong), and embedded pointers are not followed (promoted_ptr). Proved for the fields of the struct itself. No padding between fields in the model.
* **C83** (partial) Array elements are set within the array only.  Full statement is false: indexes are not checked (array_out_of_range, array_negative_index). Proved for indexes within the array.
* **C84** (partial) Maps through reflect2 behave as in the language.  Full statement is false of the safe implementation, whose TryGetIndex panics on everything the unsafe one takes (safeTryGetIndex_panics). Proved in full for the unsafe implementation; its GetIndex points into the map (getIndex_follows) where the safe one copies. Growing maps moving their elements is not modelled, nor is the safe iterator.
* **C85** (partial) One Type object per type.  Full statement is false: goroutines asking for a new type at the same time get different objects (different_objects). Proved: the object describes the type in all interleavings, later calls agree with each other, and with the first if that ran alone.
* **C86** (partial) A context diff can be applied.  Full statement is false for lines with percent signs, which are used as formats (context_percent), and for an empty Eol, which means a line feed although the comments at 551-552 and 660-661 say otherwise (empty_eol). Proved for all other lines, headers and context sizes, against a reader that checks every line, mark and number.
* **C87** (partial) Equal compares by contents.  Full statement is false of NaN, which is not equal to itself (equal_nan), and of functions, which always fail (equal_shared_function, as documented). Proved for all other values that are trees of one memory.
* **C88** (partial) EqualValues compares numbers by value.  Full statement is false: expected is converted to the type of actual, so that uint32 300 equals uint8 44 (equalValues_cut) and the number 65 equals the string A (equalValues_rune). Proved: what the answer is for all integers (equalValues_int), and the property if the expected number fits the type of actual. Conversions other than from integers are a parameter.
* **C89** (partial) Contains, Subset and ElementsMatch compare elements by contents.  Full statement is false: something that is not a string is looked for in a string as text like <int Value> (contains_string_other); ElementsMatch panics on nil beside a list that is not empty (elementsMatch_nil) and accepts 0 and the empty string as matching lists (elementsMatch_empty). Proved for all lists, maps and strings of values without NaN and functions.
* **C90** (partial) An assertion that returns false has failed the test.  Full statement is false: Subset and NotSubset with a nil list return false and report nothing (subset_silent), and so does Subset with a message that is not a string, which makes the other assertions panic (message_not_string). Proved for all other arguments. ElementsMatch is in C89, the assertions about numbers and panics in C92 to C96.
* **C91** (partial) Nil, Empty, Zero and Len mean what the language means.  Full statement is false of nil unsafe pointers, which count as not nil (nil_unsafe_pointer). Everything else is proved.
* **C92** (partial) InDelta passes exactly within delta.  Full statement is false of integers above 2^53, which are rounded (inDelta_large), of uint, uintptr and named types, which are rejected (inDelta_uint), and of a delta that is NaN, which accepts everything (inDelta_nan_delta). Proved with IEEE 754 rounding, as defined in Verif/Assert/Float.lean, for all numbers a float64 can hold: exact if the difference is not rounded, for example for all integers up to 2^52, and up to its rounding otherwise.
* **C93** (partial) InDeltaSlice and InDeltaMapValues compare everything.  Full statement is false of slices of different lengths: a longer expected slice is accepted (inDeltaSlice_longer), a shorter one makes the assertion panic (inDeltaSlice_shorter), as do maps with keys of different types (inDeltaMap_keys). Proved for slices of the same length and for all maps with keys of the same type.
* **C94** (partial) InEpsilon bounds the error relative to the expected number.  Full statement is false: InEpsilonSlice takes the error relative to the actual element (inEpsilonSlice_swapped), NaN is within any epsilon of everything (inEpsilon_nan), and zero is rejected even if found (inEpsilon_zero). Proved for numbers whose difference a float64 can hold, up to the rounding of the quotient.
* **C95** (partial) WithinDuration passes exactly within the duration.  Full statement is false of the largest duration, within which times any time apart are (within_max), and of the smallest, which is negative (within_min). Proved for all other durations and all times.
* **C96** (partial) Panics and errors are recognised.  Full statement is false of panic(nil), which counts as no panic (panics_nil), of slices, maps and functions, on which PanicsWithValue itself panics (panicsWithValue_slice), and of pointers, which must be identical (panicsWithValue_pointer). Proved for all other panics and for all errors.
* **C97** (partial) A failure report shows the whole failure.  Full statement is false: from a line of 65536 bytes on the text is missing (report_long), and so are carriage returns at the end of lines and a line feed at the end (report_cr). Proved for all other texts, against a reader of the table.
* **C98** (partial) Checks find the test they belong to.  Full statement is false: on a goroutine started with a plain go statement checks panic instead of reporting (plain_goroutine_panics), and after a case run inside another one on the same goroutine the outer one has no T any more (inner_case_loses_t). Proved: the test goroutine finds its T under all operations of others, and goroutines started with gls.WithGls do if no wrapped function is run twice.
* **C99** (partial) must ends the test, should lets it go on.  Full statement is false of Pass and Assert with a key without value or a key that is not a string: they panic instead of failing the test (odd_pairs; must.Assert ignores its keys and values). Proved for all other checks, for arguments of Equal without NaN and functions (see C87) and of Nil other than nil unsafe pointers (see C91). Equal calls the original stretchr package, which is modelled by its copy in this repository.
* **C100** (partial) Panic checks that a function panics and returns the value.  Full statement is false of functions that panic with a nil pointer or other typed nil: the test fails as if there were no panic (panic_with_nil). Proved for all other functions, with checks, skips and Panic inside to any depth.
* **C101** (partial) Call passes the arguments and fails on an error.  Full statement is false: should.Call panics on nil arguments (should_nil_panics), must.Call passes a nil slice for the first variadic argument that is nil and panics for others (nil_variadic), and a nil pointer whose type implements error counts as an error (typed_nil_error). Proved for all other calls.
* **C102** (partial) Set stores the results of a call.  Full statement is false if a result is nil: Set panics, so that the error of a call that went well cannot be stored (set_nil_panics). Proved for all other results.
* **C103** (partial) Sdump ends on values that contain themselves.  Full statement is false: Sdump runs for ever on a pointer that leads back to itself through pointers and interfaces alone (pointer_circle_hangs), and without MaxDepth on slices and maps that contain themselves without a pointer (slice_circle_hangs, map_circle_hangs). Proved for all other values, with any circles through pointers to structs, slices and maps.
* **C104** (partial) Sdump shows every part of the value.  Full statement is false of maps with NaN keys: their values are shown as <invalid> and the closing brace loses its indent (nan_key_value_lost). Proved for all other values. A pointer that is shared but not circular is called already shown too, depending on its depth (shared_pointer_said_shown).
* **C105** (proved) The hex dump of bytes loses none.  For an indent of blanks (spaces and tabs).
* **C106** (proved) Addresses are printed exactly.  
* **C107** (partial) Values that are dumped alike are alike.  Full statement is false: nil pointers at different depths of indirection are shown alike (nil_pointers_look_alike), a pointer to a nil slice looks like a nil pointer (nil_slice_looks_like_nil_pointer), and Error and String methods hide what they do not say (methods_hide_difference). Proved for all other values; that quoting and number formatting are injective is assumed of the standard library and stated (Plainly).
* **C108** (partial) Sorted dumps do not depend on the order of map iteration.  Full statement is false of maps whose keys are interfaces, or structs or pointers without methods: all of them compare equal, as Value.String is only the type, and come out in any order (interface_keys_any_order); and of NaN keys (nan_breaks_order). Proved for keys that are booleans, numbers, strings or arrays of such, and for keys whose methods give different texts.
* **C109** (partial) The safe configuration does what the unsafe one does to slices.  Full statement is false: behind the end of a slice the safe configuration panics and the unsafe one goes on (index_differs), likewise for MakeSlice with a length above the capacity (make_differs); Grow panics or does nothing with the safe one, for every slice (grow_differs); GetIndex gives a pointer to a copy with the safe one (get_points); and the safe struct types do not satisfy StructType (struct_assertion_differs). Proved: the safe configuration agrees with lists on all programs, panics included, and the unsafe one whenever there is no panic, up to 2^60 elements.
* **C110** (partial) The safe configuration does what the unsafe one does to struct fields.  Full statement is false: the unsafe configuration misplaces fields of embedded structs (promoted_differs), the safe one refuses fields that are not exported (unexported_differs) and accepts structs of other types (other_struct_differs). Proved: the safe configuration reads and sets exactly the selected exported field.
* **C111** (partial) Iterating over a map with the safe configuration visits its entries.  Full statement is false: a key that does not equal itself (nan_panics) and a deleted entry (deleted_panics) make Next panic. Proved for all other maps and changes.
* **C112** (partial) HTTP assertions tell the handler's answer.  Full statement is false: 207 to 299 and 308 to 399 belong to no class (status_left_out), and the assertions about the body pass without the handler having been called if the request cannot be made (body_without_request). Proved for the rest.
* **C113** (partial) The handler sees the query values of an HTTP assertion.  Full statement is false of URLs with a query (query_twice) or a fragment (query_fragment) of their own. Proved for all others.
* **C114** (partial) The formatter writes the one-line form of a value.  Full statement is false under %#v: behind a nil or already shown pointer in a list or map the flag that hides the type stays set, and the next field of the surrounding struct loses its type (type_lost). Proved for %v and %+v of all values, and for %#v of values whose lists and maps hold no pointers except behind interfaces.
* **C115** (partial) The formatter ends on circular values.  Full statement is false: circles of pointers alone (format_pointer_circle_hangs) and circles through slices without a pointer (format_slice_circle_hangs) are followed for ever. Proved for all other values, and with MaxDepth for all but circles of pointers alone.
* **C116** (partial) Other verbs reach package fmt unchanged.  Full statement is false: a width of 0 given by an argument becomes the flag 0 (width_zero), and verbs that are digits run together with the precision (digit_verb). Proved for all other directives.
* **C117** (partial) Goroutines formatting at the same time do not disturb each other.  Full statement is false where the array behind percentBytes has room for more than one byte: every buffer writes there (shared_mixes). Proved for an array of one byte, and for calls one after the other.
* **C118** (partial) The dump of a map shows all of it.  Full statement is false: the encoder of a map in an interface takes the address of a pointer to the header for the header, so that the count shown is an address (interface_count_wrong); and the array of buckets is replaced by its first bucket where the free overflow bucket is linked to it (free_bucket_hides_array). Completeness proved for all maps in interfaces; the rest for an encoder given the header, keys and elements without pointers (that every linked bucket has an entry: without pointers to pointers), held in the buckets.
* **C119** (partial) The dump of a map comes to an end.  Full statement is false: a map of pointers panics at every slot not in use, since the slot holds nil (empty_slot_panics). For an encoder given the header: proved as stated for integers, strings and structs of them; for all types without pointers to pointers and slices of pointers, exactly when a dump ends, those panics included. Pointers to pointers and slices of pointers are missing.
* **C120** (partial) Events are counted exactly when asked for.  Full statement is false: the Call functions ask for the aggregation call, which the aggregator does not know, so they are never counted (call_never_counted, info_call_not_counted); the first event of a name decides for all later ones (counter_ignored); property lists that are not names and values panic (handlerOf_panics). Proved: counted exactly if the first logged event of the name asked for a counter, for runs whose calls with one event name have the same property names and dim list.
* **C121** (partial) Aggregation does not change the log.  Full statement is false: with a collector a successful InfoCall is written at INFO, without one only at INFO_CALL (collector_changes_writing); and events that ask for a counter are hidden at their own level even though aggregation is disabled (disabled_counter_hides). Proved for event names first logged with agg counter or without agg, and the documented levels without a collector.
* **C122** (partial) Old backups are cleaned after every rotation.  Full statement is false: a rotation that moves the file aside but cannot open the new one returns without cleaning (failed_rotation_leaves_expired), and a file that cannot be opened for appending is moved aside after cleaning was asked for (late_backup_leaves_expired). Proved for runs without these two failures; that writers never wait and that cleaning ends (worker_stops, not_stuck) for all. Removing and compressing the listed files is one step of the model; its system calls are the subject of C148.
* **C123** (partial) Properties follow the context.  Full statement is false: Ctx of a context derived from a countlog context starts without properties (rewrapped_shows_nothing); what is added to a derived context shows in the one above (added_below_shows_above); without a log context what is added is dropped (added_before_ctx_lost); an int key of somebody else hides the properties (int_key_hides); adding in two goroutines can mix names and values (concurrent_adds_panic). Proved for sequential programs that leave the key alone: what a context shows is exactly what was added to the log context of the nearest call of Ctx that made a new one.
* **C124** (partial) Placeholders as keys.  Full statement is false: a name that is a key of the template too overwrites that member, so a wrong document is accepted (collision_accepted); a missing key or a value that is not a string panics (missing_key_panics); {ANYTHING} does not work below such a key (any_below_key_fails); a nested use depends on the order of the map (order_matters); a document with the placeholder itself overflows the stack (never_ends). Proved for templates with any number of such keys and of placeholders as values in the outermost object, each key bound to a fresh name of its own by members of the same object, in every order (many_keys_partial, many_orders_partial); missing are {ANYTHING} and placeholders in nested objects together with keys.
* **C125** (partial) Messages and forms of assertions.  Full statement is false: the assertions about HTTP never show the message (http_drops), InEpsilonSlice drops it when two elements differ (epsilon_drops), a message without arguments is shown unformatted (single_not_formatted), and one that is not a string panics (message_panics). Proved for all forms and all other assertions.
* **C126** (partial) FileExists and DirExists.  Full statement is false: Lstat does not follow a link at the end of the path, so a link to a directory passes FileExists and not DirExists (link_to_dir), and a dangling link passes FileExists (dangling). Proved for all other paths.
* **C127** (partial) Caller frames.  Full statement is false: a helper named like a test ends the walk (helper_cuts), and frames in any directory named assert, mock or require are left out (user_package_hidden). Proved for stacks without such helpers, with those directories named in the specification.
* **C128** (partial) JSONEq.  Full statement is false: numbers are compared as float64, so 9007199254740993 equals 9007199254740992 (rounded_passes), and 1e400 fails against itself (too_large_fails). Proved for all texts whose numbers a float64 holds; texts with the same meaning pass for all numbers in range.
* **C129** (partial) Assertions about one fact.  Full statement is false: Implements panics unless its first argument is a pointer to an interface (implements_panics), Regexp panics for a text that is no pattern (regexp_panics) and sees bytes as a list of numbers (bytes_not_text). Proved for all other arguments.
* **C130** (partial) Listing files named by index.  Full statement is false: what follows the pattern in a name is ignored, so test-1.log.gz is listed (longer_listed); leading zeros, signs and spaces are listed (zeros_listed); with a digit behind %d the archives themselves are not (digit_suffix). Proved which names are listed, for all patterns with one %d, and that every indexed file is listed if the suffix does not start with a digit.
* **C131** (partial) Logging a panic.  Full statement is false: a short trace is padded with zero bytes (trace_padded); a property slice with spare capacity is appended to in place, overwriting data of the caller (overwrites) and mixing up the panics of two goroutines (wrong_panic). Proved for slices without room.
* **C132** (partial) Interfaces of types tell their kind.  Full statement is false: slices are an ArrayType (slice_is_array), everything is a PtrType and an InterfaceType (all_ptr, all_interface), and with the safe configuration nothing is a StructType (safe_struct) while pointers are a MapType (safe_map) and arrays a SliceType (safe_slice). Proved for StructType, SliceType and MapType with the unsafe configuration.
* **C133** (partial) Types by name.  Full statement is false: of two packages with one name only the last is found (shadowed), and only structs are found (others_panic). Proved for structs whose text is that of no other, and that a name of no struct panics (unknown_panics).
* **C134** (partial) Home page of the viewer.  Full statement is false: the page made at the start is never sent (start_page_unused), since debug mode is always on; the files are read from where the program was built, and an error text is sent as the page if they are not there (error_sent). Proved for the page at the start, and for the page sent if the source is there.
* **C135** (partial) Time shown for a timer.  Full statement is false: a timer whose level is not enabled is 0, but a call that failed is logged all the same and shows the time since 1970 (failed_call); so does an entry whose level was enabled after the timer was started (lowered). Proved for entries at a level not above that of the timer, with a level not lowered in between; and that the text of every duration is that duration (text_shows).
* **C136** (partial) Formatters used again.  Full statement is false: the pointers shown are remembered, so a struct prints <shown> for a pointer shown only the last time (shown_at_once), and with # a type is missing the second time (type_lost_again). Proved without # for pointers, nil and values without pointers.
* **C137** (partial) Formats with several arguments.  Full statement is false: %T and %p are about the formatter (own_type), a width or precision given by an argument is never taken (star_width), and arguments left over are shown as *spew.formatState (extra_shown). Proved for all formats without these verbs and without *, and at most one argument for each directive. Argument numbers in brackets are the subject of C150; C136 tells what happens when a formatter is used again.
* **C138** (proved) Several arguments without a format.  
* **C139** (partial) Spew reads every value.  Full statement is false: in the versions of package reflect with a field for scalars, a uintptr in the value itself is read from the pointer field (uintptr_lost) and a struct of one pointer from the field for scalars (struct_lost). Proved for all values in the other versions, and for those kept elsewhere or of other kinds in these. Where package reflect kept what is taken from its documentation at the time.
* **C140** (partial) The line a failure is shown at.  Full statement is false: should.Panic and must.Panic report from a function inside, which is no helper, so that the failure is shown at a line of the package (panic_line). Proved for all stacks with at most fifty helpers in a row, the number package testing looks at; inlining is not modelled.
* **C141** (partial) The safe configuration does what the unsafe one does to maps.  Full statement is false: TryGetIndex panics with one of the two whatever the arguments, as one wants pointers and the other the values (tryGetIndex_never); a nil element deletes with the safe one and panics with the other (nil_element_deletes); nil pointers to maps and keys differ (nil_pointer_differs); pointers to other types are accepted by the safe one only (near_accepted). Proved for all sequences of the other calls with pointers to values of the types.
* **C142** (partial) Iterating with the unsafe configuration over a map that changes.  Full statement is false: the iterator is one entry ahead, so an entry deleted before it is reached is returned all the same, with what the runtime left in its place (deleted_returned), and an element assigned after the map grew is returned as it was (stale_returned). Proved for all orders and all changes without these two. Keys that do not equal themselves are not modelled.
* **C143** (partial) Types of kinds.  Full statement is false: complex64 and complex128 have no default type (complex_missing), and unsafe.Pointer is not nullable (unsafePointer_nullable). Proved for all other kinds.
* **C144** (proved) Counters outlive the memory of events.  Dimensions that are no strings (C29) and counters beyond 2^64 are not modelled.
* **C145** (partial) Functions with storage of their own can be called anywhere.  Full statement is false: when such a function returns or panics the caller has no storage at all, its next Get gives nothing and its next Set panics (storage_gone, user_lost). Proved for all programs that call them only where there is no storage, panics included.
* **C146** (proved) Goroutines printing at the same time.  For writers that do not keep what they are given, as package io asks; one that does finds it changed (kept_changes). What the texts are is in C20 to C24.
* **C147** (proved) Paths of fields and indexes.  Fields by number, that is of the struct itself; fields of embedded structs by name are the subject of C82, indexes outside of the array of C83. The layout of structs is that of the compiler on 64-bit machines.
* **C148** (partial) Backups survive failures while they are compressed.  Full statement is false: two Loggers cleaning at the same time lose a backup without any failure (two_loggers_lose); on Linux a failing chown returns before the removal of the compressed file is deferred and leaves it empty (chown_leaves_empty), and of course a kill can leave part of one (kill_leaves_part). Proved when no two goroutines clean at a time: no backup is lost whatever fails (kept_partial), the next cleaning without failures compresses all (caught_up_partial), and without kills, failures of the removal itself, and failures of chown or the second opening on Linux nothing incomplete stays (nothing_left_partial). Losing power, after which finished writes may be gone, is not modelled.
* **C149** (partial) What was logged before Close is in the files, whole and in order.  Full statement is false: a message that the downstream writer fails to write, for example because the disk is full, is cut or missing though Write and Close report no error (full_disk_loses), and so is a message longer than the maximum size (long_message_loses). A downstream panic and the time limit of a second lose messages as in C36, two rotations in a millisecond as in C32. Proved without these: in_the_files_partial. With any failures except those of os.Stat, what is in the files is a beginning of each message, in order (despite_failures_partial).
* **C150** (partial) Formats that name their arguments by number.  Full statement is false: an argument with pointers inside that is printed a second time takes a pointer for one shown further up (picked_twice), with # the type goes missing (picked_type), and sizes from arguments are not taken (picked_width). Proved for all formats whose numbers stand before the verb, if arguments printed twice by %v are nil, pointers, or without pointers, and have no # (indexed_partial), and for all values and flags if none is picked twice (indexed_once); package fmt itself picks as the specification says (std_picked).
* **C151** (partial) Sources sharing memory do not disturb each other.  Full statement is false: PeekN gathers with append(src.current, ...) and so writes into the spare capacity behind the buffer: with the two halves of one array as buffers it overwrites what the other source holds (neighbours_disturbed), and it writes into the array of the caller behind the buffer given (behind_written). Proved for all buffers that do not overlap counting their capacity, e.g. made with make or cut with big[:n:n] (alone_partial, peeked_stays); this also carries the theorems on sources as values (C01 to C11) over to sources on memory. SetBuffer is not among the calls here (C166).
* **C152** (partial) Marshalling reads memory only as what it holds.  Full statement is false: a pointer as key of a map[interface{}]T is taken for the address of a pointer, so that what it points to is read as an address (pointer_key_misread); a nil key there panics (nil_key_panics); a nil interface in a struct field of type error or json.Marshaler panics (nil_error_panics); a value that contains itself is never finished (cycle_never_ends). Proved for all memories that hold a finite value of any type without these (memory_safe_partial), and with C17 that the text reads as the value (memory_read_partial). One cell per variable without parts; the methods Error and MarshalJSON are taken to return.
* **C153** (partial) An extension decides how its types are printed, and knows where it is.  Full statement is false: below interfaces the default configuration is used, which has no extensions (extension_lost_below_interface); fields that are functions or channels are left out before extensions are asked (extension_not_for_fields); in structs the prefix given to extensions is overwritten by the text of the field, so that it says nothing about where the struct is (field_path_lost). Proved for extensions that look at types only and types without interfaces and such fields, after any earlier calls (extension_decides_partial); and that the prefix is the path through pointers, slices, arrays and maps (asked_with_path_partial). Encoders given by extensions are functions of the value; field names start in ASCII (C18).
* **C154** (partial) What is marshalled does not depend on what was marshalled before.  Full statement is false: the encoder of a key type is remembered with the prefix of the first place it was met, which shows in the message about keys that cannot be encoded (chan_key_remembers) and in the decisions of extensions that look at the prefix (path_extension_remembers). Proved for all types whose map keys can be encoded and extensions that look at types only, after any earlier calls whatever their types (history_free_partial); without extensions the text is that of the model without caches, so that C16 to C19 hold of any sequence of calls (caches_transparent_partial). Calls are taken one after the other here; C160 takes them at the same time.
* **C155** (partial) A JSON log line shows the properties of its own event.  Full statement is false: names are those of the event the handler was made for (names_of_sample), values of another type than there are read from memory as what they are not (type_confused), events with fewer properties panic (fewer_panics), properties beyond those of that event are left out (more_left_out), and no handler can be made for an event with a nil value (nil_panics). Proved for events whose properties have the same names and types (event_shown_partial), for the values of C17 and C152; that the line itself is no JSON is C69.
* **C156** (partial) The points a collector gets say what was counted, and stay so.  Full statement is false: no point has the name of its event, since the window never gets it (point_unnamed); what a collector appends to a dimension is overwritten by the next point (appended_lost), and appending later changes other points (append_later_spoils), because each dimension has the rest of the array as its capacity. Proved: time, combination and count of every point, and that they are still so at the end of the export whatever collectors append meanwhile (points_partial).
* **C157** (partial) Dropped messages are reported with their number.  Full statement is false for the asynchronous writer, whose counter is a plain variable: if two goroutines drop messages at the same time, any number of drops can go unreported (silent) and increments are lost, so that two reports say the same number (same_number). Proved for goroutines dropping messages one at a time (async_reported_partial), and in full for the viewer (viewer_reported), whose reports may come in another order (viewer_order).
* **C158** (partial) Goroutine ids, and storage by id.  Full statement is false: the struct is looked up by the text runtime.g, which another package called runtime can have too (another_runtime); a program without it, or without goid in it, panics when it starts (no_g, no_goid); negative ids panic unless they are multiples of 16 (negative_panics). Proved for programs with the struct of the runtime only, for all layouts and memories (goid_partial), and for all other ids and histories (by_id_partial). getg is assembly and is taken to return the address of the struct.
* **C159** (partial) What a failed Equal says about the difference.  Full statement is false: lines with percent signs are used as formats, so the diff of []string{"100%"} and []string{"50%"} shows texts that neither has (percent_garbled); values that differ can have the same dump, and the diff is then empty (nothing_shown); for values that contain themselves the message is never done (circular_never_ends). Proved for dumps without percent signs of values whose dump ends (diff_explains_partial), and, for values without methods and pointers shown as nil, that a difference is shown (difference_shown_partial).
* **C160** (partial) Goroutines that marshal at the same time do not disturb each other.  Full statement is false for maps whose keys cannot be encoded: the message about them says where they were met by whichever call came first (chan_key_race). Proved for all types whose map keys can be encoded and extensions that look at types only, whatever the other goroutines marshal (together_partial); without extensions the text is that of the model without caches (together_transparent_partial). Every call returns (together_ends). Cache accesses in a row are the calls of C154 (alone_marshal). Each Load or Store of a cache is one step.
* **C161** (partial) Goroutines that log at the same time do not disturb each other.  Full statement is false: besides the failures of C27, C70 and C71, goroutines that log a new event at the same time each make a handler, and the event is counted in two windows (counted_apart). Proved for every earlier history, number of goroutines, pattern of panics and interleaving: the claims of C26, C27, C70 and C71 (together_*), and that every call returns (together_ends). The accesses to the cache in a row are the calls of C27 (alone_calls). Each Load or Store is one step; the levels do not change meanwhile.
* **C162** (partial) Goroutines that format at the same time do not disturb each other.  Full statement is false as C23 is: with the same names in another order, what is printed depends on the interleaving (order_decides). Proved for goroutines that pass the same names in the same order with values of the same types for the same format (together_partial); without conditions, every call gives what it gives after one earlier call with its format (together_after_one). Every call returns (together_ends), given that compiling and formatting do. Each Load or Store is one step.
* **C163** (partial) The minimum level can be changed while goroutines log.  Full statement is false: a counted event whose call reads MinLevel before and MinCallLevel after SetMinLevel is counted but not written, though the old level writes it and the new one drops it (torn); and two goroutines in SetMinLevel at the same time can leave MinLevel of the one and MinCallLevel of the other for good (mixed_forever). Proved for levels set by one goroutine at a time: torn events are the only exception (together_partial), and calls during which none is set go by the last one (undisturbed). In all interleavings warnings, errors, fatal events and failed calls are kept (important_kept). Reads and writes of an int are atomic; handlers do not panic (C161).
* **C164** (partial) Assigning another EventWriter or EventAggregator takes effect.  Full statement is false: events of a name that was logged before stay with the writer and aggregator of that time, whatever is assigned later (assigned_late; exactly: first_decides), until that writer panics (panic_moves). Proved for assignments before anything is logged, with any panics (assigned_first_partial), and for names not logged before (new_event). Handlers of aggregators do not panic here; only calls that pass the levels are considered.
* **C165** (partial) A log line shows the place the event was logged at.  Full statement is false: an event name logged at two places always shows the first (second_place_wrong; exactly: first_place), LogPanic shows itself (logPanic_wrong), and after a panic the function is that of the first place while file and line are right (func_stale, right_after_panic). Proved for names logged at one place each, with any panics; the event that made its handler panic shows the file as unknown. That runtime.Caller counts the frames as listed in the model is part of the model.
* **C166** (partial) SetBuffer changes nothing but the memory used.  Full statement is false for an empty buffer, with which PeekN never returns (empty_buffer_hangs). Proved for all other buffers, under the conditions of C01 (operations inside the input, readers that give bytes or an error but not both). Old bytes are kept if the new buffer does not overlap the old one counting capacity; without SetBuffer they are overwritten (old_bytes_lost). On memory the results of reads after SetBuffer are given, fitting the new buffer; readers of package read are covered by the part on values.
* **C167** (partial) Every handler of a list gets every event once.  Full statement is false: handlers behind one that panics on an event never get it (behind_silenced), and at the first panic of an event name those before it handle the event twice (before_again), which no handler does more often (at_most_twice) and which happens once for a name (twice_once). Proved for every event on which no handler panics, after any history (all_once_partial). Without aggregator; a handler that panics is taken not to have handled the event.
* **C168** (partial) An error passed up tells every step.  Full statement is false: log makes a new error of the text, so that the result is never equal to the cause or to any other known error such as io.EOF (not_the_cause), and the text does not tell where the cause begins (same_text). Proved: text of the result (steps_told_partial), of the error of each event (logged_below), and nil without a failure (success_nil), for all chains in which nothing panics (C27 says when). What formatting a message gives is a parameter (C20 to C23).
* **C169** (partial) Registered formats are used as written.  Full statement is false: white space behind the name of a format is taken as part of it (name_space) and white space around arguments is passed on (args_space); formats whose names begin with select or plural panic (reserved_panics); a complaint behind other text makes Sprintf panic (complaint_panics); and a format registered after the message was printed once is not used for it (registered_late). Proved: what is printed for all formats and well-formed messages not used before (custom_printed_partial), which for the formats at the start is what C21 says (initial_output), and complaints in first place (complaint_shown). The formatter a format returns is given by its text for the arguments at hand.
* **C170** (partial) A number that is not there is reported.  Full statement is false: no error is reported for any such input (no_error), the signed readers take a minus sign that no digit follows (sign_swallowed), and at the end of the input they panic (second_read_panics). Proved: Uint64 consumes nothing (nothing_consumed_partial), and sign_swallowed is exact about what the signed readers consume.
* **C171** (partial) The safe configuration does what the unsafe one does to single variables.  Full statement is false: the safe configuration does not compare types (set_unchecked, isNil_unchecked, indirect_unchecked) and converts (set_converts); IsNil differs for an interface{} that holds a nil pointer (isNil_differ_typed), for types without nil and for nil itself (isNil_differ_kind) and for nil pointers (isNil_differ_pointer); what Indirect gave follows the variable with the unsafe configuration only (indirect_differ_later). Proved: the same results on pointers to variables of the type that can be nil, with the safe configuration right for all types (safeIndirect_copied, safeIsNil_right).
* **C172** (partial) Closing leaves the caller's list of properties alone.  Full statement is false: append writes to the array behind the slice if there is room (close_overwrites; closeAll_array says exactly what is written), and an event that was kept then tells the error of a later call (kept_event_changes). Proved: the elements given are never changed, and nothing is if no resource fails or there is no room for two elements.
* **C173** (partial) Appending to Formatters leaves other Formatters alone.  Full statement is false: two formatters appended to one value whose array has room go to the same place, so that the first of the two values formats with the second formatter (appended_twice). Proved: programs that append to no value twice, as the parser of messages does (formats_as_meant_partial), more generally programs that append to a value twice only if it has no room (careful_partial; all programs if the runtime left no room, no_room_partial), and every value at the time it is made.

## Axioms of each theorem

### none

`Lumberjack.too_large_rejected`, `Rotation.before_epoch`, `Rotation.after_2262`, `Reflect2.huge_never_ends`, `Closer.logged_errors_pile_up`, `Reflect2.grow_shows_stale`, `Reflect2.grow_cuts`, `Reflect2.index_unchecked`, `Assert.panics_nil`, `Reflect2.Safe.struct_assertion_differs`, `Simple.decides_bool`, `Simple.bytes_numbers`, `Simple.failNow_ends`, `Simple.condition_panics`, `Reflect2.Kinds.configurations_differ`, `Reflect2.KindTypes.default_partial`, `Reflect2.KindTypes.default_none`, `Reflect2.KindTypes.complex_missing`, `Stats.Points.appended_lost`, `Stats.Points.append_later_spoils`

### propext

`Stats.first_export_partial`, `Stats.never_exported_again`, `Async.nonblocking_accounts`, `Rotation.fraction_ignored`, `Gls.two_runs_share`, `Gls.second_run_sees_first`, `Closer.close_exact`, `Difflib.huge_context`, `JsonEqual.value_never_accepted`, `Dump.nil_has_no_entry`, `Dump.pointer_to_pointer`, `Stats.panic_blocks_reachable`, `Dump.shown_length`, `Dump.shared_slices_lose_elements`, `Reflect2.Types.indirect_partial`, `Reflect2.Types.indirect_keeps_partial`, `Reflect2.Types.indirect_checked`, `Reflect2.Types.indirect_unsafe_pointer`, `Reflect2.Types.isNil_partial`, `Reflect2.Types.isNil_argument`, `Reflect2.Types.isNil_typed_nil`, `Reflect2.Types.isNil_unsafe_pointer`, `Reflect2.Types.isNilAny_partial`, `Reflect2.Types.isNilAny_slice`, `Reflect2.Types.field_set_checked`, `Reflect2.Types.field_type`, `Reflect2.Types.promoted_off`, `Reflect2.Types.promoted_ptr`, `Reflect2.Types.promoted_set_wrong`, `Reflect2.Types.array_negative_index`, `Reflect2.Types.array_index_wraps`, `Reflect2.Maps.safeTryGetIndex_panics`, `Reflect2.Cache.typeOf_describes`, `Reflect2.Cache.different_objects`, `Assert.notEqual_iff`, `Assert.equal_nan`, `Assert.equal_shared_function`, `Assert.equalValues_cut`, `Assert.equalValues_equal`, `Assert.equalValues_nil`, `Simple.reported_simple`, `Assert.nil_partial`, `Assert.nil_unsafe_pointer`, `Assert.panicsWithValue_slice`, `Assert.errors_iff`, `Assert.panicsWithValue_nil`, `Check.set_nil_panics`, `Spew.nan_breaks_order`, `Reflect2.Safe.index_differs`, `Reflect2.Safe.make_differs`, `Reflect2.Safe.promoted_differs`, `Reflect2.Safe.unexported_differs`, `Reflect2.Safe.other_struct_differs`, `Reflect2.SafeIter.deleted_panics`, `Assert.Http.serve_right`, `Dump.free_bucket_hides_array`, `Wrappers.http_drops`, `Wrappers.epsilon_drops`, `Simple.decides_isType`, `Simple.implements_partial`, `Simple.implements_panics`, `Simple.regexp_partial`, `Simple.regexp_or_not`, `Simple.regexp_panics`, `NameByIndex.no_directory`, `Reflect2.Kinds.is_type`, `Reflect2.Kinds.unsafe_tells_partial`, `Reflect2.Kinds.slice_is_array`, `Reflect2.Kinds.all_ptr`, `Reflect2.Kinds.all_interface`, `Reflect2.Kinds.safe_struct`, `Reflect2.Kinds.safe_map`, `Reflect2.Kinds.safe_slice`, `Test.Helper.helper_outside`, `Test.Helper.panic_line`, `Reflect2.MapCalls.same_calls_partial`, `Reflect2.MapCalls.panics_iff`, `Reflect2.MapCalls.tryGetIndex_never`, `Reflect2.MapCalls.nil_pointer_differs`, `Reflect2.MapCalls.near_accepted`, `Reflect2.MapCalls.tryGetIndex_finds`, `Reflect2.KindTypes.nullable_partial`, `Reflect2.KindTypes.unsafePointer_nullable`, `Gls.Nested.storage_gone`, `Gls.Nested.user_lost`, `Stats.Points.point_unnamed`, `Countlog.LevelRace.one_setter`, `Countlog.LevelRace.torn`, `Countlog.Fanout.before_again`, `Reflect2.Types.isNil_same_partial`, `Reflect2.Types.safeIsNil_right`, `Reflect2.Types.set_no_pointer`, `Reflect2.Types.isNil_differ_typed`, `Reflect2.Types.isNil_differ_kind`, `Reflect2.Types.isNil_differ_pointer`, `Reflect2.Types.isNil_unchecked`

### propext, Quot.sound

`Parse.unicodeRanges_no_includes`, `Parse.consumeLoop_bound`, `Jsonfmt.writeUint8_exact`, `Jsonfmt.writeUint16_exact`, `Jsonfmt.writeUint64_exact_partial`, `Jsonfmt.writeUint64_wrong`, `Jsonfmt.canonicalDecimal_inj`, `Jsonfmt.writeUint32_exact_partial`, `Jsonfmt.writeUint32_wrong`, `Jsonfmt.unexported_latin1_emitted`, `Jsonfmt.writeLossyTail_exact`, `Stats.splitComma_spec`, `Stats.dimension_not_string_panics`, `Stats.odd_panics`, `Stats.odd_ignored`, `Lumberjack.live_within_limit`, `Lumberjack.limit_megabytes`, `Lumberjack.nothing_lost_partial`, `Async.delivered_in_order`, `Async.close_flushes_partial`, `Witch.write_never_blocks`, `Witch.reader_progress`, `Witch.recycled_texts`, `Rotation.nothing_lost`, `Rotation.same_name_loses`, `Rotation.written_after_purge_lost`, `Rotation.fresh_after_rotation_partial`, `Rotation.never_counted_again`, `Rotation.keeps_newest_partial`, `Rotation.negative_limit_panics`, `Rotation.wait_partial`, `Gls.private_storage_partial`, `Gls.get_after_set_partial`, `Gls.inherits_partial`, `Gls.parent_unaffected_partial`, `Gls.gone_after`, `ConcMap.returns_effect`, `Closer.closes_all`, `Closer.merge_exact`, `JsonEqual.text_compared`, `Report.split_lines`, `Dump.complete_partial`, `Dump.recursive_type_never_ends`, `Dump.nil_pointer_panics`, `Jsonfmt.RecType.encoderOf_returns_iff_partial`, `Jsonfmt.RecType.recursive_type_never_returns`, `Countlog.level_never_shown`, `Stats.panic_blocks_shard`, `Closer.logged_each_partial`, `Closer.logged_none`, `CloserArgs.closeAll_events`, `Dump.shows_memory_partial`, `Reflect2.Types.indirect_follows`, `Reflect2.Types.field_set_partial`, `Reflect2.Types.array_set_partial`, `Reflect2.Types.array_out_of_range`, `Reflect2.Maps.getIndex_content`, `Reflect2.Maps.iterate_content`, `Reflect2.Maps.map_checked`, `Reflect2.Maps.safeGetIndex_content`, `Reflect2.Maps.getIndex_follows`, `Reflect2.Cache.typeOf_same_partial`, `Reflect2.Cache.typeOf_alone_partial`, `Assert.exactly_equal`, `Assert.elementsMatch_nil`, `Assert.elementsMatch_empty`, `Assert.len_iff`, `Assert.empty_ptr`, `Assert.empty_not`, `Assert.within_max`, `Assert.within_min`, `Assert.panics_partial`, `Assert.report_long`, `Check.currentT_partial`, `Check.child_currentT_partial`, `Check.set_partial`, `Spew.keys_with_methods_partial`, `Reflect2.Safe.safe_field_partial`, `Reflect2.SafeIter.iteration_partial`, `Reflect2.SafeIter.unchanged_partial`, `Reflect2.SafeIter.nan_panics`, `Dump.map_complete_partial`, `Dump.map_shows_partial`, `Dump.interface_count_wrong`, `Wrappers.reaches`, `Wrappers.reaches_plain`, `Wrappers.message_kept_partial`, `Wrappers.shown_partial`, `Wrappers.message_panics`, `Wrappers.can_fail`, `Wrappers.nothing_shown`, `Files.fileExists_partial`, `Files.dirExists_partial`, `Files.not_both`, `LogPanic.trace_padded`, `Spew.Bypass.init_right`, `Spew.Bypass.uintptr_lost`, `Spew.Bypass.struct_lost`, `Test.Helper.site_partial`, `Test.Helper.site_in_test`, `Test.Helper.site_deep`, `Reflect2.MapCalls.calls_do_partial`, `Reflect2.MapCalls.nil_element_deletes`, `Reflect2.MapIter.iteration_partial`, `Reflect2.MapIter.deleted_returned`, `Reflect2.MapIter.stale_returned`, `Gls.Nested.called_partial`, `Gls.GoId.negative_panics`, `Countlog.Sinks.assigned_first_partial`, `Countlog.Sinks.new_event`, `Countlog.Sinks.first_decides`, `Countlog.Sinks.panic_moves`, `Countlog.Sinks.assigned_late`, `Parse.setBuffer_used`, `Parse.empty_buffer_hangs`, `Countlog.Fanout.all_once_partial`, `Countlog.Fanout.behind_silenced`, `Countlog.Fanout.at_most_twice`, `Countlog.Fanout.twice_once`, `Reflect2.Types.set_same_partial`, `Reflect2.Types.indirect_same_partial`, `Reflect2.Types.safeIndirect_copied`, `Reflect2.Types.set_unchecked`, `Reflect2.Types.set_converts`, `Reflect2.Types.indirect_differ_later`, `CloserArgs.close_kept_partial`, `CloserArgs.close_overwrites`, `CloserArgs.kept_event_changes`, `Msgfmt.Append.formats_as_meant_partial`, `Msgfmt.Append.formats_when_made_partial`, `Msgfmt.Append.appended_twice`, `Msgfmt.Append.careful_partial`

### propext, Classical.choice

`Reflect2.MapCalls.nil_key`

### propext, Classical.choice, Quot.sound

`Parse.chunking_irrelevant_partial`, `Parse.data_with_eof_lost`, `Parse.eof_not_recorded`, `Parse.peekN_pure`, `Parse.peekN_pure_string`, `Parse.peekRune_exact`, `Parse.peekRune_keeps`, `Parse.readUint64_exact`, `Parse.readUint64_overflow_partial`, `Parse.overflow_undetected`, `Parse.readInt64_exact`, `Parse.readInt64_overflow_partial`, `Parse.readInt64_overflow_lost`, `Parse.readInt32_exact`, `Parse.readInt32_overflow_partial`, `Parse.readInt_exact`, `Parse.readInt_overflow_partial`, `Parse.anyExcept1_exact`, `Parse.anyExcept2_exact`, `Parse.skipSpace_exact`, `Parse.unicodeRange_partial`, `Parse.longestRun_unique`, `Parse.skipUnicodeSpace_exact`, `Parse.unicodeRange_hangs`, `Parse.unicodeRanges_one`, `Parse.unicodeRanges_twice`, `Parse.expr_value`, `Parse.expr_string`, `Parse.expr_dangling_panics`, `Parse.consumeN_partial`, `Parse.consumeN_past_end_hangs`, `Parse.first_error_kept`, `Parse.first_error_recorded`, `Parse.readers_stop_on_error`, `Jsonfmt.writeInt8_exact`, `Jsonfmt.writeInt16_exact`, `Jsonfmt.writeInt64_exact`, `Jsonfmt.writeInt32_exact_partial`, `Jsonfmt.writeInt32_wrong`, `Jsonfmt.writeString_roundtrip_partial`, `Jsonfmt.writeString_loses_last`, `Jsonfmt.writeString_roundtrip_false`, `Jsonfmt.writeString_appends`, `Jsonfmt.writeString_contained`, `Jsonfmt.writeBytes_contained`, `Jsonfmt.writeBytes_roundtrip_partial`, `Jsonfmt.writeBytes_drops`, `Jsonfmt.writeBytes_ambiguous`, `Jsonfmt.marshal_parses_partial`, `Jsonfmt.unsupported_field_invalid`, `Jsonfmt.tag_quote_invalid`, `Jsonfmt.struct_fields_exact_partial`, `Jsonfmt.outside_ascii_shown`, `Jsonfmt.round53_ieee`, `Jsonfmt.lossyLval_error`, `Jsonfmt.writeFloatLossy_exact_partial`, `Jsonfmt.lossy_tie_wrong`, `Msgfmt.sprintf_literal_partial`, `Msgfmt.sprintf_template_partial`, `Msgfmt.sprintf_empty_panics`, `Msgfmt.cache_by_position`, `Msgfmt.name_chars`, `Msgfmt.layout_trimmed`, `Msgfmt.wide_space_named`, `Msgfmt.badFunc_first_partial`, `Msgfmt.unterminated_hangs`, `Msgfmt.unterminated_space_panics`, `Msgfmt.missing_panics`, `Msgfmt.badFunc_later_panics`, `Msgfmt.select_panics`, `Msgfmt.dangling_first`, `Msgfmt.cache_transparent_partial`, `Msgfmt.cache_by_type`, `Jsonfmt.msgWriteBytes_roundtrip_partial`, `Jsonfmt.msgWriteBytes_injective_partial`, `Jsonfmt.msgWriteBytes_drops`, `Jsonfmt.msgWriteBytes_ambiguous`, `Countlog.delivered_iff_partial`, `Countlog.entry_iff`, `Countlog.shouldLog_iff`, `Countlog.aggregated_info_not_written`, `Countlog.aggregated_warn_not_written`, `Countlog.call_result_partial`, `Countlog.failed_call_not_written`, `Countlog.message_panics`, `Countlog.no_panic_escapes_partial`, `Countlog.later_events_handled`, `Countlog.panicking_event_written`, `Countlog.never_lost_silently`, `Countlog.handler_creation_panics`, `Stats.conservation`, `Stats.conservation_quiescent`, `Stats.run_ok`, `Stats.All.conservation_all`, `Stats.All.export_collects_all`, `Stats.same_counter_iff_partial`, `Stats.reported_dimension_partial`, `Stats.other_layout_shares_counter`, `Lumberjack.written_within_limit`, `Lumberjack.same_millisecond_loses`, `Lumberjack.failing_stat_loses`, `Lumberjack.cleaned_exactly_partial`, `Lumberjack.at_most_max_partial`, `Lumberjack.one_each`, `Lumberjack.others_untouched`, `Lumberjack.live_untouched`, `Lumberjack.huge_age_removes_all`, `Lumberjack.backup_time_partial`, `Lumberjack.gz_backup_time_partial`, `Lumberjack.backup_names_only`, `Lumberjack.live_not_backup`, `Lumberjack.no_panic`, `Lumberjack.overlap_panics`, `Lumberjack.local_time_shifted`, `Lumberjack.parse_stamp`, `Async.blocking_loses_nothing`, `Async.dropped_only_when_full`, `Async.panic_loses`, `Witch.events_accounted`, `Witch.readers_accounted`, `Witch.dropped_only_full`, `Witch.content_kept_partial`, `Witch.recycled_buffer_overwrites`, `Rotation.size_counted_partial`, `Rotation.size_trigger_never_archives`, `Rotation.purged_exactly_partial`, `Rotation.actual_wait`, `Concurrent.wait_complete`, `Concurrent.wait_blocks`, `Concurrent.wait_returns`, `Concurrent.cancelled_iff`, `Concurrent.wait_polls`, `Concurrent.panics_reported`, `Concurrent.finished_accounted`, `ConcMap.loads_latest`, `ConcMap.no_race`, `Reflect2.appends_partial`, `Reflect2.new_cap_partial`, `Difflib.opcodes_correct`, `Difflib.matching_blocks`, `Difflib.longest_match`, `Difflib.findLongestMatch_sound`, `Difflib.ratios_ordered`, `Difflib.self_ratio`, `Difflib.grouped_opcodes_partial`, `Difflib.grouped_opcodes`, `Difflib.grouped_apply`, `Difflib.queries_agree_partial`, `Difflib.grouped_changes_codes`, `Difflib.grouped_changes_grouped`, `Difflib.new_replies`, `Difflib.unified_diff_partial`, `Difflib.text_diff_partial`, `Difflib.unified_diff_empty`, `Difflib.percent_not_verbatim`, `Difflib.percent_doubled`, `Difflib.diff_headers`, `Difflib.percent_missing`, `Difflib.percent_last`, `Difflib.split_lines`, `JsonEqual.accepts_matching_partial`, `JsonEqual.accepts_same_partial`, `JsonEqual.accepted_matches`, `JsonEqual.should_accepts_partial`, `JsonEqual.null_panics`, `JsonEqual.shorter_panics`, `JsonEqual.array_placeholder`, `JsonEqual.missing_is_anything`, `JsonEqual.models_agree`, `Report.report`, `Report.out_of_range`, `Witch.body_array_partial`, `Witch.body_never_json`, `Spec.parse_sound`, `Jsonfmt.unsupported_top_partial`, `Jsonfmt.error_value_partial`, `Jsonfmt.error_value_invalid`, `Jsonfmt.config_shows_all_partial`, `Jsonfmt.config_lost_below_interface`, `Msgfmt.fprintln_first_partial`, `Msgfmt.fprintln_nothing_to_stdout`, `Msgfmt.fprintln_type_change_panics`, `Countlog.compact_levels_distinct`, `Countlog.compact_level_names`, `Countlog.compact_line_partial`, `Countlog.compact_level_unknown`, `Countlog.json_line_invalid`, `Countlog.json_props_partial`, `Countlog.written_once_partial`, `Countlog.written_twice`, `Countlog.step_inv`, `Countlog.handled_as_other_event`, `Countlog.Together.together_own_handlers_partial`, `Countlog.hrf_line_partial`, `Countlog.values_exchanged`, `Stats.lock_owner_inside_partial`, `Stats.export_complete`, `Reflect2.grows_partial`, `Reflect2.set_element`, `Countlog.context_added_later`, `Countlog.context_not_shown`, `Countlog.context_key_clash`, `Countlog.context_missing_panics`, `Countlog.printf_line_partial`, `Countlog.printf_message_lost`, `Countlog.printf_message_cut`, `Countlog.printf_mark_shown`, `Reflect2.Maps.setIndex_content`, `Reflect2.Maps.run_content`, `Difflib.context_diff_partial`, `Difflib.context_diff_empty`, `Difflib.context_percent`, `Difflib.empty_eol`, `Assert.objects_deep`, `Assert.objects_iff`, `Assert.equal_partial`, `Assert.equal_symm`, `Assert.equal_trans`, `Assert.equalValues_int`, `Assert.equalValues_partial`, `Assert.equalValues_rune`, `Assert.equalValues_runes`, `Assert.contains_list_partial`, `Assert.contains_map_partial`, `Assert.contains_string`, `Assert.contains_string_other`, `Assert.subset_partial`, `Assert.elementsMatch_partial`, `Assert.contains_string_value`, `Assert.reported_partial`, `Assert.subset_reported_partial`, `Assert.subset_silent`, `Assert.message_not_string`, `Assert.empty_len`, `Assert.empty_other`, `Assert.zero_iff`, `Assert.inDelta_partial`, `Assert.inDelta_int`, `Assert.inDelta_symm`, `Assert.inDelta_nan`, `Assert.inDelta_inf`, `Assert.inDelta_large`, `Assert.inDelta_nan_delta`, `Assert.inDelta_uint`, `Assert.inDeltaSlice_partial`, `Assert.inDeltaSlice_longer`, `Assert.inDeltaSlice_shorter`, `Assert.inDeltaMap_iff`, `Assert.inDeltaMap_keys`, `Assert.inEpsilon_partial`, `Assert.inEpsilonSlice_swapped`, `Assert.inEpsilon_nan`, `Assert.inEpsilon_zero`, `Assert.inEpsilonSlice_partial`, `Assert.inEpsilonSlice_nil`, `Assert.inEpsilon_inf`, `Assert.within_partial`, `Assert.panicsWithValue_partial`, `Assert.panicsWithValue_pointer`, `Assert.report_partial`, `Assert.report_cr`, `Check.case_partial`, `Check.plain_goroutine_panics`, `Check.inner_case_loses_t`, `Check.check_partial`, `Check.must_ends_should_goes_on_partial`, `Check.odd_pairs`, `Check.no_pairs_panics`, `Check.panic_partial`, `Check.panic_with_nil`, `Check.must_call_partial`, `Check.should_call_partial`, `Check.should_nil_panics`, `Check.nil_variadic`, `Check.typed_nil_error`, `Check.misfit_panics`, `Spew.sdump_ends_partial`, `Spew.sdump_ends_with_max_depth_partial`, `Spew.pointer_circle_hangs`, `Spew.slice_circle_hangs`, `Spew.map_circle_hangs`, `Spew.sdump_is_picture_partial`, `Spew.shared_pointer_said_shown`, `Spew.nan_key_value_lost`, `Spew.head_is_right`, `Spew.blobText_rows`, `Spew.blobText_inj`, `Spew.line_offset`, `Spew.line_columns`, `Spew.printHexPtr_exact`, `Spew.printHexPtr_nil`, `Spew.printHexPtr_injective`, `Spew.same_dump_same_value_partial`, `Spew.nil_pointers_look_alike`, `Spew.nil_slice_looks_like_nil_pointer`, `Spew.methods_hide_difference`, `Spew.keys_total`, `Spew.keys_one_order_partial`, `Spew.sorted_increases`, `Spew.sdump_deterministic_partial`, `Spew.interface_keys_any_order`, `Reflect2.Safe.safe_is_list`, `Reflect2.Safe.unsafe_is_list_partial`, `Reflect2.Safe.configurations_agree_partial`, `Reflect2.Safe.grow_differs`, `Reflect2.Safe.get_points`, `Assert.Http.status_partial`, `Assert.Http.status_one`, `Assert.Http.status_left_out`, `Assert.Http.body_partial`, `Assert.Http.body_without_request`, `Assert.Http.query_partial`, `Assert.Http.query_twice`, `Assert.Http.query_fragment`, `Spew.format_shows_partial`, `Spew.type_lost`, `Spew.format_ends_partial`, `Spew.format_ends_with_max_depth_partial`, `Spew.format_pointer_circle_hangs`, `Spew.format_slice_circle_hangs`, `Spew.format_det`, `Spew.orig_format_partial`, `Spew.width_zero`, `Spew.digit_verb`, `Spew.concurrent_partial`, `Spew.sequential_partial`, `Spew.shared_mixes`, `Dump.every_bucket_shown_partial`, `Dump.every_bucket_entered_partial`, `Dump.every_bucket_or_slice_partial`, `Dump.map_ends_iff_partial`, `Dump.simple_map_ends_iff_partial`, `Dump.empty_slot_panics`, `Dump.bucket_circle_hangs`, `Stats.counted_iff_partial`, `Stats.call_never_counted`, `Stats.info_call_not_counted`, `Stats.counter_ignored`, `Stats.handlerOf_panics`, `Stats.collector_changes_no_writing_partial`, `Stats.call_written_iff_partial`, `Stats.collector_changes_writing`, `Stats.disabled_counter_hides`, `Lumberjack.quiet_cleaned_partial`, `Lumberjack.quiet_expired_gone_partial`, `Lumberjack.worker_stops`, `Lumberjack.not_stuck`, `Lumberjack.failed_rotation_leaves_expired`, `Lumberjack.late_backup_leaves_expired`, `Countlog.Contexts.properties_exactly_partial`, `Countlog.Contexts.properties_kept_partial`, `Countlog.Contexts.derived_shows_same_partial`, `Countlog.Contexts.add_shows_partial`, `Countlog.Contexts.rewrapped_shows_nothing`, `Countlog.Contexts.added_below_shows_above`, `Countlog.Contexts.added_before_ctx_lost`, `Countlog.Contexts.int_key_hides`, `Countlog.Contexts.concurrent_adds_panic`, `JsonEqual.one_key_partial`, `JsonEqual.collision_accepted`, `JsonEqual.missing_key_panics`, `JsonEqual.any_below_key_fails`, `JsonEqual.order_matters`, `JsonEqual.never_ends`, `JsonEqual.two_keys`, `JsonEqual.order_of_waiting`, `JsonEqual.many_keys_partial`, `JsonEqual.many_orders_partial`, `Wrappers.single_not_formatted`, `Files.link_to_dir`, `Files.dangling`, `Callers.callers_partial`, `Callers.subtest`, `Callers.helper_cuts`, `Callers.user_package_hidden`, `JsonEq.jsonEq_same`, `JsonEq.jsonEq_partial`, `JsonEq.invalid_fails`, `JsonEq.rounded_passes`, `JsonEq.too_large_fails`, `Simple.bytes_not_text`, `NameByIndex.listed_iff`, `NameByIndex.indexed_listed_partial`, `NameByIndex.no_verb`, `NameByIndex.two_verbs`, `NameByIndex.longer_listed`, `NameByIndex.zeros_listed`, `NameByIndex.digit_suffix`, `NameByIndex.percent_listed`, `LogPanic.nil_silent`, `LogPanic.logged_partial`, `LogPanic.unchanged_partial`, `LogPanic.own_panic_partial`, `LogPanic.overwrites`, `LogPanic.wrong_panic`, `LogPanic.only_behind`, `Reflect2.TypeByName.found_linked`, `Reflect2.TypeByName.by_name_partial`, `Reflect2.TypeByName.unknown_panics`, `Reflect2.TypeByName.shadowed`, `Reflect2.TypeByName.others_panic`, `Reflect2.TypeByName.old_versions`, `HomePage.start_page`, `HomePage.missing_file`, `HomePage.homepage_partial`, `HomePage.start_page_unused`, `HomePage.error_sent`, `HomePage.not_replaced_again`, `HomePage.files_webroot`, `Countlog.Timers.text_shows`, `Countlog.Timers.shown_partial`, `Countlog.Timers.failed_call`, `Countlog.Timers.lowered`, `Spew.reuse_partial`, `Spew.shown_at_once`, `Spew.type_lost_again`, `Spew.printf_partial`, `Spew.std_filled`, `Spew.printf_same`, `Spew.own_type`, `Spew.star_width`, `Spew.extra_shown`, `Spew.star_prec`, `Spew.extras_shown`, `Spew.sprint_blanks`, `Spew.sprintln_blanks`, `Spew.dump_each`, `Spew.Bypass.bypass_partial`, `Stats.KeyMemory.keys_outlive`, `Msgfmt.PrintPool.own_text`, `Msgfmt.PrintPool.kept_changes`, `Reflect2.Layout.program`, `Reflect2.Layout.path_place`, `Reflect2.Layout.path_aligned`, `Reflect2.Layout.path_bytes`, `Reflect2.Layout.path_inside`, `Reflect2.Layout.path_checked`, `Lumberjack.Compress.kept_partial`, `Lumberjack.Compress.caught_up_partial`, `Lumberjack.Compress.nothing_left_partial`, `Lumberjack.Compress.two_loggers_lose`, `Lumberjack.Compress.chown_leaves_empty`, `Lumberjack.Compress.kill_leaves_part`, `AsyncFile.in_the_files_partial`, `AsyncFile.despite_failures_partial`, `AsyncFile.full_disk_loses`, `AsyncFile.long_message_loses`, `Spew.indexed_partial`, `Spew.indexed_once`, `Spew.std_picked`, `Spew.picked_twice`, `Spew.picked_type`, `Spew.picked_width`, `Parse.Buffers.alone_partial`, `Parse.Buffers.peeked_stays`, `Parse.Buffers.neighbours_disturbed`, `Parse.Buffers.behind_written`, `Jsonfmt.Mem.memory_read_partial`, `Jsonfmt.Mem.memory_safe_partial`, `Jsonfmt.Mem.pointer_key_misread`, `Jsonfmt.Mem.nil_key_panics`, `Jsonfmt.Mem.nil_error_panics`, `Jsonfmt.Mem.cycle_never_ends`, `Jsonfmt.Cache.extension_decides_partial`, `Jsonfmt.Cache.asked_with_path_partial`, `Jsonfmt.Cache.extension_lost_below_interface`, `Jsonfmt.Cache.extension_not_for_fields`, `Jsonfmt.Cache.field_path_lost`, `Jsonfmt.Cache.history_free_partial`, `Jsonfmt.Cache.caches_transparent_partial`, `Jsonfmt.Cache.chan_key_remembers`, `Jsonfmt.Cache.path_extension_remembers`, `Countlog.JsonLine.event_shown_partial`, `Countlog.JsonLine.names_of_sample`, `Countlog.JsonLine.type_confused`, `Countlog.JsonLine.fewer_panics`, `Countlog.JsonLine.more_left_out`, `Countlog.JsonLine.nil_panics`, `Stats.Points.points_partial`, `Output.Drops.viewer_reported`, `Output.Drops.async_reported_partial`, `Output.Drops.silent`, `Output.Drops.same_number`, `Output.Drops.viewer_order`, `Gls.GoId.goid_partial`, `Gls.GoId.another_runtime`, `Gls.GoId.no_g`, `Gls.GoId.no_goid`, `Gls.GoId.by_id_partial`, `Assert.Diff.diff_explains_partial`, `Assert.Diff.difference_shown_partial`, `Assert.Diff.no_diff`, `Assert.Diff.message_ends`, `Assert.Diff.percent_garbled`, `Assert.Diff.nothing_shown`, `Assert.Diff.circular_never_ends`, `Jsonfmt.Cache.together_partial`, `Jsonfmt.Cache.together_ends`, `Jsonfmt.Cache.together_transparent_partial`, `Jsonfmt.Cache.alone_marshal`, `Jsonfmt.Cache.chan_key_race`, `Countlog.Together.together_no_panic_partial`, `Countlog.Together.together_never_lost`, `Countlog.Together.together_delivered_partial`, `Countlog.Together.together_once_partial`, `Countlog.Together.together_result`, `Countlog.Together.together_ends`, `Countlog.Together.alone_calls`, `Countlog.Together.counted_apart`, `Msgfmt.Together.together_partial`, `Msgfmt.Together.together_after_one`, `Msgfmt.Together.together_ends`, `Msgfmt.Together.alone_calls`, `Msgfmt.Together.order_decides`, `Countlog.LevelRace.together_partial`, `Countlog.LevelRace.undisturbed`, `Countlog.LevelRace.important_kept`, `Countlog.LevelRace.all_decided`, `Countlog.LevelRace.mixed_forever`, `Countlog.Places.one_place_partial`, `Countlog.Places.first_place`, `Countlog.Places.second_place_wrong`, `Countlog.Places.logPanic_wrong`, `Countlog.Places.right_after_panic`, `Countlog.Places.func_stale`, `Parse.setBuffer_irrelevant_partial`, `Parse.Buffers.old_bytes_stay`, `Parse.Buffers.old_bytes_lost`, `Countlog.Chain.steps_told_partial`, `Countlog.Chain.logged_below`, `Countlog.Chain.success_nil`, `Countlog.Chain.not_the_cause`, `Countlog.Chain.same_text`, `Msgfmt.Custom.custom_printed_partial`, `Msgfmt.Custom.initial_output`, `Msgfmt.Custom.complaint_shown`, `Msgfmt.Custom.complaint_panics`, `Msgfmt.Custom.registered_late`, `Msgfmt.Custom.name_space`, `Msgfmt.Custom.args_space`, `Msgfmt.Custom.reserved_panics`, `Parse.nothing_consumed_partial`, `Parse.no_error`, `Parse.sign_swallowed`, `Parse.second_read_panics`, `Reflect2.Types.indirect_unchecked`, `CloserArgs.caller_kept_partial`, `CloserArgs.closeAll_array`, `Msgfmt.Append.no_room_partial`
