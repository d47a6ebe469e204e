{"id": "C01", "title": "Streamed parsing does not depend on how the reader chunks the input", "statement": "For a source created over an io.Reader, every sequence of peek / consume / read operations yields the same bytes and the same values as the same sequence run over a source holding the whole input as one string, however the reader splits the input into reads and whatever the buffer size is.", "quantifier": "every byte string, every way of cutting it into non-empty reads, every buffer length, every sequence of operations that stays inside the input", "why_tests_cant": "A test fixes one reader and one buffer size; the bug is always at a chunk boundary nobody tried.", "anchors": ["parse/parse.go: NewSource, NewSourceString, Source.PeekN, Source.ConsumeN, Source.Consume, Source.Peek"]}
{"id": "C02", "title": "Look-ahead never consumes or loses input", "statement": "PeekN(n) returns exactly the next n bytes of the input (or all that is left together with an error when fewer remain), and whatever was peeked is still there to be consumed afterwards, in order, once.", "quantifier": "every source state reachable by any mix of peeks and consumes, every n", "why_tests_cant": "Depends on the interplay of buffered look-ahead chunks and earlier consumption, which forms an unbounded set of histories.", "anchors": ["parse/parse.go: Source.PeekN, Source.Consume, Source.ConsumeN"]}
{"id": "C03", "title": "PeekRune decodes UTF-8 across chunk boundaries", "statement": "PeekRune returns the code point and byte length that UTF-8 decoding of the remaining input gives, also when the encoded rune straddles two or more chunks; invalid or truncated sequences give the replacement character with length 1.", "quantifier": "every remaining input, every chunking", "why_tests_cant": "There are over a million code points times all split positions plus all malformed sequences.", "anchors": ["parse/parse.go: Source.PeekRune", "parse/utf8.go: first"]}
{"id": "C04", "title": "Unsigned integer reader returns the exact value for in-range numbers", "statement": "read.Uint64 on a run of decimal digits whose value fits in 64 bits returns exactly that value and leaves the source positioned just after the last digit, for every chunking.", "quantifier": "every digit run with value below 2^64 followed by any bytes, any chunking, any number of leading zeros", "why_tests_cant": "The input space is unbounded (leading zeros, chunkings) and the arithmetic is modular.", "anchors": ["parse/read/int.go: Uint64", "parse/parse.go: Source.ConsumeN"]}
{"id": "C05", "title": "Unsigned integer reader reports overflow", "statement": "read.Uint64 on a run of decimal digits whose value is 2^64 or more reports an error instead of returning a wrong number.", "quantifier": "every digit run with value at least 2^64", "why_tests_cant": "Wrap-around detection fails only on sparse input regions that example tests miss.", "anchors": ["parse/read/int.go: Uint64, uint64SafeToMultiple10"]}
{"id": "C06", "title": "Signed integer readers are exact and range checked", "statement": "read.Int64 and read.Int32 return the exact signed value of an optional minus sign followed by digits when it is in range (including the most negative value) and report an overflow error when it is outside the type's range but inside the unsigned 64-bit range.", "quantifier": "every optional sign and digit run with magnitude below 2^64", "why_tests_cant": "Needs every value around both range ends and every chunking.", "anchors": ["parse/read/int.go: Int, Int32, Int64"]}
{"id": "C07", "title": "Byte-class readers take the longest run and nothing more", "statement": "read.AnyExcept1/AnyExcept2 return the longest prefix without the delimiter byte(s), skip.Space returns the length of the longest ASCII white-space prefix, and in each case the source is left exactly at the first byte not taken (or at end of input with EOF recorded).", "quantifier": "every input, delimiter, chunking and initial destination slice", "why_tests_cant": "Quantifies over all inputs and all chunk boundaries.", "anchors": ["parse/read/any.go: AnyExcept1, AnyExcept2", "parse/skip/space.go: Space"]}
{"id": "C08", "title": "Unicode class readers take the longest run and nothing more", "statement": "read.UnicodeRange/UnicodeRanges and skip.UnicodeRange/UnicodeRanges/UnicodeSpace take the longest prefix of runes that belong to the class (any include, no exclude) and stop at the first rune outside it.", "quantifier": "every input and every set of include and exclude tables", "why_tests_cant": "The set of inputs and tables is infinite; the loop structure decides the result for all of them.", "anchors": ["parse/read/range.go: UnicodeRange, UnicodeRanges", "parse/skip/range.go: UnicodeRange, UnicodeRanges", "parse/skip/space.go: UnicodeSpace"]}
{"id": "C09", "title": "Operator precedence parser computes the conventional value", "statement": "Parsing an arithmetic expression made of non-negative integers, +, - and * with the sample lexer evaluates it with * binding tighter than + and -, and equal precedence grouped to the left.", "quantifier": "every expression of any length over these operators", "why_tests_cant": "Expressions are unbounded; grouping errors only show for specific operator sequences.", "anchors": ["parse/parse.go: Parse, String", "parse/example/expr/parse_test.go: exprLexer, plusToken, minusToken, multiplyToken"]}
{"id": "C10", "title": "Consuming past the end of input terminates and reports EOF", "statement": "A consume call that asks for more bytes than remain returns, leaves the source empty and records io.EOF.", "quantifier": "every source and every n larger than the remaining input", "why_tests_cant": "Non-termination cannot be confirmed by a finite test run.", "anchors": ["parse/parse.go: Source.ConsumeN, Source.Consume"]}
{"id": "C11", "title": "The first reported error is the one the user sees", "statement": "Once an error has been reported on a source, every later operation leaves Error() returning that same first error, whatever is called afterwards.", "quantifier": "every sequence of operations", "why_tests_cant": "Quantifies over all histories.", "anchors": ["parse/parse.go: Source.ReportError, Source.Error, Source.Consume1"]}
{"id": "C12", "title": "8, 16 and 64 bit integers are printed exactly", "statement": "The JSON writers for (u)int8, (u)int16, (u)int64, (u)int and uintptr append exactly the canonical decimal text of the value (a minus sign only for negatives, no leading zeros), including the most negative values.", "quantifier": "every value of each type and every prior buffer content", "why_tests_cant": "2^64 values; digit-group boundaries cannot be sampled exhaustively.", "anchors": ["msgfmt/jsonfmt/encoder_int.go: WriteUint8, WriteInt8, WriteUint16, WriteInt16, WriteUint64, WriteInt64, writeFirstBuf, writeBuf"]}
{"id": "C13", "title": "32 bit integers are printed exactly", "statement": "The JSON writers for int32 and uint32 append exactly the canonical decimal text of the value.", "quantifier": "every 32 bit value", "why_tests_cant": "The failing region (values of ten digits) is not in the test suite; only a statement over all values settles it.", "anchors": ["msgfmt/jsonfmt/encoder_int.go: WriteUint32, WriteInt32"]}
{"id": "C14", "title": "JSON strings decode back to the original bytes", "statement": "Decoding the JSON string token produced for a Go string gives back exactly the original bytes.", "quantifier": "every byte string", "why_tests_cant": "Every position of every byte value in strings of every length matters.", "anchors": ["msgfmt/jsonfmt/encoder_str.go: WriteString, writeStringSlowPath"]}
{"id": "C15", "title": "JSON strings cannot break out of their quotes", "statement": "The text produced for a string starts and ends with a quote and contains in between no raw quote, no raw control byte and only valid escape sequences, so that no string value can inject structure into the surrounding JSON.", "quantifier": "every byte string", "why_tests_cant": "A security property over all inputs.", "anchors": ["msgfmt/jsonfmt/encoder_str.go: WriteString, writeStringSlowPath", "msgfmt/jsonfmt/encoder_bytes.go: WriteBytes"]}
{"id": "C16", "title": "JSON byte slices decode back to the original bytes", "statement": "The JSON text produced for a []byte identifies the original bytes: reading the escapes back (with \\\\xNN standing for raw byte NN) gives the original content.", "quantifier": "every byte slice", "why_tests_cant": "Every combination of printable, escaped and high bytes at every position matters.", "anchors": ["msgfmt/jsonfmt/encoder_bytes.go: WriteBytes, writeBytesSlowPath"]}
{"id": "C17", "title": "Nested values are encoded as well-formed JSON", "statement": "Encoding any value built from booleans, integers, strings, nil and non-nil pointers, slices, arrays, maps with string or integer keys and structs gives JSON text which a JSON parser accepts and maps back to the same value tree.", "quantifier": "every value of any nesting depth and width", "why_tests_cant": "Value trees are unbounded in depth and width.", "anchors": ["msgfmt/jsonfmt/encoder.go: EncoderOf", "msgfmt/jsonfmt/encoder_slice.go", "msgfmt/jsonfmt/encoder_array.go", "msgfmt/jsonfmt/encoder_map.go", "msgfmt/jsonfmt/encoder_stuct.go", "msgfmt/jsonfmt/encoder_pointer.go", "msgfmt/jsonfmt/encoder_bool.go"]}
{"id": "C18", "title": "Struct encoding emits exactly the fields that should be visible", "statement": "Exactly the exported, non-func, non-chan fields not tagged \"-\" appear, in declaration order, each under its json tag name when there is one and its Go name otherwise.", "quantifier": "every struct type description", "why_tests_cant": "There are infinitely many struct types and tags.", "anchors": ["msgfmt/jsonfmt/encoder.go: getFieldName, encoderOfStruct", "msgfmt/jsonfmt/encoder_stuct.go: structEncoder.Encode"]}
{"id": "C19", "title": "Floats are printed to six decimals without distortion", "statement": "For a value inside the lossy range the printed text denotes exactly the value rounded to six decimals, with no trailing zeros in the fraction and no digits lost to padding.", "quantifier": "every rounded magnitude (value times 10^6) and sign in the supported range", "why_tests_cant": "Zero padding of the fraction and trimming interact in a way that only shows on particular digit patterns.", "anchors": ["msgfmt/jsonfmt/encoder_float.go: WriteFloat64Lossy, WriteFloat32Lossy"]}
{"id": "C20", "title": "Literal text in a message format is copied verbatim", "statement": "A format without braces, and the text between placeholders, appears unchanged in the output.", "quantifier": "every format string and every argument list", "why_tests_cant": "Format strings are unbounded.", "anchors": ["msgfmt/parse.go", "msgfmt/formatter.go: compile, merge, parseLiteral", "msgfmt/formatter_fixed.go"]}
{"id": "C21", "title": "Placeholders are replaced by the argument with that name", "statement": "Each {name} placeholder is replaced by the formatted value of the argument whose key is name, placeholders being resolved by name and not by position, with parts output left to right.", "quantifier": "every well-formed format and every list of key/value arguments containing the names", "why_tests_cant": "Any number of placeholders and arguments in any order.", "anchors": ["msgfmt/formatter.go: parseVariable, findValueIndex, compile, merge", "msgfmt/msgfmt.go: Sprintf, FormatterOf"]}
{"id": "C22", "title": "Malformed formats are reported, never crash or hang", "statement": "For any format string and arguments, formatting returns; a malformed format or unknown variable yields an error marker in the output rather than a panic or an endless loop.", "quantifier": "every format string, every argument list", "why_tests_cant": "Termination and panic freedom quantify over all inputs.", "anchors": ["msgfmt/parse.go", "msgfmt/formatter.go: compile, parseVariable, parseFunc, merge"]}
{"id": "C23", "title": "Formatter caching is transparent", "statement": "Formatting the same format and arguments always gives the same output regardless of which formats and argument types were used before in the process.", "quantifier": "every history of formatting calls", "why_tests_cant": "The cache makes results depend on unbounded call history.", "anchors": ["msgfmt/msgfmt.go: FormatterOf, Sprintf, Fprintf"]}
{"id": "C24", "title": "Printing bytes in a message is unambiguous", "statement": "The text a message format prints for a []byte argument determines the bytes.", "quantifier": "every byte slice", "why_tests_cant": "All byte positions and values matter.", "anchors": ["msgfmt/formatter_bytes.go"]}
{"id": "C25", "title": "The minimum level filters exactly the lower levels", "statement": "After SetMinLevel(level), a Trace/Debug/Info event is delivered exactly when its level is at least the minimum; Warn, Error and Fatal events are always delivered.", "quantifier": "every level value set, every kind of event, every sequence of SetMinLevel and log calls", "why_tests_cant": "Quantifies over all histories of level changes and calls.", "anchors": ["countlog/countlog.go: SetMinLevel, Trace, Debug, Info, Warn, Error, Fatal", "countlog/spi/spi.go"]}
{"id": "C26", "title": "Wrapped calls propagate success and failure", "statement": "TraceCall/DebugCall/InfoCall/LogAccess return nil exactly when the given error is nil; a failure is always delivered at a level of at least Warn however the minimum level is set, and the returned error ends with the original message.", "quantifier": "every error, level setting and message", "why_tests_cant": "All settings and messages.", "anchors": ["countlog/countlog.go: TraceCall, DebugCall, InfoCall", "countlog/context.go: LogAccess, TraceCall, DebugCall, InfoCall"]}
{"id": "C27", "title": "A panicking log handler cannot crash or silence the program", "statement": "A panic raised while formatting or writing an event never reaches the caller of the log function, and later events logged from the same place are still handled (through the fallback that re-selects the handler).", "quantifier": "every sequence of events and every pattern of panics in handlers", "why_tests_cant": "All schedules of failures.", "anchors": ["countlog/root.go: newRootHandler, nomalModeOnPanic, fallbackModeOnPanic, redirector"]}
{"id": "C28", "title": "No counted event is lost or counted twice", "statement": "Over any interleaving of counting goroutines and exports, for each dimension the sum of the exported counts plus what is still pending equals the number of events handled.", "quantifier": "every interleaving of increments (from any goroutine ids) and exports", "why_tests_cant": "Interleavings are unbounded and racy losses are probabilistic in tests.", "anchors": ["countlog/stats/window.go: Window, Export", "countlog/stats/counter.go: countEvent.Handle", "countlog/stats/state.go: CounterMonoid, MapMonoid"]}
{"id": "C29", "title": "Counters are keyed by exactly the declared dimensions", "statement": "Two events are added to the same counter exactly when they agree on the values of all properties named in the dim list; the reported dimension lists those key/value pairs.", "quantifier": "every property list, every dim list", "why_tests_cant": "All property layouts, including the specialised 1/2/4 pair extractors.", "anchors": ["countlog/stats/window.go: newDimensionExtractor, extractDimension, copyDimension"]}
{"id": "C30", "title": "Statistics keep being exported every interval", "statement": "A running stats window exports its counters again and again, once per interval, until stopped.", "quantifier": "every number of elapsed intervals", "why_tests_cant": "A liveness property over unbounded time.", "anchors": ["countlog/stats/window.go: exportEverySecond"]}
{"id": "C31", "title": "A rotated log file never exceeds its size limit", "statement": "With a size limit of M bytes, after any sequence of writes and rotations the live log file holds at most M bytes, provided a pre-existing file did not already exceed it; writes larger than M are rejected without changing any file.", "quantifier": "every sequence of Write/Rotate/Close calls and reopenings, every limit and message size", "why_tests_cant": "Unbounded histories.", "anchors": ["countlog/output/lumberjack/lumberjack.go: Write, openExistingOrNew, openNew, rotate, max"]}
{"id": "C32", "title": "Log rotation loses no bytes and keeps their order", "statement": "The contents of the backups in order followed by the live file equal the initial content followed by all successfully written messages, in order, as long as retention has removed nothing.", "quantifier": "every sequence of writes, rotations, closes and reopenings and every clock behaviour", "why_tests_cant": "Depends on clock collisions between rotations.", "anchors": ["countlog/output/lumberjack/lumberjack.go: Write, openNew, backupName, rotate"]}
{"id": "C33", "title": "Retention removes exactly the expired backups", "statement": "After cleaning, at most MaxBackups newest backups and none older than MaxAge days remain, no backup satisfying both limits is deleted and the live file is never deleted; with compression enabled every surviving uncompressed backup is compressed; a .gz and its original count once.", "quantifier": "every set of files in the directory and every setting", "why_tests_cant": "All directory contents and combinations of limits.", "anchors": ["countlog/output/lumberjack/lumberjack.go: millRunOnce, oldLogFiles, timeFromName"]}
{"id": "C34", "title": "A backup name is recognised and dated back to its rotation time", "statement": "The name generated for a backup parses back to the same time (to the millisecond), and a name not generated with the log's own prefix and extension is never treated as a backup.", "quantifier": "every file name, prefix, extension and time stamp text", "why_tests_cant": "All names.", "anchors": ["countlog/output/lumberjack/lumberjack.go: backupName, timeFromName, prefixAndExt"]}
{"id": "C35", "title": "The asynchronous writer delivers in order without corruption or duplication", "statement": "The downstream writer receives a subsequence of the submitted messages in submission order with unmodified content even if the caller reuses its buffer; with a blocking queue no submitted message is skipped, with a non-blocking queue every message is either delivered, pending or reported dropped.", "quantifier": "every interleaving of submissions, buffer reuse and background writes, every queue length", "why_tests_cant": "Schedules are unbounded.", "anchors": ["countlog/output/async/async.go: blockingQueueWriter, nonBlockingQueueWriter, asyncWrite, Write"]}
{"id": "C36", "title": "Closing the asynchronous writer flushes what was accepted", "statement": "When Close returns, every message accepted before Close has been written, unless the one second drain limit expired.", "quantifier": "every schedule of the background writer relative to Close", "why_tests_cant": "The race between cancellation and the queue is schedule dependent.", "anchors": ["countlog/output/async/async.go: Close, asyncWrite", "concurrent/unbounded_executor.go: StopAndWaitForever"]}
{"id": "C37", "title": "The event queue of the web viewer accounts for every event", "statement": "Each event written to the viewer queue is either handed to exactly one reader in order, still queued, or counted as dropped; writing never blocks.", "quantifier": "every interleaving of writers and readers", "why_tests_cant": "Schedules are unbounded.", "anchors": ["witch/logger.go: eventQueue.Write, consume, moreEvents"]}
{"id": "C38", "title": "A queued event keeps the content it was logged with", "statement": "The bytes a reader of the event queue sees are the bytes that were formatted for that event.", "quantifier": "every interleaving of logging and reading", "why_tests_cant": "Only shows when a pooled buffer is reused between logging and reading.", "anchors": ["countlog/output/writer.go: writeEvent, recylceWriter", "witch/logger.go: eventQueue.Write"]}
{"id": "C39", "title": "The rotating writer never loses a write", "statement": "Everything written through the rotation writer is in the archives or the live file, in order, wherever the background rotation takes place relative to the writes, as long as archive names are distinct and nothing was purged.", "quantifier": "every interleaving of Write with the background rotation", "why_tests_cant": "The status hand-over between two goroutines is schedule dependent.", "anchors": ["countlog/output/rotation/rotation.go: Write, rotateInBackground, reopen", "countlog/output/rotation/archive_by_move.go: Archive"]}
{"id": "C40", "title": "Reaching the size trigger leads to a rotation", "statement": "Once the configured size is reached the live file is eventually archived, and size accounting starts over for the new file.", "quantifier": "every sequence of writes", "why_tests_cant": "Liveness over all histories.", "anchors": ["countlog/output/rotation/rotation.go: Write, rotateInBackground", "countlog/output/rotation/trigger_by_size.go: UpdateStat"]}
{"id": "C41", "title": "Archive retention keeps exactly the newest archives", "statement": "RetainByCount selects for purge exactly the oldest archives beyond the limit, so that after purging at most the limit remain and all of them are newer than any purged one; fewer archives than the limit purge nothing.", "quantifier": "every archive list and every limit", "why_tests_cant": "All lists.", "anchors": ["countlog/output/rotation/retain_by_count.go: PurgeSet", "countlog/output/rotation/name_by_time.go: ListFiles", "countlog/output/rotation/purge_by_delete.go: Purge"]}
{"id": "C42", "title": "Interval trigger always waits a positive time up to one interval", "statement": "TriggerByInterval.TimeToTrigger lies strictly above zero and at most one interval, and ends at a multiple of the interval.", "quantifier": "every clock reading and every positive interval", "why_tests_cant": "All times.", "anchors": ["countlog/output/rotation/trigger_by_interval.go: TimeToTrigger"]}
{"id": "C43", "title": "StopAndWait returns only when all goroutines have finished", "statement": "When StopAndWaitForever returns, every goroutine started with Go on that executor before has finished (returned or panicked), and if none finishes it does not return.", "quantifier": "every interleaving of starts, finishes, panics and polls", "why_tests_cant": "Schedules are unbounded.", "anchors": ["concurrent/unbounded_executor.go: Go, StopAndWait, checkGoroutines"]}
{"id": "C44", "title": "A panic in one goroutine does not affect the executor", "statement": "A panicking task is recovered, reported unless it is the stop signal, and is accounted for as finished like a normal return.", "quantifier": "every task outcome in every interleaving", "why_tests_cant": "All schedules and outcomes.", "anchors": ["concurrent/unbounded_executor.go: Go, LogPanic"]}
{"id": "C45", "title": "Goroutine-local storage is isolated per goroutine", "statement": "Get on a goroutine returns the value of the last Set on that same goroutine since its storage was last reset, unaffected by operations of other goroutines, including those that share a shard.", "quantifier": "every interleaving of operations by any number of goroutines with arbitrary ids", "why_tests_cant": "Shard collisions depend on goroutine ids which tests do not control.", "anchors": ["gls/gls.go: ResetGls, DeleteGls, GetGls, Get, Set, IsGlsEnabled"]}
{"id": "C46", "title": "A child goroutine inherits a copy of its parent's storage", "statement": "A function wrapped with WithGls starts with the parent's values as of the time of wrapping; what the child sets is invisible to the parent and what the parent sets later is invisible to the child; after the child ends its storage is gone.", "quantifier": "every parent content, every later operations of parent and children, every number of runs of the wrapped function", "why_tests_cant": "All histories; sharing of the captured map is only visible with repeated runs.", "anchors": ["gls/gls.go: WithGls, WithEmptyGls"]}
{"id": "C47", "title": "Concurrent map behaves like a map", "statement": "Load and Store on the lock based map give the results a sequential map gives for the order in which the operations take effect: Load returns the value of the latest Store for that key, or not found.", "quantifier": "every operation sequence", "why_tests_cant": "All histories.", "anchors": ["concurrent/go_below_19.go: Map"]}
{"id": "C48", "title": "Closing several resources attempts every one and reports every failure", "statement": "CloseAll calls Close once on each resource in order whatever fails, returns nil exactly when all succeed, otherwise an error carrying exactly the failures in order.", "quantifier": "every list of resources and outcomes", "why_tests_cant": "All lists and failure patterns.", "anchors": ["closer.go: CloseAll, MergeErrors, Close, MultiError"]}
{"id": "C49", "title": "Reflective append behaves like append", "statement": "Appending through the unsafe slice type leaves the slice header denoting the old elements followed by the new one, never writes outside the allocated capacity and does not disturb other slices sharing the array except as Go's append does.", "quantifier": "every slice header, array content and appended element", "why_tests_cant": "All lengths and capacities.", "anchors": ["reflect2/unsafe_slice.go: UnsafeAppend, UnsafeGrow, calcNewCap"]}
{"id": "C50", "title": "Growth reaches the requested capacity in amortised steps", "statement": "The new capacity computed for a growth request is at least the expected length, never smaller than the old capacity, and the computation terminates.", "quantifier": "every old capacity and expected length (from zero up)", "why_tests_cant": "All pairs of sizes; termination.", "anchors": ["reflect2/unsafe_slice.go: calcNewCap"]}
{"id": "C51", "title": "Diff opcodes turn the first sequence into the second", "statement": "Applying the opcodes to the first sequence (keeping equal ranges, deleting, inserting and replacing from the second) gives the second sequence; the opcode ranges tile both sequences without gaps or overlaps, equal ranges really are equal, and adjacent opcodes are not both equal.", "quantifier": "every pair of sequences, every junk predicate", "why_tests_cant": "All pairs of sequences.", "anchors": ["test/go-difflib/difflib/difflib.go: GetOpCodes, GetMatchingBlocks, findLongestMatch"]}
{"id": "C52", "title": "Matching blocks are ordered, disjoint, maximal-joined and end with the sentinel", "statement": "Blocks are strictly increasing in both sequences, elements in a block are pairwise equal, no two consecutive blocks are adjacent in both sequences, and the last block is (len a, len b, 0).", "quantifier": "every pair of sequences", "why_tests_cant": "All pairs of sequences.", "anchors": ["test/go-difflib/difflib/difflib.go: GetMatchingBlocks, matchBlocks"]}
{"id": "C53", "title": "The longest match is really longest", "statement": "Without junk or popularity pruning, the match found in a window is a real common block within the window, no longer common block exists there, and among the longest it starts earliest in a and then earliest in b.", "quantifier": "every pair of sequences and window", "why_tests_cant": "All pairs and windows.", "anchors": ["test/go-difflib/difflib/difflib.go: findLongestMatch"]}
{"id": "C54", "title": "Similarity ratios are bounded and ordered", "statement": "0 <= Ratio <= QuickRatio <= RealQuickRatio <= 1, and the ratio of a sequence with itself is 1.", "quantifier": "every pair of sequences", "why_tests_cant": "All pairs.", "anchors": ["test/go-difflib/difflib/difflib.go: Ratio, QuickRatio, RealQuickRatio, calculateRatio"]}
{"id": "C55", "title": "Grouped opcodes keep all changes with at most n lines of context", "statement": "The groups contain every change opcode exactly once, in order, with at most n equal elements of context on each side of a change, and groups are separated by the elided equal stretches.", "quantifier": "every pair of sequences and every n", "why_tests_cant": "All pairs and context sizes.", "anchors": ["test/go-difflib/difflib/difflib.go: GetGroupedOpCodes"]}
{"id": "C56", "title": "Repeated diff queries give the same answer", "statement": "Calling the matcher's query methods in any order and any number of times gives the same opcodes, blocks and ratios each time.", "quantifier": "every sequence of queries on one matcher", "why_tests_cant": "Histories; in-place mutation of cached results.", "anchors": ["test/go-difflib/difflib/difflib.go: GetGroupedOpCodes, GetOpCodes"]}
{"id": "C57", "title": "A unified diff carries the lines verbatim and its headers count them", "statement": "Each hunk lists the kept, removed and added lines with the right prefix and unchanged text, and the range header states the start and number of lines of each side.", "quantifier": "every pair of line lists, every context size", "why_tests_cant": "All line contents, including format verbs.", "anchors": ["test/go-difflib/difflib/difflib.go: WriteUnifiedDiff, formatRangeUnified"]}
{"id": "C58", "title": "SplitLines loses nothing", "statement": "Joining the lines gives the text back plus one line feed, and every line ends with a line feed that is its only one.", "quantifier": "every text", "why_tests_cant": "All texts.", "anchors": ["test/go-difflib/difflib/difflib.go: SplitLines"]}
{"id": "C59", "title": "Template JSON comparison accepts exactly the matching documents", "statement": "JsonEqual without placeholders accepts exactly equal documents; {ANYTHING} accepts any value for that key; a named placeholder accepts iff all its occurrences stand for equal values.", "quantifier": "every pair of JSON documents", "why_tests_cant": "All documents; map iteration order.", "anchors": ["test/must/json.go: substituteVars, variables.sub, variables.bind", "test/should/json.go: maskAnything"]}
{"id": "C60", "title": "Failure report shows the whole failed statement", "statement": "The extracted report starts at the failing line and extends exactly to the first line where the parentheses opened since are balanced (or the end of the file), lines trimmed; out-of-range lines give the generic text.", "quantifier": "every file content and line number", "why_tests_cant": "All files.", "anchors": ["test/report.go: ExtractFailedLines"]}
{"id": "C61", "title": "Property maps and pointers in a memory dump are complete", "statement": "Every reference emitted in a dump has an entry in the dump's table and dumping terminates on cyclic data.", "quantifier": "every object graph, including cyclic ones", "why_tests_cant": "All graphs.", "anchors": ["dump/dumpvar.go: Var.String, dumpExtension.EncoderOf", "dump/eface.go: efaceEncoder.Encode", "dump/pointer.go: pointerEncoder.Encode", "dump/slice.go: sliceEncoder.Encode", "dump/str.go: stringEncoder.Encode"]}
{"id": "C62", "title": "The viewer endpoint returns one well-formed JSON array", "statement": "The response body of the more-events endpoint is one JSON array whose elements are the queued events in order, provided every queued event is a JSON value.", "quantifier": "every number and content of queued events", "why_tests_cant": "All batch sizes, including the empty batch.", "anchors": ["witch/logger.go: moreEvents, consume"]}
{"id": "C63", "title": "A value of an unsupported type still yields valid JSON", "statement": "Marshalling any value that contains a part of a type the JSON formatter cannot encode (complex numbers, unsafe pointers, functions as elements) still yields one valid JSON document, with a string in the place of that part.", "quantifier": "all types containing an unsupported part at any position", "why_tests_cant": "The set of types and positions is unbounded; tests usually only use supported types.", "anchors": ["msgfmt/jsonfmt/encoder.go: encoderOf, unsupportedEncoder, encoderOfStruct"]}
{"id": "C64", "title": "Error values are encoded as JSON strings of their message", "statement": "Marshalling an error value yields a JSON string whose decoded content is exactly Error().", "quantifier": "all error messages", "why_tests_cant": "Error messages are arbitrary text; a few sample messages never contain the bytes that need escaping.", "anchors": ["msgfmt/jsonfmt/encoder_error.go: errorEncoder.Encode"]}
{"id": "C65", "title": "An encoder can be built for every type", "statement": "EncoderOf returns for every Go type, including types that refer to themselves through pointers, slices or maps (linked lists, trees).", "quantifier": "all type graphs", "why_tests_cant": "Non-termination cannot be observed by a finite test, and the set of type graphs is infinite.", "anchors": ["msgfmt/jsonfmt/encoder.go: EncoderOf, encoderOf, encoderOfStruct, encoderOfMap"]}
{"id": "C66", "title": "The configuration applies at every depth", "statement": "With IncludesUnexported set, unexported fields are shown wherever a struct occurs in the value, including inside interface values.", "quantifier": "all values, all positions of a struct", "why_tests_cant": "Positions of structs in values are unbounded.", "anchors": ["msgfmt/jsonfmt/encoder_dynamic.go: dynamicEncoder.Encode", "msgfmt/jsonfmt/encoder.go: Config.Froze"]}
{"id": "C67", "title": "Fprintln writes the values and a newline to the given writer", "statement": "Println and Fprintln print their values followed by a newline to standard output respectively the given writer, whatever was printed before in the process.", "quantifier": "every list of values, every writer, every history of earlier calls", "why_tests_cant": "The formatter cache makes the result depend on all earlier calls and the types they printed.", "anchors": ["msgfmt/msgfmt.go: Println, Fprintln, fprintln, fprintf"]}
{"id": "C68", "title": "Log lines show the level of the event", "statement": "Every line written by the human readable and the compact format shows the name of the level of its event, so that a reader can tell a warning from an information.", "quantifier": "every level, every event", "why_tests_cant": "The tests compare single lines of events without a level; the claim is about every level and both formats.", "anchors": ["countlog/spi/color.go: init, ColoredLevelName", "countlog/output/hrf/level.go: levelFormatter.Format", "countlog/output/compact/timestamp.go: timestampFormatter.Format"]}
{"id": "C69", "title": "JSON log lines are JSON", "statement": "Every line the JSON format writes is one valid JSON object with the event name, every property, the timestamp and the location.", "quantifier": "every event name, every list of properties, every time and place", "why_tests_cant": "Names and values are unbounded; the only test compares one line as text and never parses it.", "anchors": ["countlog/output/json/json.go: JsonFormat.FormatterOf, jsonFormatter.Format"]}
{"id": "C70", "title": "An event is written exactly once", "statement": "An event that passes the level check is written to the output exactly once, whichever handlers panic while it is handled.", "quantifier": "every event, every handler state, every pattern of panics", "why_tests_cant": "Needs panics of particular handlers at particular moments, in all combinations.", "anchors": ["countlog/root.go: oneHandler.Handle, statsAndOutput.Handle, nomalModeOnPanic, fallbackModeOnPanic, redirector.Handle"]}
{"id": "C71", "title": "An event is formatted by the handler of its own event name", "statement": "Whatever happened before, an event is formatted by a handler made for an event of the same name.", "quantifier": "every history of events and panics, every source location", "why_tests_cant": "The mix-up needs two events logged from one place and panics of both before.", "anchors": ["countlog/root.go: redirector.Handle, accurateHandlerKey", "countlog/countlog.go: getHandler, newHandler"]}
{"id": "C72", "title": "Every property is logged with its own value", "statement": "A line of the human readable and the compact format contains the message and every property with its name and its own value, in order, whatever was logged before in the process.", "quantifier": "every message template, every list of properties, every history of earlier log lines", "why_tests_cant": "Formats are compiled once per process and cached by their text, so a line depends on all lines logged before.", "anchors": ["countlog/output/hrf/hrf.go: Format.FormatterOf", "countlog/output/compact/compact.go: Format.FormatterOf", "msgfmt/msgfmt.go: FormatterOf"]}
{"id": "C73", "title": "A bad event does not stop the counters", "statement": "After an event that cannot be counted (its dimension is missing or not a string), other events of the same site are still counted and exported.", "quantifier": "every interleaving of counting and exporting goroutines after the bad event", "why_tests_cant": "The claim is about everything that can happen after the panic, on all goroutines.", "anchors": ["countlog/stats/counter.go: countEvent.Handle", "countlog/stats/window.go: Mutate, exportShard, extractDimension"]}
{"id": "C74", "title": "An export reports everything handled before it began", "statement": "When a call of Export returns, every event handled before the call began has been given to the collector, by this or another export.", "quantifier": "every interleaving of counting and exporting goroutines, every key", "why_tests_cant": "Other goroutines add keys and export shards while this export is running.", "anchors": ["countlog/stats/window.go: Window.Export, exportShard"]}
{"id": "C75", "title": "Every failed close is logged with its own error", "statement": "CloseAll logs one error event per resource that fails to close, in order, carrying the error of that resource and of no other; if none fails, at most a debug event is logged.", "quantifier": "every list of resources and every pattern of failures", "why_tests_cant": "The properties accumulate across failures, which single-failure tests never show.", "anchors": ["closer.go: CloseAll"]}
{"id": "C76", "title": "Growing a reflective slice keeps its elements and adds zero values", "statement": "Grow(n) leaves the existing elements in place and makes the added ones zero values; SetIndex changes exactly the element at an index within the slice and refuses an index outside it.", "quantifier": "every slice header, array content, new length and index", "why_tests_cant": "What lies behind the end of a slice depends on the history of the underlying array.", "anchors": ["reflect2/unsafe_slice.go: UnsafeGrow, UnsafeSetIndex, UnsafeMakeSlice", "reflect2/unsafe_link.go: arrayAt"]}
{"id": "C77", "title": "Table entries of a dump show what memory holds", "statement": "For an object passed to dump.Var, the entry of the object shows its fields as memory holds them, and every other entry of the table shows, for its address, the text of the string or the elements of the slice found there, as many as the header says.", "quantifier": "for all types, all memory contents and all ways in which strings and slices share memory", "why_tests_cant": "The existing tests print a few values whose parts do not overlap; they cannot cover all nestings of structs, slices and strings, nor all ways of sharing memory.", "anchors": ["dump/slice.go:sliceEncoder.Encode", "dump/slice.go:encodeData", "dump/str.go:stringEncoder.Encode", "dump/dumpvar.go:Var.String", "dump/eface.go:efaceEncoder.Encode"]}
{"id": "C78", "title": "Context properties are shown", "statement": "Every entry in the human readable format that is logged through a countlog.Context shows all properties added to that context before the call, each with its own value, beside the event's own properties with theirs; a property named timer is shown as the time passed since it.", "quantifier": "every context, every order of Add calls and log calls, every event name and list of properties, every history of earlier entries", "why_tests_cant": "Handlers are made once per event name from the context at hand then, and formats are cached for the whole process, so an entry depends on the contexts of all entries before it.", "anchors": ["countlog/context.go:Context.Add", "countlog/output/hrf/hrf.go:Format.FormatterOf", "countlog/output/hrf/ctx.go:ctxFormatter.Format", "countlog/output/hrf/timer.go:timerFormatter.Format", "countlog/spi/context.go:GetLogContext"]}
{"id": "C79", "title": "The layout format shows what the layout asks for", "statement": "A line written with printf.Format is the layout with {message}, {timestamp}, {level}, {event}, {func}, {file} and {line} replaced by the message (the event with its placeholders replaced), the time, the level's name and the place of the call, followed by a line feed.", "quantifier": "every layout, every message template, all properties, every history of formats used before", "why_tests_cant": "There is no test of this format, and the message passes through an escaping writer whose behaviour depends on the whole text.", "anchors": ["countlog/output/printf/printf.go:Format.FormatterOf", "countlog/output/printf/printf.go:formatter.Format", "msgfmt/formatter_bytes.go:writeBytes"]}
{"id": "C80", "title": "Indirect gives the value pointed to", "statement": "typ.Indirect(ptr) returns an interface holding the value of the variable ptr points to, and that value stays what it is when the variable is changed later.", "quantifier": "every type, every memory, every variable, every later change", "why_tests_cant": "Whether a value is kept in the interface word itself or behind it depends on the shape of the type to any depth; tests try a few shapes and never change the variable afterwards.", "anchors": ["reflect2/reflect2.go:likePtrType", "reflect2/unsafe_type.go:unsafeType.Indirect", "reflect2/unsafe_struct.go:UnsafeStructType.UnsafeIndirect", "reflect2/unsafe_array.go:UnsafeArrayType.UnsafeIndirect", "reflect2/unsafe_ptr.go:UnsafePtrType.UnsafeIndirect", "reflect2/unsafe_eface.go:UnsafeEFaceType.UnsafeIndirect", "reflect2/unsafe_iface.go:UnsafeIFaceType.UnsafeIndirect"]}
{"id": "C81", "title": "IsNil says whether the value is nil", "statement": "typ.IsNil(ptr) is true exactly if ptr is nil or the variable it points to is nil, and reflect2.IsNil(v) is true exactly if v is nil or holds a nil.", "quantifier": "every type, every memory, every variable, every interface value", "why_tests_cant": "Nil is a different bit pattern for each kind of type, and nested in structs and arrays to any depth.", "anchors": ["reflect2/reflect2.go: IsNil", "reflect2/unsafe_ptr.go: UnsafePtrType.IsNil, UnsafePtrType.UnsafeIsNil", "reflect2/unsafe_slice.go: UnsafeSliceType.IsNil", "reflect2/unsafe_eface.go: UnsafeEFaceType.UnsafeIsNil", "reflect2/unsafe_iface.go: UnsafeIFaceType.UnsafeIsNil", "reflect2/unsafe_type.go: unsafeType.UnsafeIsNil"]}
{"id": "C82", "title": "Struct fields are read and set in place", "statement": "A field found by FieldByName or FieldByIndex: Get points to that field of the struct given, Set changes that field to the value given and nothing else, and arguments of another type are refused.", "quantifier": "every struct type, every field of it also of nested and embedded structs, every memory, every value", "why_tests_cant": "A field is an offset into raw memory; a wrong offset reads or overwrites something else without any error.", "anchors": ["reflect2/unsafe_field.go:UnsafeStructField.Set", "reflect2/unsafe_field.go:UnsafeStructField.Get", "reflect2/unsafe_struct.go:UnsafeStructType.FieldByName", "reflect2/unsafe_struct.go:UnsafeStructType.FieldByIndex"]}
{"id": "C83", "title": "Array elements are set within the array only", "statement": "SetIndex on an array sets the element at the index and changes nothing else, GetIndex points to it, and an index outside the array is refused.", "quantifier": "every element type and length, every index, every memory", "why_tests_cant": "An index outside the array changes memory that belongs to something else, which a test does not look at.", "anchors": ["reflect2/unsafe_array.go:UnsafeArrayType.SetIndex", "reflect2/unsafe_array.go:UnsafeArrayType.GetIndex", "reflect2/unsafe_link.go:arrayAt"]}
{"id": "C84", "title": "Maps through reflect2 behave as in the language", "statement": "SetIndex(&m, &k, &v) is m[k] = v and changes nothing else, GetIndex and TryGetIndex give a pointer to a variable with m[k] or say there is none, an iterator visits each key once with its element, and all of this holds for the safe and the unsafe implementation alike.", "quantifier": "every map type, every map, every sequence of calls, every order of iteration", "why_tests_cant": "Every sequence of assignments and every order of iteration is meant, and whether what was returned stays as it is shows only after later assignments.", "anchors": ["reflect2/unsafe_map.go:UnsafeMapType.SetIndex", "reflect2/unsafe_map.go:UnsafeMapType.GetIndex", "reflect2/unsafe_map.go:UnsafeMapType.TryGetIndex", "reflect2/unsafe_map.go:UnsafeMapIterator", "reflect2/safe_map.go:safeMapType.TryGetIndex", "reflect2/safe_map.go:safeMapType.GetIndex"]}
{"id": "C85", "title": "One Type object per type", "statement": "TypeOf and Type2 return an object describing the type asked for, and for one type always the same object, so that types may be compared with ==.", "quantifier": "any number of goroutines, every interleaving of their calls, every type", "why_tests_cant": "The lookup and the store are separate accesses to the cache; what happens in between depends on the interleaving.", "anchors": ["reflect2/reflect2.go:frozenConfig.TypeOf", "reflect2/reflect2.go:frozenConfig.Type2", "reflect2/reflect2.go:frozenConfig.wrapType"]}
{"id": "C86", "title": "A context diff can be applied", "statement": "Each hunk of WriteContextDiff shows the old and the new lines with unchanged text and the right marks, leaves a side out only if nothing on it is changed, and names the lines of both sides, so that a reader of the format gets the new lines from the old ones; an empty Eol makes the output free of line feeds.", "quantifier": "every pair of line lists, every context size, all headers", "why_tests_cant": "All line contents, including format verbs, and all ways in which changes can be grouped.", "anchors": ["test/go-difflib/difflib/difflib.go: WriteContextDiff, formatRangeContext"]}
{"id": "C87", "title": "Equal compares by contents", "statement": "assert.Equal passes exactly if expected and actual have the same type and the same contents, wherever they are in memory, and NotEqual passes exactly if Equal does not; Equal is reflexive, symmetric and transitive, and Exactly agrees with it.", "quantifier": "all values of all types without cycles, nested to any depth", "why_tests_cant": "Every shape of nested value, and every way in which parts of it can be shared.", "anchors": ["test/testify/assert/assertions.go: ObjectsAreEqual, Equal, NotEqual, Exactly, validateEqualArgs"]}
{"id": "C88", "title": "EqualValues compares numbers by value", "statement": "EqualValues passes on integers of any two types exactly if they are the same number, and on everything Equal passes on.", "quantifier": "all integers of all integer types, all other values", "why_tests_cant": "All pairs of integer types and all numbers in them.", "anchors": ["test/testify/assert/assertions.go: ObjectsAreEqualValues, EqualValues"]}
{"id": "C89", "title": "Contains, Subset and ElementsMatch compare elements by contents", "statement": "Contains passes exactly for elements of a list, keys of a map and substrings of a string; Subset exactly if every element of the subset is in the list; ElementsMatch exactly if one list is a rearrangement of the other, counting repeated elements; NotContains and NotSubset pass exactly in the other cases.", "quantifier": "all lists, maps and strings, all elements", "why_tests_cant": "ElementsMatch matches greedily; that this is never wrong needs an argument over all lists.", "anchors": ["test/testify/assert/assertions.go: includeElement, Contains, NotContains, Subset, NotSubset, ElementsMatch"]}
{"id": "C90", "title": "An assertion that returns false has failed the test", "statement": "Every call of an assertion returns true without reporting anything, or returns false after having reported a failure on t.", "quantifier": "all arguments of all assertions, including nil and arguments of unsuitable types", "why_tests_cant": "All kinds of arguments for all assertions.", "anchors": ["test/testify/assert/assertions.go: Fail, messageFromMsgAndArgs, Equal, Nil, Empty, Len, Contains, Subset, Zero"]}
{"id": "C91", "title": "Nil, Empty, Zero and Len mean what the language means", "statement": "Nil passes exactly for nil values, Zero exactly for zero values field by field, Len exactly for the length len() gives; Empty exactly for things of length 0, for zero values of types without length, and for pointers to empty things; the negated assertions pass exactly in the other cases.", "quantifier": "all values", "why_tests_cant": "All types and all nestings of them.", "anchors": ["test/testify/assert/assertions.go: isNil, Nil, NotNil, isEmpty, Empty, NotEmpty, getLen, Len, Zero, NotZero"]}
{"id": "C92", "title": "InDelta passes exactly within delta", "statement": "InDelta passes exactly if both arguments are numbers and differ by at most delta, whatever their order.", "quantifier": "all numbers of all types, all deltas", "why_tests_cant": "All pairs of numbers, including those where floating point arithmetic rounds.", "anchors": ["test/testify/assert/assertions.go: toFloat, InDelta"]}
{"id": "C93", "title": "InDeltaSlice and InDeltaMapValues compare everything", "statement": "InDeltaSlice passes exactly for slices of the same length whose elements are pairwise within delta, InDeltaMapValues exactly for maps with the same keys whose elements are.", "quantifier": "all slices and maps of numbers", "why_tests_cant": "All lengths and key sets.", "anchors": ["test/testify/assert/assertions.go: InDeltaSlice, InDeltaMapValues"]}
{"id": "C94", "title": "InEpsilon bounds the error relative to the expected number", "statement": "InEpsilon passes exactly if |expected - actual| / |expected| is at most epsilon, InEpsilonSlice exactly if that holds for each pair of elements.", "quantifier": "all numbers, all slices of numbers, all epsilons", "why_tests_cant": "All pairs of numbers.", "anchors": ["test/testify/assert/assertions.go: calcRelativeError, InEpsilon, InEpsilonSlice"]}
{"id": "C95", "title": "WithinDuration passes exactly within the duration", "statement": "WithinDuration passes exactly if the two times differ by at most delta.", "quantifier": "all times, all durations", "why_tests_cant": "Differences that do not fit a duration, and the ends of its range.", "anchors": ["test/testify/assert/assertions.go: WithinDuration"]}
{"id": "C96", "title": "Panics and errors are recognised", "statement": "Panics passes exactly if the function panics, NotPanics exactly if it does not, PanicsWithValue exactly if it panics with a value equal to the expected one; NoError, Error and EqualError pass exactly for no error, any error, and an error with that text.", "quantifier": "all functions, all values they panic with, all errors", "why_tests_cant": "All panic values.", "anchors": ["test/testify/assert/assertions.go: didPanic, Panics, PanicsWithValue, NotPanics, NoError, Error, EqualError"]}
{"id": "C97", "title": "A failure report shows the whole failure", "statement": "What Fail reports is a table whose rows are the lines of the failure, labelled Error, and those of the message, labelled Messages, unchanged and complete.", "quantifier": "all failures and messages", "why_tests_cant": "All texts of any length.", "anchors": ["test/testify/assert/assertions.go: Fail, labeledOutput, indentMessageLines"]}
{"id": "C98", "title": "Checks find the test they belong to", "statement": "While a test function made by test.Case runs, CurrentT - and with it every check of must and should - gives the T of that test on its goroutine, and on goroutines the test starts, whatever other goroutines do; afterwards the goroutine has none.", "quantifier": "all tests, all interleavings with other goroutines that use goroutine-local storage", "why_tests_cant": "Interleavings of any number of goroutines that share the table of storages.", "anchors": ["test/case.go: Case, CurrentT", "gls/gls.go: ResetGls, DeleteGls, WithGls, Get, Set"]}
{"id": "C99", "title": "must ends the test, should lets it go on", "statement": "A check of must or should that holds does nothing. One that does not hold makes the test fail; after one of must nothing further of the test is performed, after one of should the test goes on as if the check were not there.", "quantifier": "all sequences of statements and checks, all arguments of the checks", "why_tests_cant": "All sequences of checks; a test of a failing check would have to fail itself.", "anchors": ["test/must/equal.go: Equal, AssertEqual", "test/must/nil.go: Nil, NotNil", "test/must/pass.go: Assert, Pass", "test/should/equal.go: Equal", "test/should/nil.go: Nil, NotNil", "test/should/pass.go: Assert, Pass"]}
{"id": "C100", "title": "Panic checks that a function panics and returns the value", "statement": "must.Panic and should.Panic go on exactly if the function panics and then return the value it panicked with; otherwise the test fails, and in must ends. Failing checks inside the function count.", "quantifier": "all functions, including those that contain checks, skip the test or call Panic themselves", "why_tests_cant": "All nestings of checks, and all panic values.", "anchors": ["test/must/panic.go: Panic", "test/should/panic.go: Panic", "test/case.go: Skip"]}
{"id": "C101", "title": "Call passes the arguments and fails on an error", "statement": "must.Call and should.Call call the function with the arguments given, nil standing for the nil or zero value of the parameter, and return its results in order; the test fails exactly if the last result is an error.", "quantifier": "all functions, variadic or not, all arguments that fit, all results", "why_tests_cant": "All signatures and arguments.", "anchors": ["test/must/call.go: Call", "test/should/call.go: Call"]}
{"id": "C102", "title": "Set stores the results of a call", "statement": "ReturnValue.Set stores the results in the variables given, in order, and changes nothing else.", "quantifier": "all lists of results and of variables that can hold them", "why_tests_cant": "All results, including nil, and variables named more than once.", "anchors": ["test/must/call.go: ReturnValue.Set", "test/should/call.go: ReturnValue.Set"]}
{"id": "C103", "title": "Sdump ends on values that contain themselves", "statement": "Sdump (and with it the explanation of a failed assert.Equal) returns for every value, also if the value contains itself through pointers, slices or maps.", "quantifier": "all values, all ways in which their parts share and contain each other, all configurations", "why_tests_cant": "Circles of any length and shape; a test of a dump that does not end never ends.", "anchors": ["test/go-spew/spew/dump.go: dumpState.dump, dumpPtr, dumpSlice, unpackValue", "test/go-spew/spew/config.go: ConfigState.Sdump"]}
{"id": "C104", "title": "Sdump shows every part of the value", "statement": "What Sdump writes is the text of a picture of the value: every part with its type and, unless switched off, length and capacity, in order, one to a line with its depth as indent; a pointer is replaced by the words already shown only if its target stands further to the left in the same dump, and a part is left out only below MaxDepth.", "quantifier": "all values on which Sdump ends, all configurations", "why_tests_cant": "All nestings of kinds, flags and depths, with any sharing of pointers.", "anchors": ["test/go-spew/spew/dump.go: dumpState.dump, dumpPtr, dumpSlice, indent", "test/go-spew/spew/config.go: ConfigState"]}
{"id": "C105", "title": "The hex dump of bytes loses none", "statement": "The hex dump that Sdump writes for bytes consists of the lines of hex.Dump, each behind the indent, and two blocks of bytes of the same length are dumped alike only if they are the same.", "quantifier": "all blocks of bytes, all depths", "why_tests_cant": "All blocks of bytes, including those whose text ends in blanks that trimming might remove.", "anchors": ["test/go-spew/spew/dump.go: dumpState.dumpSlice"]}
{"id": "C106", "title": "Addresses are printed exactly", "statement": "printHexPtr writes 0x and the hexadecimal digits of the address without leading zeros, <nil> for zero, and never runs out of its buffer; different addresses are printed differently.", "quantifier": "all addresses of 64 bits", "why_tests_cant": "2^64 addresses.", "anchors": ["test/go-spew/spew/common.go: printHexPtr"]}
{"id": "C107", "title": "Values that are dumped alike are alike", "statement": "If two values have the same dump under the configuration that assert.Equal uses for its diff, they have the same types, lengths, numbers, texts, bytes, field names and parts; so values that differ have a diff that is not empty.", "quantifier": "all pairs of values", "why_tests_cant": "All pairs of values of all types.", "anchors": ["test/testify/assert/assertions.go: diff, spewConfig", "test/go-spew/spew/dump.go: dumpState.dump, dumpPtr, dumpSlice"]}
{"id": "C108", "title": "Sorted dumps do not depend on the order of map iteration", "statement": "With SortKeys set (as assert.Equal sets it) Sdump of a value is the same text every time, in whatever order the maps in it give their keys and however sort.Sort treats keys that are not less than each other.", "quantifier": "all values, all orders of iteration, all sorting algorithms", "why_tests_cant": "The order of iteration of a map is random, and all orders of any number of keys are meant.", "anchors": ["test/go-spew/spew/common.go: valuesSorter, newValuesSorter, canSortSimply, valueSortLess, sortValues", "test/go-spew/spew/dump.go: dumpState.dump"]}
{"id": "C109", "title": "The safe configuration does what the unsafe one does to slices", "statement": "A sequence of calls of a slice type (SetIndex, GetIndex, Append, SetNil, IsNil, LengthOf, MakeSlice, Grow) gives the same results with ConfigSafe and ConfigUnsafe and panics with both or with none; the same type assertions succeed on the types both make.", "quantifier": "all sequences of calls, all elements, all growth policies of the runtime", "why_tests_cant": "All programs over a slice variable; tests compare the two configurations for single calls.", "anchors": ["reflect2/safe_slice.go: safeSliceType", "reflect2/unsafe_slice.go: UnsafeSliceType", "reflect2/safe_struct.go: safeStructType", "reflect2/reflect2.go: StructType, wrapType"]}
{"id": "C110", "title": "The safe configuration does what the unsafe one does to struct fields", "statement": "Set and Get of a field found with ConfigSafe read and change exactly the selected field, also of embedded structs and pointers, as with ConfigUnsafe, and refuse the same arguments.", "quantifier": "all struct types and paths of embedded fields, all memories, all arguments", "why_tests_cant": "All shapes of nested structs.", "anchors": ["reflect2/safe_field.go: safeField.Set, safeField.Get", "reflect2/unsafe_field.go: UnsafeStructField.Set"]}
{"id": "C111", "title": "Iterating over a map with the safe configuration visits its entries", "statement": "The loop over HasNext and Next with ConfigSafe ends without a panic and returns every entry the map had at the start and that was not deleted before it was reached, once, with the element it has at that moment.", "quantifier": "all maps, all changes made to the map between the calls, all orders of iteration", "why_tests_cant": "All interleavings of changes with the iteration, and keys such as NaN.", "anchors": ["reflect2/safe_map.go: safeMapIterator.Next, safeMapType.Iterate"]}
{"id": "C112", "title": "HTTP assertions tell the handler's answer", "statement": "HTTPSuccess, HTTPRedirect and HTTPError pass exactly if the handler answers with a status of 2xx, 3xx, or 4xx and above, HTTPBodyContains and HTTPBodyNotContains exactly if what the handler writes contains the text or not; none of them passes without the handler having been asked.", "quantifier": "all handlers, requests and texts", "why_tests_cant": "All status codes and handlers, including requests that cannot be made.", "anchors": ["test/testify/assert/http_assertions.go: HTTPSuccess, HTTPRedirect, HTTPError, HTTPBody, HTTPBodyContains, HTTPBodyNotContains, httpCode"]}
{"id": "C113", "title": "The handler sees the query values of an HTTP assertion", "statement": "The request an HTTP assertion makes has the given values as its query, beside those the URL itself has.", "quantifier": "all URLs and values", "why_tests_cant": "All URLs, also with a query or a fragment of their own.", "anchors": ["test/testify/assert/http_assertions.go: httpCode, HTTPBody"]}
{"id": "C114", "title": "The formatter writes the one-line form of a value", "statement": "What spew.Printf writes for %v, %+v, %#v and %#+v of a value shows every part of it, from left to right and up to MaxDepth, in brackets that tell the kind; with + the names of fields and the addresses of pointers, with # the type of every value except elements, keys and values whose type the list or map tells; a pointer is called <shown> only if its target stands further left.", "quantifier": "all values, however shared, all configurations and flags", "why_tests_cant": "All heaps with any sharing; the flag that hides a type travels through the whole walk.", "anchors": ["test/go-spew/spew/format.go: formatState.format, formatState.formatPtr, formatState.unpackValue"]}
{"id": "C115", "title": "The formatter ends on circular values", "statement": "spew.Printf with any of its verbs ends on every value, circular ones included.", "quantifier": "all values, configurations and flags", "why_tests_cant": "Termination for all heaps.", "anchors": ["test/go-spew/spew/format.go: formatState.format, formatState.formatPtr"]}
{"id": "C116", "title": "Other verbs reach package fmt unchanged", "statement": "For every verb other than v, the directive the formatter hands on to package fmt is read there with the same flags, width, precision and verb as the directive the caller wrote.", "quantifier": "all flags, widths, precisions and verbs", "why_tests_cant": "All combinations of flags, widths and precisions.", "anchors": ["test/go-spew/spew/format.go: formatState.constructOrigFormat, formatState.Format"]}
{"id": "C117", "title": "Goroutines formatting at the same time do not disturb each other", "statement": "Calls that hand verbs on to package fmt get the format each asked for, in whatever order the steps of concurrent calls happen.", "quantifier": "all numbers of goroutines, all directives, all interleavings", "why_tests_cant": "All interleavings; depends on the room the runtime gives to a slice.", "anchors": ["test/go-spew/spew/format.go: formatState.constructOrigFormat", "test/go-spew/spew/common.go: percentBytes"]}
{"id": "C118", "title": "The dump of a map shows all of it", "statement": "Given a map, dump.Var shows the header as memory holds it, with an entry for the array of buckets, with as many buckets as the header says, and one for every bucket a pointer in the map leads to; every entry shows what memory holds at its address, and every reference but nil has an entry.", "quantifier": "all maps of all key and element types, all contents of memory, growing maps and overflow buckets included", "why_tests_cant": "The tests dump two maps of one bucket; overflow buckets, growing maps and shared addresses depend on the runtime's hashes.", "anchors": ["dump/map.go: newMapEncoder, mapEncoder.Encode, encodeBuckets, encodeBucket, encodeExtra, encodeBucketPtrSlice, encodeBucketPtrArray", "dump/eface.go: efaceEncoder.Encode"]}
{"id": "C119", "title": "The dump of a map comes to an end", "statement": "Dumping a map comes to an end, without a panic, exactly if the overflow buckets are not linked in a circle.", "quantifier": "all maps and all contents of memory", "why_tests_cant": "All linkings of buckets.", "anchors": ["dump/map.go: mapEncoder.encodeBucket"]}
{"id": "C120", "title": "Events are counted exactly when asked for", "statement": "With a collector set, every logged event whose properties ask for agg counter adds one to exactly one counter, and every call of TraceCall, DebugCall and InfoCall that its level lets through is counted too, as documented; other events, and all events without a collector, are not counted.", "quantifier": "all runs of log calls and level settings, all property lists", "why_tests_cant": "Handlers are made once per event name and kept, so whether an event is counted depends on the history.", "anchors": ["countlog/stats/stats.go: EventAggregator.HandlerOf, createHandler", "countlog/root.go: newRootHandler, statsAndOutput.Handle", "countlog/countlog.go: TraceCall, DebugCall, InfoCall"]}
{"id": "C121", "title": "Aggregation does not change the log", "statement": "Setting a collector does not change what is written to the log; individual entries of TraceCall, DebugCall and InfoCall are written exactly from the levels TRACE_CALL, DEBUG_CALL, INFO_CALL downwards, as documented.", "quantifier": "all runs of log calls and level settings, with and without a collector", "why_tests_cant": "Relates two runs of every program.", "anchors": ["countlog/stats/stats.go: createHandler", "countlog/root.go: newRootHandler, statsAndOutput.Handle", "countlog/countlog.go: SetMinLevel, TraceCall, DebugCall, InfoCall"]}
{"id": "C122", "title": "Old backups are cleaned after every rotation", "statement": "However rotations by any goroutine interleave with the cleaning in the background, once no write or cleaning is going on the directory is as a complete cleaning pass over all backups leaves it; writers never wait for the cleaning, and the cleaning always comes to an end.", "quantifier": "all directories, configurations, and all interleavings of rotations, reopenings and cleaning passes", "why_tests_cant": "The signal to the cleaning goroutine may be dropped when the channel is full; whether a backup can be missed depends on the interleaving.", "anchors": ["countlog/output/lumberjack/lumberjack.go: mill, millRun, rotate, openNew, openExistingOrNew"]}
{"id": "C123", "title": "Properties follow the context", "statement": "A property added to a countlog context, by Add or AddLogContext, is a property of that context and of every context derived from it from then on, in the order added and beside all earlier ones, and of no other context.", "quantifier": "all programs that derive, wrap and add to contexts in any order", "why_tests_cant": "Contexts share their log context by pointer, so what a context shows depends on what is done through all the others.", "anchors": ["countlog/context.go: Ctx, Context.Value, Context.Add", "countlog/spi/context.go: AddLogContext, GetLogContext"]}
{"id": "C124", "title": "Placeholders as keys", "statement": "In must.JsonEqual a key of the template that is a named placeholder stands for the string the placeholder is bound to by another member: the document is accepted exactly if it equals the template with the string in the place of the key, whatever the order in which the maps are walked, and the check never panics.", "quantifier": "all templates, documents and orders of maps", "why_tests_cant": "What is to be done for a key waits in a list of functions until the placeholder is bound; the order of maps is random.", "anchors": ["test/must/json.go: substituteVars, variables.sub, variables.bind"]}
{"id": "C125", "title": "Messages and forms of assertions", "statement": "An assertion called as a function, as its variant ending in f, or as either method of Assertions is the same assertion with the same arguments in the same order; the message given to any of them is part of every failure it reports, formatted with its arguments.", "quantifier": "all assertions, forms, arguments, messages and ways of failing", "why_tests_cant": "Forty-five assertions in four forms, each with several places where it fails; tests try few of them.", "anchors": ["test/testify/assert/assertion_format.go", "test/testify/assert/assertion_forward.go", "test/testify/assert/assertions.go: messageFromMsgAndArgs, Fail", "test/testify/assert/http_assertions.go"]}
{"id": "C126", "title": "FileExists and DirExists", "statement": "FileExists passes exactly if the path leads to something that is not a directory, DirExists exactly if it leads to a directory; otherwise a failure is reported.", "quantifier": "all file systems with links and all paths", "why_tests_cant": "All shapes of file systems, with links anywhere on the way.", "anchors": ["test/testify/assert/assertions.go: FileExists, DirExists"]}
{"id": "C127", "title": "Caller frames", "statement": "CallerInfo gives the file and line of each frame from the failing assertion up to the test, benchmark or example that is running, or up to the runner for subtests, without those of the assertion packages themselves, in order.", "quantifier": "all stacks, names and files", "why_tests_cant": "All stacks; the names on them decide where the walk ends.", "anchors": ["test/testify/assert/assertions.go: CallerInfo, isTest"]}
{"id": "C128", "title": "JSONEq", "statement": "JSONEq passes exactly if both texts are JSON with the same meaning: numbers of the same value, members in any order, the last of several with one name counting; otherwise it reports a failure.", "quantifier": "all pairs of texts", "why_tests_cant": "All JSON values, nested to any depth, and all numbers.", "anchors": ["test/testify/assert/assertions.go: JSONEq"]}
{"id": "C129", "title": "Assertions about one fact", "statement": "True, False, Condition, IsType, Implements, Regexp and NotRegexp pass exactly if what they are named for holds, and otherwise return false after reporting one failure; FailNow reports and never returns.", "quantifier": "all arguments, types, patterns and regular expression engines", "why_tests_cant": "All types and all patterns, including those that do not compile and values that are not texts.", "anchors": ["test/testify/assert/assertions.go: True, False, Condition, IsType, Implements, matchRegexp, Regexp, NotRegexp, FailNow"]}
{"id": "C130", "title": "Listing files named by index", "statement": "With a pattern containing %d, the listing of archives returns exactly the files of the directory whose name is the pattern with an index in it, in the order of the directory; a missing directory has none, another error is reported.", "quantifier": "all patterns pre%dsuf, all directory contents, all indices", "why_tests_cant": "All patterns and names, including names that merely start like an archive.", "anchors": ["countlog/output/rotation/name_by_index.go: NameByIndex"]}
{"id": "C131", "title": "Logging a panic", "statement": "LogPanic does nothing without a panic; otherwise it logs one fatal event with the caller's properties, the panic and the stack trace, returns the panic, leaves the caller's data alone, and concurrent calls do not mix up their panics.", "quantifier": "all panics, level settings, property slices with any backing array, and concurrent calls", "why_tests_cant": "Aliasing of backing arrays and any number of concurrent calls.", "anchors": ["countlog/countlog.go: LogPanic"]}
{"id": "C132", "title": "Interfaces of types tell their kind", "statement": "What TypeOf and Type2 return is a Type, and a type assertion to StructType, ArrayType, SliceType, MapType, PtrType or InterfaceType succeeds exactly for types of that kind, with both configurations.", "quantifier": "all kinds of types, both configurations, all six interfaces", "why_tests_cant": "Go's method sets decide the assertions; tests look at a few kinds and one configuration.", "anchors": ["reflect2/reflect2.go: wrapType, StructType, ArrayType, SliceType, MapType, PtrType, InterfaceType"]}
{"id": "C133", "title": "Types by name", "statement": "TypeByName returns the type of the program with that name; for a name of nothing it panics, as Class.forName throws, to which its documentation compares it.", "quantifier": "all programs (lists of type links), all names, all recent versions of Go", "why_tests_cant": "All programs, including several packages with one name.", "anchors": ["reflect2/type_map.go: TypeByName, loadGo17Types, loadGo15Types, init"]}
{"id": "C134", "title": "Home page of the viewer", "statement": "The home page is index.html with the contents of all component files, in their order, in the place of the placeholder; it is made once at the start from the files in the program, which does not start without one of them.", "quantifier": "all contents of all files", "why_tests_cant": "All texts, including components with the placeholder in them and missing files.", "anchors": ["witch/witch.go: initViewerHtml, loadDebugViewerHtml, Start, homepage"]}
{"id": "C135", "title": "Time shown for a timer", "statement": "An entry with a timer that is logged shows the time from the start of the timer to the event, with its unit, in full.", "quantifier": "all timers, levels set at the start and at the entry, outcomes of calls, times, and calls of the API", "why_tests_cant": "All durations and all combinations of levels; tests use one level.", "anchors": ["countlog/timer.go: TraceTimer, DebugTimer, InfoTimer", "countlog/output/hrf/timer.go: timerFormatter"]}
{"id": "C136", "title": "Formatters used again", "statement": "A formatter made by NewFormatter prints the same text for the same flags each time it is used, that of a new formatter.", "quantifier": "all values, worlds of pointers, and sequences of flags", "why_tests_cant": "State is left behind by one use for the next; tests make a new formatter for each text.", "anchors": ["test/go-spew/spew/format.go: Format, newFormatter, NewFormatter", "test/go-spew/spew/config.go: NewFormatter"]}
{"id": "C137", "title": "Formats with several arguments", "statement": "Printf of spew (with Sprintf, Fprintf, Errorf and the methods of a configuration) prints for %v, with + and #, the text of a new formatter of the argument, and for every other directive what fmt.Printf prints with the argument itself.", "quantifier": "all formats, all lists of arguments, any printing by package fmt", "why_tests_cant": "All formats; the arguments reach package fmt only as formatters, which shows in unusual directives.", "anchors": ["test/go-spew/spew/spew.go: Printf, Sprintf, Fprintf, Errorf, convertArgs", "test/go-spew/spew/config.go: Printf, convertArgs", "test/go-spew/spew/format.go: Format, constructOrigFormat"]}
{"id": "C138", "title": "Several arguments without a format", "statement": "Sprint prints the texts of its arguments, each as if printed alone, with a blank between any two; Sprintln prints the same and a line feed; Sdump of several arguments is the dumps of each, one after the other.", "quantifier": "all lists of arguments and worlds of pointers", "why_tests_cant": "All lists of arguments, with pointers shared between them.", "anchors": ["test/go-spew/spew/spew.go: Print, Println, Sprint, Sprintln, Fprint, Fprintln, convertArgs", "test/go-spew/spew/dump.go: fdump, Sdump, Dump, Fdump"]}
{"id": "C139", "title": "Spew reads every value", "statement": "In every version of package reflect that the code tells apart, the value spew goes on with instead of a protected one can be read and has an address, is of the same type, and holds what the protected one holds; values that are not protected are left as they are.", "quantifier": "all layouts of reflect.Value in these versions, all values however obtained (scalar in the value, by pointer, nested, addressable or not)", "why_tests_cant": "A test runs with one version of package reflect; the others, and all combinations of flags, it cannot reach.", "anchors": ["test/go-spew/spew/bypass.go: init, unsafeReflectValue"]}
{"id": "C140", "title": "The line a failure is shown at", "statement": "A failure of an assertion is shown at the line of the innermost function on the stack that has not called test.Helper, so that the assertions of must and should, which all call it, are never shown themselves.", "quantifier": "all stacks, all sequences of calls of test.Helper before", "why_tests_cant": "The line is output of package testing, and all stacks and earlier calls are meant.", "anchors": ["test/go_above_19.go: Helper, callerName", "test/case.go: CurrentT", "test/should/panic.go: Panic", "test/must/panic.go: Panic"]}
{"id": "C141", "title": "The safe configuration does what the unsafe one does to maps", "statement": "A sequence of calls of a map type (MakeMap, New, SetIndex, GetIndex, TryGetIndex, IsNil, Set) gives the same results and leaves the same maps with ConfigSafe and ConfigUnsafe, panics with both or with none, and does what the language does with these variables.", "quantifier": "all sequences of calls, all arguments, all maps and variables", "why_tests_cant": "All programs over variables that share maps, and all arguments, nil pointers and pointers to other types included.", "anchors": ["reflect2/safe_map.go: safeMapType.MakeMap, SetIndex, GetIndex, TryGetIndex", "reflect2/safe_type.go: safeType.New, IsNil, Set", "reflect2/unsafe_map.go: UnsafeMapType"]}
{"id": "C142", "title": "Iterating with the unsafe configuration over a map that changes", "statement": "The loop over HasNext and Next ends, returns no key twice, returns every key the map had at the start and that was not deleted before, returns nothing deleted before it was reached, and each key with the element it has when Next is called, as range does.", "quantifier": "all maps, all orders the runtime takes, all assignments, deletions and growth between the calls", "why_tests_cant": "All interleavings of changes with the iteration, and growth of the map at any moment.", "anchors": ["reflect2/unsafe_map.go: UnsafeMapIterator.Next, UnsafeNext, HasNext, UnsafeMapType.UnsafeIterate"]}
{"id": "C143", "title": "Types of kinds", "statement": "DefaultTypeOfKind gives the predeclared type of every kind that has one and nil for the others; IsNullable holds exactly for the kinds whose types have nil.", "quantifier": "all kinds", "why_tests_cant": "The table is only as complete as the test that lists it.", "anchors": ["reflect2/reflect2_kind.go: DefaultTypeOfKind, kindTypes", "reflect2/reflect2.go: IsNullable"]}
{"id": "C144", "title": "Counters outlive the memory of events", "statement": "Whatever the program writes over the memory that the strings of an event were in, once the event was handled, an export reports each combination of dimensions once, with the number of events that had it when they were handled.", "quantifier": "all sequences of events, all memory contents, all writes and allocations of the rest of the program between the events", "why_tests_cant": "Reuse of memory depends on the compiler and the collector; no test controls what is written over the strings, or when.", "anchors": ["countlog/stats/window.go: extractDimension, copyDimension", "countlog/countlog.go: log, castEmptyInterfaces"]}
{"id": "C145", "title": "Functions with storage of their own can be called anywhere", "statement": "A function made by WithGls or WithEmptyGls that is called on the goroutine that made it has storage of its own while it runs, with what it inherits, and when it returns or panics the storage of the caller is as it was.", "quantifier": "all programs of Get, Set, panics and such calls in one another, all values, all states before", "why_tests_cant": "All nestings and all places to panic; the tests start one goroutine each.", "anchors": ["gls/gls.go: WithGls, WithEmptyGls, ResetGls, DeleteGls, Get, Set"]}
{"id": "C146", "title": "Goroutines printing at the same time", "statement": "Each call of Fprintf, Printf, Fprintln or Println, and each event handled by an EventWriter, gives its writer exactly the text it formatted, in one call of Write, whatever other goroutines print meanwhile, however the pool hands out buffers, and whatever formatters and writers panic.", "quantifier": "all numbers of goroutines, all interleavings, all texts, all choices of the pool and of growing buffers", "why_tests_cant": "A shared buffer shows only under particular interleavings and choices of sync.Pool.", "anchors": ["msgfmt/msgfmt.go: fprintf, bufPool, Printf, Fprintf, Println, Fprintln", "countlog/output/writer.go: writeEvent.Handle, recylceWriter.Write, bufPool"]}
{"id": "C147", "title": "Paths of fields and indexes", "statement": "Walking with Get and GetIndex from a pointer to a variable through fields and indexes leads to the part of the variable that the same selectors denote in the language, and setting a part from another makes exactly that part equal to it: every other part of every variable, the padding, and memory outside stay as they were, also if source and destination overlap. A value of another type is refused.", "quantifier": "all types built from numbers, strings, interfaces, slices, structs and arrays to any depth, all paths with indexes within the arrays, all contents of memory, all programs of such assignments among any number of variables", "why_tests_cant": "Sizes, alignment and padding depend on the types of all fields before; a test tries a few structs and looks at a few neighbours.", "anchors": ["reflect2/unsafe_field.go: UnsafeStructField.Get, Set, UnsafeGet, UnsafeSet", "reflect2/unsafe_array.go: UnsafeArrayType.GetIndex, SetIndex", "reflect2/unsafe_struct.go: UnsafeStructType.Field", "reflect2/unsafe_link.go: add, arrayAt, typedmemmove", "reflect2/unsafe_type.go: unsafeType.Set"]}
{"id": "C148", "title": "Backups survive failures while they are compressed", "statement": "Whatever system call fails and whenever the process is killed while old backups are removed and compressed, and however often that is repeated, every backup that was never due for removal can be read in full: from the original until compressing it has succeeded, from the compressed file afterwards. This also holds if several Loggers clean the same directory. A failed attempt leaves no incomplete compressed file behind, and the next cleaning without failures compresses everything that failures left.", "quantifier": "all runs: any number of Loggers and processes one after another or at the same time, rotations, failures of any call, writes in any pieces, kills at any point", "why_tests_cant": "A test makes one call fail or stops at one point; the claim is about every point and about what later attempts make of what was left.", "anchors": ["countlog/output/lumberjack/lumberjack.go: compressLogFile, Logger.millRunOnce, Logger.openNew", "countlog/output/lumberjack/chown_linux.go: chown", "countlog/output/lumberjack/chown.go: chown"]}
{"id": "C149", "title": "What was logged before Close is in the files, whole and in order", "statement": "Goroutines log through an asynchronous writer with a blocking queue whose downstream writer is a rolling lumberjack file. When Close has returned, every message whose Write had returned before Close was called is in the files: once, whole, in one file, with the content at the time of Write even if the caller's buffer was reused, appended to what was there before; the messages of one goroutine are in the order of its calls through the backups and the live file.", "quantifier": "all interleavings of any number of callers, the worker and Close, all messages, all files there were before, all clock readings, all failures of the file system", "why_tests_cant": "The two packages are tested apart, if at all; the claim depends on the interleaving of callers, worker and Close, on where rotations fall, and on which writes fail.", "anchors": ["countlog/output/async/async.go: NewAsyncWriter, blockingQueueWriter.Write, asyncWrite, Close", "countlog/output/lumberjack/lumberjack.go: Logger.Write, Logger.rotate, Logger.openExistingOrNew"]}
{"id": "C150", "title": "Formats that name their arguments by number", "statement": "When a format given to spew's Printf, Sprintf, Fprintf or Errorf picks arguments by number (\"%[2]d %[1]v %+[1]v\"), each directive shows the argument it names, and a directive without a number the one behind; %v shows it as a new formatter for it would, every other verb as package fmt does; numbers of no argument are reported as BADINDEX.", "quantifier": "all formats, all arguments, all numbers", "why_tests_cant": "The formatter made for an argument keeps its state from one directive to the next; what the second sees depends on the value, the flags and all directives before.", "anchors": ["test/go-spew/spew/spew.go: Sprintf, Printf, Fprintf, Errorf, convertArgs", "test/go-spew/spew/format.go: formatState.Format, newFormatter"]}
{"id": "C151", "title": "Sources sharing memory do not disturb each other", "statement": "Any number of parse.Source values on buffers that do not overlap can be used in any order: each call returns what it would return if the source were alone, the bytes of a slice from Peek or PeekN stay as they are until that source consumes, and the caller's memory outside the buffers given is not written.", "quantifier": "all numbers of sources, all readers and ways of cutting the input, all buffers that do not overlap, all sequences of calls, all growth policies of append", "why_tests_cant": "What PeekN overwrites depends on where buffers lie in memory, on spare capacity behind them and on how the input is cut; a test with one source on a buffer of its own cannot notice.", "anchors": ["parse/parse.go: NewSource, NewSourceString, PeekN, Consume, ConsumeN, Consume1, PeekRune"]}
{"id": "C152", "title": "Marshalling reads memory only as what it holds", "statement": "MarshalToString of any Go value - with pointers, slices, arrays, structs, maps, and interfaces inside interfaces - reads every piece of memory as a value of the type it holds, does not panic, returns, and the text reads as the value; in particular values an interface keeps in its data word (pointers, maps, structs and arrays of just one pointer) are told from those it points to.", "quantifier": "all types and values, all layouts of the values in memory, all contents of interfaces", "why_tests_cant": "The encoders work on raw addresses; whether an address is one of a value or the value itself depends on the type in each interface, and a misread only shows for particular nestings of types, as a crash or as someone else's bytes.", "anchors": ["msgfmt/jsonfmt/encoder.go: MarshalToString, EncoderOf, onePtrInterfaceEncoder, encoderOfMapKey", "msgfmt/jsonfmt/encoder_map.go: mapInterfaceKeyEncoder", "msgfmt/jsonfmt/encoder_dynamic.go: dynamicEncoder", "msgfmt/jsonfmt/encoder_error.go: errorEncoder", "msgfmt/jsonfmt/encoder_json_marshaler.go: jsonMarshalerEncoder", "reflect2/reflect2.go: likePtrType, PtrOf"]}
{"id": "C153", "title": "An extension decides how its types are printed, and knows where it is", "statement": "With a configuration that has extensions, every value inside a marshalled value is printed by the first extension that has an encoder for its type, wherever it is, and everything else is printed as without extensions; an extension is told by its prefix through which pointers, slices, maps and fields the place it is asked about is reached.", "quantifier": "all lists of extensions, types and values, all sequences of earlier calls", "why_tests_cant": "Extensions are arbitrary code consulted at every place of every type; that no place is missed and no path mixed up is a statement about all types.", "anchors": ["msgfmt/jsonfmt/encoder.go: Extension, Config, encoderOf, encoderOfStruct, getFieldName, encoderOfMapKey", "msgfmt/jsonfmt/encoder_dynamic.go: dynamicEncoder", "msgfmt/jsonfmt/encoder_map.go: mapInterfaceKeyEncoder"]}
{"id": "C154", "title": "What is marshalled does not depend on what was marshalled before", "statement": "Encoders are remembered per configuration; the text of a value is nevertheless the same as if it were the first ever to be marshalled.", "quantifier": "all sequences of earlier calls with any configurations, all types and values", "why_tests_cant": "Each test run sees one order of calls; a stale or misplaced cache entry only shows after particular earlier calls.", "anchors": ["msgfmt/jsonfmt/encoder.go: frozenConfig, EncoderOf, EncoderOfObject, encoderOfMapKey", "msgfmt/jsonfmt/encoder_map.go: mapInterfaceKeyEncoder", "msgfmt/jsonfmt/encoder_dynamic.go: dynamicEncoder"]}
{"id": "C155", "title": "A JSON log line shows the properties of its own event", "statement": "A line the JSON format writes for an event shows the names and values of that event's properties, whichever earlier event of the same name the handler was made for.", "quantifier": "all earlier events of the name, all events, names, types and values of properties, all contents of memory", "why_tests_cant": "The formatter remembers the names and types of one event and reads the memory of all later ones with them; what a wrong type reads depends on what happens to lie there.", "anchors": ["countlog/output/json/json.go: JsonFormat.FormatterOf, jsonFormatter.Format", "msgfmt/jsonfmt/encoder.go: EncoderOf, onePtrInterfaceEncoder", "countlog/countlog.go: getHandler"]}
{"id": "C156", "title": "The points a collector gets say what was counted, and stay so", "statement": "At every export the collector gets, for each combination of dimensions, one point with the name of the event, the time of the export, the combination and the count; points the collector keeps do not change, and it may append to a dimension without an effect on other points.", "quantifier": "all events, dimensions and counts, all that collectors append", "why_tests_cant": "The dimensions of the points share one array; whether points disturb each other depends on what collectors do with them and on the order in which the map is walked.", "anchors": ["countlog/stats/window.go: newWindow, exportShard", "countlog/stats/state.go: Point, Collector", "countlog/stats/stats.go: createHandler"]}
{"id": "C157", "title": "Dropped messages are reported with their number", "statement": "When messages are dropped because the queue of an asynchronous writer (without a callback of the user) or of the web viewer is full, this is reported on standard error for the first dropped message and then for every 1000th (10000th) after it, each report once and saying how many have been dropped.", "quantifier": "all numbers of drops, all interleavings of the goroutines that log", "why_tests_cant": "Whether a number is skipped or said twice depends on how the goroutines interleave between reading and writing the counter.", "anchors": ["countlog/output/async/async.go: NewAsyncWriter", "countlog/loglog/loglog.go: Error", "witch/logger.go: eventQueue.Write"]}
{"id": "C158", "title": "Goroutine ids, and storage by id", "statement": "GoID returns the number the runtime gave to the current goroutine, so that goroutines living at the same time have different ids; for any id, GetGls returns the map given with the last ResetGls unless it was deleted since, and IsGlsEnabled says whether there is one, whatever is done with other ids.", "quantifier": "all programs (lists of linked types), layouts of the runtime's struct, memories, ids and histories of calls", "why_tests_cant": "The offset depends on the types linked into the program, and the ids a test meets are small and positive.", "anchors": ["gls/goid.go: init, GoID", "gls/gls.go: ResetGls, DeleteGls, GetGls, IsGlsEnabled", "reflect2/type_map.go: TypeByName"]}
{"id": "C159", "title": "What a failed Equal says about the difference", "statement": "When Equal or EqualValues fails for two values of the same struct, map, slice or array type, or for pointers to such, the message ends with a unified diff that turns the dump of the expected value into the dump of the actual one and has at least one removed or added line; for nil, different types and other kinds there is no diff.", "quantifier": "all values, with all memories they refer to", "why_tests_cant": "Whether a diff is right depends on the contents of both values; a failing assertion is rarely itself tested, and the texts that break it (percent signs, values that look alike, circular values) are rare.", "anchors": ["test/testify/assert/assertions.go: diff, typeAndKind, spewConfig, Equal", "test/go-spew/spew/dump.go: Sdump", "test/go-difflib/difflib/difflib.go: GetUnifiedDiffString"]}
{"id": "C160", "title": "Goroutines that marshal at the same time do not disturb each other", "statement": "A call of MarshalToString (or of an encoder's Encode after EncoderOfObject) returns the same text however many goroutines marshal values of the same or other types with the same or other configurations at the same time, whichever of them builds and stores an encoder first; every call returns.", "quantifier": "all numbers of goroutines, types, values, configurations and interleavings of the accesses to the caches", "why_tests_cant": "The caches are shared and filled on first use, so what a call finds depends on the order of the loads and stores of all goroutines; tests see a few orders.", "anchors": ["msgfmt/jsonfmt/encoder.go: EncoderOfObject, EncoderOf, encoderOfMapKey, encoderCache, mapKeyEncoderCache", "msgfmt/jsonfmt/encoder_dynamic.go: Encode", "msgfmt/jsonfmt/encoder_map.go: Encode", "concurrent/go_below_19.go: Load, Store"]}
{"id": "C161", "title": "Goroutines that log at the same time do not disturb each other", "statement": "However many goroutines log the same or different events at the same time, and whatever panics in their handlers: every call returns; no panic reaches a caller; every event that is to be logged is written exactly once by a handler made for an event of its own name (or its failure is reported), and all counts of an event go to the handler of that event.", "quantifier": "all numbers of goroutines, sequences of calls, earlier histories, patterns of panics and interleavings of the accesses to the handler cache", "why_tests_cant": "The handler cache is shared, filled on first use and changed after panics, so which handler a call finds depends on the order of the loads and stores of all goroutines.", "anchors": ["countlog/countlog.go: log, getHandler, newHandler, handlerCache", "countlog/root.go: newRootHandler, nomalModeOnPanic, fallbackModeOnPanic, redirector.Handle", "concurrent/go_below_19.go: Load, Store"]}
{"id": "C162", "title": "Goroutines that format at the same time do not disturb each other", "statement": "A call of Sprintf returns the same text however many goroutines format with the same or other formats at the same time, whichever of them compiles and stores the formatter first; every call returns.", "quantifier": "all numbers of goroutines, sequences of calls with any formats and arguments, and interleavings of the accesses to the formatter cache", "why_tests_cant": "The cache is shared and filled on first use, so which arguments a formatter was compiled for depends on the order of the loads and stores of all goroutines.", "anchors": ["msgfmt/msgfmt.go: FormatterOf, Sprintf, formatterCache", "msgfmt/formatter.go: compile", "concurrent/go_below_19.go: Load, Store"]}
{"id": "C163", "title": "The minimum level can be changed while goroutines log", "statement": "An event logged while another goroutine calls SetMinLevel is dropped, only counted, or written as with one of the minimum levels in force during the call; after SetMinLevel has returned, events are treated by the level it set. Warnings, errors, fatal events and failed calls are never dropped.", "quantifier": "all numbers of goroutines, sequences of SetMinLevel and log calls, and interleavings of their accesses to MinLevel and MinCallLevel", "why_tests_cant": "SetMinLevel writes two variables and a call reads them one after the other, so what happens to an event depends on where between the two reads the two writes fall.", "anchors": ["countlog/countlog.go: SetMinLevel, Trace, TraceCall, InfoCall, Warn", "countlog/root.go: statsAndOutput.Handle", "countlog/spi/spi.go: MinLevel, MinCallLevel"]}
{"id": "C164", "title": "Assigning another EventWriter or EventAggregator takes effect", "statement": "Events logged after countlog.EventWriter or countlog.EventAggregator was assigned are written by that writer and counted by that aggregator, each event by one writer only.", "quantifier": "all sequences of assignments and log calls, all events, places and patterns of panicking handlers", "why_tests_cant": "Handlers are made from the variables at the first call with an event name and kept; what an event gets to depends on the whole history of assignments, calls and panics.", "anchors": ["countlog/spi.go: EventWriter, EventAggregator", "countlog/countlog.go: getHandler, newHandler, handlerCache", "countlog/root.go: newRootHandler, nomalModeOnPanic, redirector"]}
{"id": "C165", "title": "A log line shows the place the event was logged at", "statement": "The function, file and line a format shows for an event are those of the call that logged it.", "quantifier": "all sequences of log calls, all event names, places and patterns of panicking handlers", "why_tests_cant": "The place is taken when the handler of the event name is made and again when it has panicked, and is kept in two caches with different keys; which place is shown depends on the whole history of calls.", "anchors": ["countlog/countlog.go: newHandler, getHandler, LogPanic", "countlog/root.go: nomalModeOnPanic, redirector.Handle", "countlog/spi/spi.go: LogSite"]}
{"id": "C166", "title": "SetBuffer changes nothing but the memory used", "statement": "Replacing the buffer of a Source with SetBuffer, at any moment and by a buffer of any length, does not change what the methods of the source and the readers return; what Peek returned before keeps its bytes when the source goes on in the new buffer.", "quantifier": "all inputs, readers, sequences of calls and of SetBuffer, buffers of all lengths, contents of memory", "why_tests_cant": "SetBuffer can come between any two calls, with data already looked at; what is overwritten afterwards depends on where all slices lie.", "anchors": ["parse/parse.go: SetBuffer, Consume, PeekN, ConsumeN", "parse/read"]}
{"id": "C167", "title": "Every handler of a list gets every event once", "statement": "When the handler of an event is a spi.EventHandlers, each handler of the list handles each event exactly once, in the order of the list, whatever other handlers of the list do.", "quantifier": "all lists of handlers, all sequences of log calls with all event names, places and patterns of panics", "why_tests_cant": "The root handler makes all handlers again and runs them again after a panic, and keeps handlers by name and by place; who handles an event how often depends on the history.", "anchors": ["countlog/spi/spi.go: EventHandlers.Handle", "countlog/root.go: oneHandler.Handle, nomalModeOnPanic, fallbackModeOnPanic, redirector", "countlog/countlog.go: getHandler, newHandler"]}
{"id": "C168", "title": "An error passed up tells every step", "statement": "An error that functions hand to TraceCall, DebugCall, InfoCall or LogAccess and return as these return it tells the message of each function, the outermost first, and then the cause; each event logged on the way tells what happened below; without a failure nil is returned; and the cause can still be recognised by comparing.", "quantifier": "all chains of functions, all messages, all other log calls and level changes of the functions, all behaviours of handlers", "why_tests_cant": "Depth of the calls, levels, caches and panicking handlers vary without bound; tests use one call at a time.", "anchors": ["countlog/countlog.go: TraceCall, DebugCall, InfoCall, log", "countlog/context.go: TraceCall, DebugCall, InfoCall, LogAccess", "examples/error_logging/main.go: doZ"]}
{"id": "C169", "title": "Registered formats are used as written", "statement": "A format that a program adds to msgfmt.Formats is asked, for each placeholder {name, format, arguments}, with that name and those arguments without the white space around them; its text stands in place of the placeholder; an error or panic of the format is shown in the message, as is a format that is not registered; and a format is used from when it is registered.", "quantifier": "all sets of registered formats, whatever they do, all well-formed messages and all arguments", "why_tests_cant": "Any program can register any format; tests know goTime only.", "anchors": ["msgfmt/custom.go: Formats, Format, newFuncFormatter", "msgfmt/parse.go: commaToken, funcNameToken, formatterLexer", "msgfmt/formatter.go: compile", "msgfmt/msgfmt.go: FormatterOf"]}
{"id": "C170", "title": "A number that is not there is reported", "statement": "When the input does not go on with a number, read.Uint64, Int32, Int64 and Int report an error and consume nothing, at the end of the input too.", "quantifier": "all inputs and positions, all ways of cutting the input into chunks, both sizes of int", "why_tests_cant": "Tests read numbers that are there; what comes instead of one can be anything, cut anywhere.", "anchors": ["parse/read/int.go: Uint64, Int32, Int64, Int", "parse/parse.go: Source.Peek, Source.ConsumeN"]}
{"id": "C171", "title": "The safe configuration does what the unsafe one does to single variables", "statement": "Set, IsNil and Indirect of a type give the same with ConfigSafe and with ConfigUnsafe, panic for the same arguments, and what Indirect gave stays what it was when the variable is changed later.", "quantifier": "all types to any depth, all memories, all arguments", "why_tests_cant": "The two implementations share no code, and where they differ depends on the shape of the type and on what the variable holds; tests call each with a few types and proper arguments.", "anchors": ["reflect2/safe_type.go: safeType.Set, safeType.IsNil, safeType.Indirect", "reflect2/unsafe_type.go: unsafeType.Set, unsafeType.IsNil, unsafeType.Indirect", "reflect2/unsafe_eface.go: UnsafeEFaceType.UnsafeIsNil"]}
{"id": "C172", "title": "Closing leaves the caller's list of properties alone", "statement": "A slice of properties handed to plz.Close or plz.CloseAll (properties...) and the array it lies in are the same after the call as before, and events logged by one call are not changed by the next.", "quantifier": "all slices with any capacity and contents of the array, all patterns of failures", "why_tests_cant": "Whether anything changes depends on the capacity of the slice and on the number of failures; tests list the properties in the call.", "anchors": ["closer.go: Close, CloseAll"]}
{"id": "C173", "title": "Appending to Formatters leaves other Formatters alone", "statement": "f.Append(x) formats as f does and then as x, however many other values are made from f or from it, before or afterwards, and f itself goes on formatting as before.", "quantifier": "all programs of Appends to the values made so far, all formatters, all growth policies of the runtime", "why_tests_cant": "Whether two values share an array depends on how the capacities came about and in which order values were made.", "anchors": ["msgfmt/formatter.go: Formatters, Formatters.Append, Formatters.Format"]}
