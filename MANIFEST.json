{
 "claims": [
  {
   "property": "C01",
   "status": "partial",
   "theorems": [
    "Verif.Parse.chunking_irrelevant_partial",
    "Verif.Parse.data_with_eof_lost",
    "Verif.Parse.eof_not_recorded"
   ],
   "note": "All sequences of 15 operations inside the input, all ways of cutting it into non-empty reads; false for readers returning data together with EOF (data_with_eof_lost) and for the recorded error after look-ahead past the end (eof_not_recorded)."
  },
  {
   "property": "C02",
   "status": "proved",
   "theorems": [
    "Verif.Parse.peekN_pure",
    "Verif.Parse.peekN_pure_string"
   ],
   "note": "Every reader whose error comes last (empty reads and data with the error included), every sequence of look-aheads of any length and consumptions within the input."
  },
  {
   "property": "C03",
   "status": "proved",
   "theorems": [
    "Verif.Parse.peekRune_exact",
    "Verif.Parse.peekRune_keeps"
   ],
   "note": "Every reachable source, against RFC 3629 encoding."
  },
  {
   "property": "C04",
   "status": "proved",
   "theorems": [
    "Verif.Parse.readUint64_exact"
   ],
   "note": "Every reachable source and chunking."
  },
  {
   "property": "C05",
   "status": "partial",
   "theorems": [
    "Verif.Parse.readUint64_overflow_partial",
    "Verif.Parse.overflow_undetected"
   ],
   "note": "Exact region of detection; outside it (overflow_undetected) the number is silently reduced modulo 2^64."
  },
  {
   "property": "C06",
   "status": "partial",
   "theorems": [
    "Verif.Parse.readInt64_exact",
    "Verif.Parse.readInt64_overflow_partial",
    "Verif.Parse.readInt64_overflow_lost",
    "Verif.Parse.readInt32_exact",
    "Verif.Parse.readInt32_overflow_partial",
    "Verif.Parse.readInt_exact",
    "Verif.Parse.readInt_overflow_partial"
   ],
   "note": "In range exact; out of range reported only if a byte follows the number (at the end of the input only EOF is recorded: readInt64_overflow_lost)."
  },
  {
   "property": "C07",
   "status": "proved",
   "theorems": [
    "Verif.Parse.anyExcept1_exact",
    "Verif.Parse.anyExcept2_exact",
    "Verif.Parse.skipSpace_exact"
   ],
   "note": ""
  },
  {
   "property": "C08",
   "status": "partial",
   "theorems": [
    "Verif.Parse.unicodeRange_partial",
    "Verif.Parse.longestRun_unique",
    "Verif.Parse.skipUnicodeSpace_exact",
    "Verif.Parse.unicodeRange_hangs",
    "Verif.Parse.unicodeRanges_no_includes",
    "Verif.Parse.unicodeRanges_one",
    "Verif.Parse.unicodeRanges_twice"
   ],
   "note": "UnicodeRange exact for classes without U+FFFD (hangs otherwise at the end); UnicodeRanges with includes reads one rune only or duplicates it."
  },
  {
   "property": "C09",
   "status": "proved",
   "theorems": [
    "Verif.Parse.expr_value",
    "Verif.Parse.expr_string",
    "Verif.Parse.expr_dangling_panics"
   ],
   "note": "Every expression of the grammar, every chunking, every following byte that is no digit or operator. A dangling operator panics."
  },
  {
   "property": "C10",
   "status": "partial",
   "theorems": [
    "Verif.Parse.consumeN_partial",
    "Verif.Parse.consumeN_past_end_hangs",
    "Verif.Parse.consumeLoop_bound"
   ],
   "note": "Inside the input exact; past the end it never returns, for any fuel."
  },
  {
   "property": "C11",
   "status": "proved",
   "theorems": [
    "Verif.Parse.first_error_kept",
    "Verif.Parse.first_error_recorded",
    "Verif.Parse.readers_stop_on_error"
   ],
   "note": "All operations, all readers, all states."
  },
  {
   "property": "C12",
   "status": "partial",
   "theorems": [
    "Verif.Jsonfmt.writeUint8_exact",
    "Verif.Jsonfmt.writeUint16_exact",
    "Verif.Jsonfmt.writeInt8_exact",
    "Verif.Jsonfmt.writeInt16_exact",
    "Verif.Jsonfmt.writeInt64_exact",
    "Verif.Jsonfmt.writeUint64_exact_partial",
    "Verif.Jsonfmt.writeUint64_wrong",
    "Verif.Jsonfmt.canonicalDecimal_inj"
   ],
   "note": "Proved for all values of every type except uint64/uint/uintptr values of 10^19 and more, where the code is wrong (writeUint64_wrong proves the output is never the decimal text)."
  },
  {
   "property": "C13",
   "status": "partial",
   "theorems": [
    "Verif.Jsonfmt.writeUint32_exact_partial",
    "Verif.Jsonfmt.writeInt32_exact_partial",
    "Verif.Jsonfmt.writeUint32_wrong",
    "Verif.Jsonfmt.writeInt32_wrong"
   ],
   "note": "Holds exactly for magnitudes below 10^9; for all larger values the code drops the last six digits (writeUint32_wrong, writeInt32_wrong)."
  },
  {
   "property": "C14",
   "status": "partial",
   "theorems": [
    "Verif.Jsonfmt.writeString_roundtrip_partial",
    "Verif.Jsonfmt.writeString_loses_last",
    "Verif.Jsonfmt.writeString_roundtrip_false",
    "Verif.Jsonfmt.writeString_appends"
   ],
   "note": "Round trip for every string except those whose only byte needing an escape is the last one; there the code drops that byte (writeString_loses_last)."
  },
  {
   "property": "C15",
   "status": "proved",
   "theorems": [
    "Verif.Jsonfmt.writeString_contained",
    "Verif.Jsonfmt.writeBytes_contained"
   ],
   "note": "For every string/byte slice and every following text an RFC 8259 string parser consumes exactly the emitted text."
  },
  {
   "property": "C16",
   "status": "partial",
   "theorems": [
    "Verif.Jsonfmt.writeBytes_roundtrip_partial",
    "Verif.Jsonfmt.writeBytes_drops",
    "Verif.Jsonfmt.writeBytes_ambiguous"
   ],
   "note": "Holds without backslashes and outside two byte-dropping patterns; false in both patterns (writeBytes_drops) and ambiguous with backslashes (writeBytes_ambiguous)."
  },
  {
   "property": "C17",
   "status": "partial",
   "theorems": [
    "Verif.Jsonfmt.marshal_parses_partial",
    "Verif.Jsonfmt.unsupported_field_invalid",
    "Verif.Jsonfmt.tag_quote_invalid"
   ],
   "note": "Every finite nesting of every supported type parses to exactly the expected tree when the leaves are in the regions where the scalar writers are right and names are plain; errors and values with MarshalJSON inside are covered (plain messages, compact output); negations for unsupported field types and quotes in tag names."
  },
  {
   "property": "C18",
   "status": "partial",
   "theorems": [
    "Verif.Jsonfmt.struct_fields_exact_partial",
    "Verif.Jsonfmt.unexported_latin1_emitted",
    "Verif.Jsonfmt.outside_ascii_shown"
   ],
   "note": "Exact for all field lists with names starting with an ASCII byte; false for unexported names starting with a lower case Latin-1 letter."
  },
  {
   "property": "C19",
   "status": "partial",
   "theorems": [
    "Verif.Jsonfmt.writeLossyTail_exact",
    "Verif.Jsonfmt.round53_ieee",
    "Verif.Jsonfmt.lossyLval_error",
    "Verif.Jsonfmt.writeFloatLossy_exact_partial",
    "Verif.Jsonfmt.lossy_tie_wrong"
   ],
   "note": "Printed text is exact for the scaled integer and the integer is within the proved error; round-half ties can go the wrong way (lossy_tie_wrong). IEEE multiplication is modelled by exact rounding of m*2^k."
  },
  {
   "property": "C20",
   "status": "partial",
   "theorems": [
    "Verif.Msgfmt.sprintf_literal_partial",
    "Verif.Msgfmt.sprintf_template_partial",
    "Verif.Msgfmt.sprintf_empty_panics"
   ],
   "note": "Every non-empty brace-free format with any arguments, and every well-formed template; the empty format panics. Calls answered from the cache: see C23."
  },
  {
   "property": "C21",
   "status": "partial",
   "theorems": [
    "Verif.Msgfmt.sprintf_template_partial",
    "Verif.Msgfmt.cache_by_position",
    "Verif.Msgfmt.name_chars",
    "Verif.Msgfmt.layout_trimmed",
    "Verif.Msgfmt.wide_space_named"
   ],
   "note": "Every well-formed template (any number of placeholders, white space, goTime functions) and arguments, in a process that has not used the format before; a cached formatter picks arguments by position (cache_by_position). White space before names and functions is any Unicode white space. Full statement is false: no-break and other wide spaces after a name are taken as part of it, so the format panics though the argument is there (wide_space_named)."
  },
  {
   "property": "C22",
   "status": "partial",
   "theorems": [
    "Verif.Msgfmt.sprintf_template_partial",
    "Verif.Msgfmt.sprintf_literal_partial",
    "Verif.Msgfmt.badFunc_first_partial",
    "Verif.Msgfmt.unterminated_hangs",
    "Verif.Msgfmt.unterminated_space_panics",
    "Verif.Msgfmt.missing_panics",
    "Verif.Msgfmt.badFunc_later_panics",
    "Verif.Msgfmt.select_panics",
    "Verif.Msgfmt.sprintf_empty_panics",
    "Verif.Msgfmt.dangling_first"
   ],
   "note": "Holds for well-formed templates and a failing function in first place; false (hang or panic, after any printable template) in the other cases named."
  },
  {
   "property": "C23",
   "status": "partial",
   "theorems": [
    "Verif.Msgfmt.cache_transparent_partial",
    "Verif.Msgfmt.cache_by_position",
    "Verif.Msgfmt.cache_by_type"
   ],
   "note": "Every history in which calls with the same format have the same names, order and types; false otherwise."
  },
  {
   "property": "C24",
   "status": "partial",
   "theorems": [
    "Verif.Jsonfmt.msgWriteBytes_roundtrip_partial",
    "Verif.Jsonfmt.msgWriteBytes_injective_partial",
    "Verif.Jsonfmt.msgWriteBytes_drops",
    "Verif.Jsonfmt.msgWriteBytes_ambiguous"
   ],
   "note": "Holds exactly outside the two byte-dropping patterns; false inside them."
  },
  {
   "property": "C25",
   "status": "partial",
   "theorems": [
    "Verif.Countlog.delivered_iff_partial",
    "Verif.Countlog.entry_iff",
    "Verif.Countlog.shouldLog_iff",
    "Verif.Countlog.aggregated_info_not_written",
    "Verif.Countlog.aggregated_warn_not_written"
   ],
   "note": "Every history of settings, calls and panics, for events that are not aggregated (exactly one write, or nothing). Aggregated events are filtered five levels higher: false."
  },
  {
   "property": "C26",
   "status": "partial",
   "theorems": [
    "Verif.Countlog.call_result_partial",
    "Verif.Countlog.delivered_iff_partial",
    "Verif.Countlog.failed_call_not_written",
    "Verif.Countlog.message_panics"
   ],
   "note": "Result exact for every call that returns; delivery of failures for events that are not aggregated. With the default aggregator failures are not written at minimum level Warn; a message format that panics escapes."
  },
  {
   "property": "C27",
   "status": "partial",
   "theorems": [
    "Verif.Countlog.no_panic_escapes_partial",
    "Verif.Countlog.later_events_handled",
    "Verif.Countlog.panicking_event_written",
    "Verif.Countlog.never_lost_silently",
    "Verif.Countlog.handler_creation_panics",
    "Verif.Countlog.message_panics"
   ],
   "note": "Every history and every pattern of panics in handlers, as long as the sinks can be asked for handlers and the message of a failed call can be formatted; false otherwise."
  },
  {
   "property": "C28",
   "status": "proved",
   "theorems": [
    "Verif.Stats.conservation",
    "Verif.Stats.conservation_quiescent",
    "Verif.Stats.run_ok",
    "Verif.Stats.All.conservation_all",
    "Verif.Stats.All.export_collects_all"
   ],
   "note": "Every interleaving of step-by-step counting and exporting goroutines on the 16 locked shards; counters as unbounded naturals."
  },
  {
   "property": "C29",
   "status": "partial",
   "theorems": [
    "Verif.Stats.same_counter_iff_partial",
    "Verif.Stats.splitComma_spec",
    "Verif.Stats.reported_dimension_partial",
    "Verif.Stats.other_layout_shares_counter",
    "Verif.Stats.dimension_not_string_panics",
    "Verif.Stats.odd_panics",
    "Verif.Stats.odd_ignored"
   ],
   "note": "Holds for events with the property names of the site sample in the same order and string dimensions; other layouts are keyed by position, other values panic."
  },
  {
   "property": "C30",
   "status": "partial",
   "theorems": [
    "Verif.Stats.first_export_partial",
    "Verif.Stats.never_exported_again"
   ],
   "note": "Only the first interval is exported: the timer is never reset."
  },
  {
   "property": "C31",
   "status": "proved",
   "theorems": [
    "Verif.Lumberjack.live_within_limit",
    "Verif.Lumberjack.too_large_rejected",
    "Verif.Lumberjack.written_within_limit",
    "Verif.Lumberjack.limit_megabytes"
   ],
   "note": "Every sequence of Write, Rotate, Close and faults. Byte counts are unbounded integers (no wrap of the int64 size)."
  },
  {
   "property": "C32",
   "status": "partial",
   "theorems": [
    "Verif.Lumberjack.nothing_lost_partial",
    "Verif.Lumberjack.same_millisecond_loses",
    "Verif.Lumberjack.failing_stat_loses"
   ],
   "note": "Full statement is false: two rotations in the same millisecond overwrite a backup (same_millisecond_loses) and a failing Stat truncates the live file (failing_stat_loses). Proved when backup names do not collide and Stat does not fail."
  },
  {
   "property": "C33",
   "status": "partial",
   "theorems": [
    "Verif.Lumberjack.cleaned_exactly_partial",
    "Verif.Lumberjack.at_most_max_partial",
    "Verif.Lumberjack.one_each",
    "Verif.Lumberjack.others_untouched",
    "Verif.Lumberjack.live_untouched",
    "Verif.Lumberjack.huge_age_removes_all"
   ],
   "note": "Full statement is false for MaxAge above 106751 days, where the duration overflows and everything is removed (huge_age_removes_all). Proved for names the logger generated and an extension other than \".gz\". Removing and compressing are taken to succeed; failures are the subject of C148."
  },
  {
   "property": "C34",
   "status": "partial",
   "theorems": [
    "Verif.Lumberjack.backup_time_partial",
    "Verif.Lumberjack.gz_backup_time_partial",
    "Verif.Lumberjack.backup_names_only",
    "Verif.Lumberjack.live_not_backup",
    "Verif.Lumberjack.no_panic",
    "Verif.Lumberjack.overlap_panics",
    "Verif.Lumberjack.local_time_shifted",
    "Verif.Lumberjack.parse_stamp"
   ],
   "note": "Full statement is false: with LocalTime the parsed time is off by the zone offset (local_time_shifted), and a name shorter than prefix and extension together panics (overlap_panics). Proved for the default layout and years up to 9999."
  },
  {
   "property": "C35",
   "status": "proved",
   "theorems": [
    "Verif.Async.delivered_in_order",
    "Verif.Async.blocking_loses_nothing",
    "Verif.Async.nonblocking_accounts",
    "Verif.Async.dropped_only_when_full"
   ],
   "note": "Interleaving state machine with an explicit memory, so that buffer reuse is visible. Channel operations are atomic."
  },
  {
   "property": "C36",
   "status": "partial",
   "theorems": [
    "Verif.Async.close_flushes_partial",
    "Verif.Async.panic_loses"
   ],
   "note": "Full statement is false if the downstream writer panics: the worker ends and Close returns with messages still queued (panic_loses)."
  },
  {
   "property": "C37",
   "status": "proved",
   "theorems": [
    "Verif.Witch.events_accounted",
    "Verif.Witch.readers_accounted",
    "Verif.Witch.write_never_blocks",
    "Verif.Witch.reader_progress",
    "Verif.Witch.dropped_only_full"
   ],
   "note": "Loggers, pool, queue and readers as an interleaving state machine. The dropped count is exact modulo 2^64."
  },
  {
   "property": "C38",
   "status": "partial",
   "theorems": [
    "Verif.Witch.content_kept_partial",
    "Verif.Witch.recycled_buffer_overwrites",
    "Verif.Witch.recycled_texts"
   ],
   "note": "Full statement is false: the queue keeps the pooled buffer, which the next event overwrites (recycled_buffer_overwrites). Proved when the pool never hands out a buffer that is still queued."
  },
  {
   "property": "C39",
   "status": "proved",
   "theorems": [
    "Verif.Rotation.nothing_lost",
    "Verif.Rotation.same_name_loses",
    "Verif.Rotation.written_after_purge_lost"
   ],
   "note": "Writer and background goroutine interleave between system calls and status accesses; any call may fail; one goroutine writes. The two conditions are needed: same_name_loses, written_after_purge_lost."
  },
  {
   "property": "C40",
   "status": "partial",
   "theorems": [
    "Verif.Rotation.size_counted_partial",
    "Verif.Rotation.fresh_after_rotation_partial",
    "Verif.Rotation.size_trigger_never_archives",
    "Verif.Rotation.never_counted_again"
   ],
   "note": "Full statement is false: nothing is ever sent on archiveChan, so a size trigger never archives (size_trigger_never_archives), and after the first trigger the size is never counted again (never_counted_again). Proved: the trigger is raised exactly at the configured size, and after a rotation by the timer the next write starts a fresh file."
  },
  {
   "property": "C41",
   "status": "partial",
   "theorems": [
    "Verif.Rotation.keeps_newest_partial",
    "Verif.Rotation.purged_exactly_partial",
    "Verif.Rotation.negative_limit_panics"
   ],
   "note": "Proved for every limit of at least zero; a negative limit panics (negative_limit_panics)."
  },
  {
   "property": "C42",
   "status": "partial",
   "theorems": [
    "Verif.Rotation.wait_partial",
    "Verif.Rotation.actual_wait",
    "Verif.Rotation.before_epoch",
    "Verif.Rotation.after_2262",
    "Verif.Rotation.fraction_ignored"
   ],
   "note": "Full statement is false before 1970 (before_epoch), after 2262 (after_2262) and in the sub-second part of the end point (fraction_ignored). Proved for clock readings in between, counted from whole seconds."
  },
  {
   "property": "C43",
   "status": "proved",
   "theorems": [
    "Verif.Concurrent.wait_complete",
    "Verif.Concurrent.wait_blocks",
    "Verif.Concurrent.wait_returns",
    "Verif.Concurrent.cancelled_iff",
    "Verif.Concurrent.wait_polls"
   ],
   "note": "Executor as an interleaving state machine; LogPanic and LogInfo are assumed to return."
  },
  {
   "property": "C44",
   "status": "proved",
   "theorems": [
    "Verif.Concurrent.panics_reported",
    "Verif.Concurrent.finished_accounted"
   ],
   "note": "Executor as an interleaving state machine; LogPanic and LogInfo are assumed to return."
  },
  {
   "property": "C45",
   "status": "partial",
   "theorems": [
    "Verif.Gls.private_storage_partial",
    "Verif.Gls.get_after_set_partial",
    "Verif.Gls.two_runs_share"
   ],
   "note": "Full statement is false if a function made by WithGls runs on two goroutines at a time, which then share one map (two_runs_share). Proved for every interleaving in which no wrapped function is run twice and maps given to ResetGls are not shared."
  },
  {
   "property": "C46",
   "status": "partial",
   "theorems": [
    "Verif.Gls.inherits_partial",
    "Verif.Gls.parent_unaffected_partial",
    "Verif.Gls.gone_after",
    "Verif.Gls.second_run_sees_first"
   ],
   "note": "Full statement is false if a wrapped function is run again: the second run sees what the first set (second_run_sees_first). Proved for functions run once; the end of the storage is proved in general."
  },
  {
   "property": "C47",
   "status": "proved",
   "theorems": [
    "Verif.ConcMap.loads_latest",
    "Verif.ConcMap.no_race",
    "Verif.ConcMap.returns_effect"
   ],
   "note": "Lock based version (Go before 1.9) with any number of goroutines. From Go 1.9 on Map is sync.Map of the standard library, not modelled."
  },
  {
   "property": "C48",
   "status": "proved",
   "theorems": [
    "Verif.Closer.closes_all",
    "Verif.Closer.merge_exact",
    "Verif.Closer.close_exact"
   ],
   "note": "A failure is an error returned by Close; resources may change the world in any way. A Close that panics ends CloseAll, as any panic does."
  },
  {
   "property": "C49",
   "status": "partial",
   "theorems": [
    "Verif.Reflect2.appends_partial"
   ],
   "note": "Proved for capacities below 2^62; above, the computation of the new capacity may not end (huge_never_ends), which needs elements of size zero to happen."
  },
  {
   "property": "C50",
   "status": "partial",
   "theorems": [
    "Verif.Reflect2.new_cap_partial",
    "Verif.Reflect2.huge_never_ends"
   ],
   "note": "Full statement is false near 2^63: the capacity overflows to zero and the loop never ends (huge_never_ends). Proved for expected lengths up to 2^62."
  },
  {
   "property": "C51",
   "status": "proved",
   "theorems": [
    "Verif.Difflib.opcodes_correct"
   ],
   "note": "All pairs of sequences over any element type, with and without junk heuristics."
  },
  {
   "property": "C52",
   "status": "proved",
   "theorems": [
    "Verif.Difflib.matching_blocks"
   ],
   "note": "All pairs of sequences, with and without junk."
  },
  {
   "property": "C53",
   "status": "proved",
   "theorems": [
    "Verif.Difflib.longest_match",
    "Verif.Difflib.findLongestMatch_sound"
   ],
   "note": "Longest and earliest, for inputs without junk; soundness for all inputs."
  },
  {
   "property": "C54",
   "status": "proved",
   "theorems": [
    "Verif.Difflib.ratios_ordered",
    "Verif.Difflib.self_ratio"
   ],
   "note": "For every monotone rounding of the floating point division."
  },
  {
   "property": "C55",
   "status": "partial",
   "theorems": [
    "Verif.Difflib.grouped_opcodes_partial",
    "Verif.Difflib.grouped_opcodes",
    "Verif.Difflib.grouped_apply",
    "Verif.Difflib.huge_context"
   ],
   "note": "All sequences and all context sizes below 2^62; above, sums overflow and positions become negative (huge_context)."
  },
  {
   "property": "C56",
   "status": "partial",
   "theorems": [
    "Verif.Difflib.queries_agree_partial",
    "Verif.Difflib.grouped_changes_codes",
    "Verif.Difflib.grouped_changes_grouped",
    "Verif.Difflib.new_replies"
   ],
   "note": "False as stated: GetGroupedOpCodes truncates the cached opcodes in place. Proved for every history and every query the truncation does not reach."
  },
  {
   "property": "C57",
   "status": "partial",
   "theorems": [
    "Verif.Difflib.unified_diff_partial",
    "Verif.Difflib.text_diff_partial",
    "Verif.Difflib.unified_diff_empty",
    "Verif.Difflib.percent_not_verbatim",
    "Verif.Difflib.percent_doubled",
    "Verif.Difflib.diff_headers",
    "Verif.Difflib.percent_missing",
    "Verif.Difflib.percent_last"
   ],
   "note": "Round trip through an independent patch reader for lines without percent signs; lines with percent signs are used as format strings and changed."
  },
  {
   "property": "C58",
   "status": "proved",
   "theorems": [
    "Verif.Difflib.split_lines"
   ],
   "note": "All texts."
  },
  {
   "property": "C59",
   "status": "partial",
   "theorems": [
    "Verif.JsonEqual.accepts_matching_partial",
    "Verif.JsonEqual.accepts_same_partial",
    "Verif.JsonEqual.accepted_matches",
    "Verif.JsonEqual.should_accepts_partial",
    "Verif.JsonEqual.null_panics",
    "Verif.JsonEqual.shorter_panics",
    "Verif.JsonEqual.array_placeholder",
    "Verif.JsonEqual.missing_is_anything",
    "Verif.JsonEqual.value_never_accepted",
    "Verif.JsonEqual.text_compared",
    "Verif.JsonEqual.models_agree"
   ],
   "note": "Full statement is false: any null in the template is a panic (null_panics), placeholders in arrays are taken literally (array_placeholder), a missing member is accepted for {ANYTHING} (missing_is_anything), and actual values that are neither strings nor bytes are never accepted (value_never_accepted). Proved for templates without nulls and without placeholders as keys; placeholders as keys are the subject of C124."
  },
  {
   "property": "C60",
   "status": "proved",
   "theorems": [
    "Verif.Report.report",
    "Verif.Report.out_of_range",
    "Verif.Report.split_lines"
   ],
   "note": "Parentheses are counted as bytes, also those in strings and comments, which is what the statement says. bytes.TrimSpace is a parameter."
  },
  {
   "property": "C61",
   "status": "partial",
   "theorems": [
    "Verif.Dump.complete_partial",
    "Verif.Dump.recursive_type_never_ends",
    "Verif.Dump.nil_has_no_entry",
    "Verif.Dump.nil_pointer_panics",
    "Verif.Dump.pointer_to_pointer"
   ],
   "note": "Full statement is false: types that refer to themselves are never dumped (recursive_type_never_ends), and nil references have no entry (nil_has_no_entry). Proved for every dump that ends; for maps see C118."
  },
  {
   "property": "C62",
   "status": "partial",
   "theorems": [
    "Verif.Witch.body_array_partial",
    "Verif.Witch.body_never_json",
    "Verif.Spec.parse_sound"
   ],
   "note": "Full statement is false for every batch: an extra \"[\" is written first (body_never_json). Proved: without that byte the body is the JSON array of the events. The output of the json-iterator stream (an external library) is taken as documented."
  },
  {
   "property": "C63",
   "status": "partial",
   "theorems": [
    "Verif.Jsonfmt.unsupported_top_partial",
    "Verif.Jsonfmt.unsupported_field_invalid"
   ],
   "note": "The marker is valid JSON outside structs for plain type names; inside structs it is not valid JSON."
  },
  {
   "property": "C64",
   "status": "partial",
   "theorems": [
    "Verif.Jsonfmt.error_value_partial",
    "Verif.Jsonfmt.error_value_invalid",
    "Verif.Jsonfmt.marshal_parses_partial"
   ],
   "note": "Valid, also inside other values (marshal_parses_partial), for error texts without quote, backslash and control bytes; false otherwise."
  },
  {
   "property": "C65",
   "status": "partial",
   "theorems": [
    "Verif.Jsonfmt.RecType.encoderOf_returns_iff_partial",
    "Verif.Jsonfmt.RecType.recursive_type_never_returns"
   ],
   "note": "Construction returns iff the shown parts of the type are well-founded; for recursive types it never returns."
  },
  {
   "property": "C66",
   "status": "partial",
   "theorems": [
    "Verif.Jsonfmt.config_shows_all_partial",
    "Verif.Jsonfmt.config_lost_below_interface"
   ],
   "note": "Every struct encoder built with IncludesUnexported shows all fields; inside interface values the configuration is lost (witness)."
  },
  {
   "property": "C67",
   "status": "partial",
   "theorems": [
    "Verif.Msgfmt.fprintln_first_partial",
    "Verif.Msgfmt.fprintln_nothing_to_stdout",
    "Verif.Msgfmt.fprintln_type_change_panics"
   ],
   "note": "First line of a process with at least one value; false without values and after a line with another type."
  },
  {
   "property": "C68",
   "status": "partial",
   "theorems": [
    "Verif.Countlog.level_never_shown",
    "Verif.Countlog.compact_levels_distinct",
    "Verif.Countlog.compact_level_names",
    "Verif.Countlog.compact_line_partial",
    "Verif.Countlog.compact_level_unknown"
   ],
   "note": "False for the human readable format at every level; holds for the compact format."
  },
  {
   "property": "C69",
   "status": "partial",
   "theorems": [
    "Verif.Countlog.json_line_invalid",
    "Verif.Countlog.json_props_partial"
   ],
   "note": "False for every event: timestamp and location are written without quotes. The part before them is a valid object of the event and all properties in order."
  },
  {
   "property": "C70",
   "status": "partial",
   "theorems": [
    "Verif.Countlog.written_once_partial",
    "Verif.Countlog.delivered_iff_partial",
    "Verif.Countlog.written_twice"
   ],
   "note": "At most once when no stats handler panics, exactly once when nothing panics; twice when the stats handler panics after the write."
  },
  {
   "property": "C71",
   "status": "partial",
   "theorems": [
    "Verif.Countlog.delivered_iff_partial",
    "Verif.Countlog.step_inv",
    "Verif.Countlog.handled_as_other_event",
    "Verif.Countlog.Together.together_own_handlers_partial"
   ],
   "note": "Handlers cached by event name belong to that event (invariant); after panics handlers are cached by place only, so events sharing a place are mixed up."
  },
  {
   "property": "C72",
   "status": "partial",
   "theorems": [
    "Verif.Countlog.compact_line_partial",
    "Verif.Countlog.hrf_line_partial",
    "Verif.Countlog.values_exchanged"
   ],
   "note": "Both text formats, any template message and properties with distinct names that can stand in placeholders, unless a format of the line was cached for other properties; then values are exchanged. The human readable format with the properties of the context and with timers; the text of a duration is a parameter."
  },
  {
   "property": "C73",
   "status": "partial",
   "theorems": [
    "Verif.Stats.panic_blocks_shard",
    "Verif.Stats.panic_blocks_reachable",
    "Verif.Stats.lock_owner_inside_partial"
   ],
   "note": "False: a panic in Handle leaves the shard locked for ever; without such events every held lock is held by a goroutine inside its critical section."
  },
  {
   "property": "C74",
   "status": "proved",
   "theorems": [
    "Verif.Stats.export_complete"
   ],
   "note": "Every interleaving, every key; collector calls do not panic."
  },
  {
   "property": "C75",
   "status": "partial",
   "theorems": [
    "Verif.Closer.logged_each_partial",
    "Verif.Closer.logged_errors_pile_up",
    "Verif.Closer.logged_none",
    "Verif.CloserArgs.closeAll_events"
   ],
   "note": "Full statement is false: each event also carries the errors of the failures before it (logged_errors_pile_up). Proved: one event per failure, in order, whose last error is its own."
  },
  {
   "property": "C76",
   "status": "partial",
   "theorems": [
    "Verif.Reflect2.grows_partial",
    "Verif.Reflect2.set_element",
    "Verif.Reflect2.grow_shows_stale",
    "Verif.Reflect2.grow_cuts",
    "Verif.Reflect2.index_unchecked"
   ],
   "note": "Full statement is false: within the capacity the added elements are stale (grow_shows_stale), a smaller length cuts off elements (grow_cuts) and indexes are not checked (index_unchecked). Proved when a new array is made, and for indexes within the slice."
  },
  {
   "property": "C77",
   "status": "partial",
   "theorems": [
    "Verif.Dump.shows_memory_partial",
    "Verif.Dump.shown_length",
    "Verif.Dump.shared_slices_lose_elements",
    "Verif.Dump.pointer_to_pointer"
   ],
   "note": "Full statement is false for slices that share their start, of which one entry is lost (shared_slices_lose_elements), and for pointers to pointers (pointer_to_pointer). Proved for types without pointers and maps."
  },
  {
   "property": "C78",
   "status": "partial",
   "theorems": [
    "Verif.Countlog.hrf_line_partial",
    "Verif.Countlog.context_added_later",
    "Verif.Countlog.context_not_shown",
    "Verif.Countlog.context_key_clash",
    "Verif.Countlog.context_missing_panics"
   ],
   "note": "Holds when the context has the same property names as at the first event of that name, distinct from the event's own. False otherwise: properties added later are not shown, nothing is shown if the first event had no context, an event without context panics after one with, and an own property named like one of the context shows a wrong value."
  },
  {
   "property": "C79",
   "status": "partial",
   "theorems": [
    "Verif.Countlog.printf_line_partial",
    "Verif.Countlog.printf_message_lost",
    "Verif.Countlog.printf_message_cut",
    "Verif.Countlog.printf_mark_shown"
   ],
   "note": "Every layout and message template, for messages of printable ASCII without backslash and bar and formats not cached for other arguments. False otherwise: the message is escaped, text between letters outside ASCII and a trailing line feed or bar are lost, and the mark event! is shown."
  },
  {
   "property": "C80",
   "status": "partial",
   "theorems": [
    "Verif.Reflect2.Types.indirect_partial",
    "Verif.Reflect2.Types.indirect_keeps_partial",
    "Verif.Reflect2.Types.indirect_checked",
    "Verif.Reflect2.Types.indirect_unsafe_pointer",
    "Verif.Reflect2.Types.indirect_follows"
   ],
   "note": "Full statement is false: for types that come down to a single unsafe.Pointer the result holds the address of the variable (indirect_unsafe_pointer), and for types not kept in the interface word itself the result changes with the variable (indirect_follows). Proved for all other types, and the second part for types kept in the word."
  },
  {
   "property": "C81",
   "status": "partial",
   "theorems": [
    "Verif.Reflect2.Types.isNil_partial",
    "Verif.Reflect2.Types.isNil_argument",
    "Verif.Reflect2.Types.isNil_typed_nil",
    "Verif.Reflect2.Types.isNil_unsafe_pointer",
    "Verif.Reflect2.Types.isNilAny_partial",
    "Verif.Reflect2.Types.isNilAny_slice"
   ],
   "note": "Full statement is false for an interface{} variable holding a nil pointer (isNil_typed_nil), for unsafe.Pointer (isNil_unsafe_pointer) and for reflect2.IsNil of a nil slice (isNilAny_slice). Proved for all other types."
  },
  {
   "property": "C82",
   "status": "partial",
   "theorems": [
    "Verif.Reflect2.Types.field_set_partial",
    "Verif.Reflect2.Types.field_set_checked",
    "Verif.Reflect2.Types.field_type",
    "Verif.Reflect2.Types.promoted_off",
    "Verif.Reflect2.Types.promoted_ptr",
    "Verif.Reflect2.Types.promoted_set_wrong"
   ],
   "note": "Full statement is false for fields of embedded structs: the offset is that within the embedded struct (promoted_off, promoted_set_wrong), and embedded pointers are not followed (promoted_ptr). Proved for the fields of the struct itself. No padding between fields in the model."
  },
  {
   "property": "C83",
   "status": "partial",
   "theorems": [
    "Verif.Reflect2.Types.array_set_partial",
    "Verif.Reflect2.Types.array_out_of_range",
    "Verif.Reflect2.Types.array_negative_index",
    "Verif.Reflect2.Types.array_index_wraps"
   ],
   "note": "Full statement is false: indexes are not checked (array_out_of_range, array_negative_index). Proved for indexes within the array."
  },
  {
   "property": "C84",
   "status": "partial",
   "theorems": [
    "Verif.Reflect2.Maps.setIndex_content",
    "Verif.Reflect2.Maps.getIndex_content",
    "Verif.Reflect2.Maps.run_content",
    "Verif.Reflect2.Maps.iterate_content",
    "Verif.Reflect2.Maps.map_checked",
    "Verif.Reflect2.Maps.safeGetIndex_content",
    "Verif.Reflect2.Maps.safeTryGetIndex_panics",
    "Verif.Reflect2.Maps.getIndex_follows"
   ],
   "note": "Full statement is false of the safe implementation, whose TryGetIndex panics on everything the unsafe one takes (safeTryGetIndex_panics). Proved in full for the unsafe implementation; its GetIndex points into the map (getIndex_follows) where the safe one copies. Growing maps moving their elements is not modelled, nor is the safe iterator."
  },
  {
   "property": "C85",
   "status": "partial",
   "theorems": [
    "Verif.Reflect2.Cache.typeOf_describes",
    "Verif.Reflect2.Cache.typeOf_same_partial",
    "Verif.Reflect2.Cache.typeOf_alone_partial",
    "Verif.Reflect2.Cache.different_objects"
   ],
   "note": "Full statement is false: goroutines asking for a new type at the same time get different objects (different_objects). Proved: the object describes the type in all interleavings, later calls agree with each other, and with the first if that ran alone."
  },
  {
   "property": "C86",
   "status": "partial",
   "theorems": [
    "Verif.Difflib.context_diff_partial",
    "Verif.Difflib.context_diff_empty",
    "Verif.Difflib.diff_headers",
    "Verif.Difflib.context_percent",
    "Verif.Difflib.empty_eol"
   ],
   "note": "Full statement is false for lines with percent signs, which are used as formats (context_percent), and for an empty Eol, which means a line feed although the comments at 551-552 and 660-661 say otherwise (empty_eol). Proved for all other lines, headers and context sizes, against a reader that checks every line, mark and number."
  },
  {
   "property": "C87",
   "status": "partial",
   "theorems": [
    "Verif.Assert.objects_deep",
    "Verif.Assert.objects_iff",
    "Verif.Assert.equal_partial",
    "Verif.Assert.notEqual_iff",
    "Verif.Assert.equal_symm",
    "Verif.Assert.equal_trans",
    "Verif.Assert.exactly_equal",
    "Verif.Assert.equal_nan",
    "Verif.Assert.equal_shared_function"
   ],
   "note": "Full statement is false of NaN, which is not equal to itself (equal_nan), and of functions, which always fail (equal_shared_function, as documented). Proved for all other values that are trees of one memory."
  },
  {
   "property": "C88",
   "status": "partial",
   "theorems": [
    "Verif.Assert.equalValues_int",
    "Verif.Assert.equalValues_partial",
    "Verif.Assert.equalValues_cut",
    "Verif.Assert.equalValues_rune",
    "Verif.Assert.equalValues_runes",
    "Verif.Assert.equalValues_equal",
    "Verif.Assert.equalValues_nil"
   ],
   "note": "Full statement is false: expected is converted to the type of actual, so that uint32 300 equals uint8 44 (equalValues_cut) and the number 65 equals the string A (equalValues_rune). Proved: what the answer is for all integers (equalValues_int), and the property if the expected number fits the type of actual. Conversions other than from integers are a parameter."
  },
  {
   "property": "C89",
   "status": "partial",
   "theorems": [
    "Verif.Assert.contains_list_partial",
    "Verif.Assert.contains_map_partial",
    "Verif.Assert.contains_string",
    "Verif.Assert.contains_string_other",
    "Verif.Assert.subset_partial",
    "Verif.Assert.elementsMatch_partial",
    "Verif.Assert.elementsMatch_nil",
    "Verif.Assert.elementsMatch_empty",
    "Verif.Assert.contains_string_value"
   ],
   "note": "Full statement is false: something that is not a string is looked for in a string as text like <int Value> (contains_string_other); ElementsMatch panics on nil beside a list that is not empty (elementsMatch_nil) and accepts 0 and the empty string as matching lists (elementsMatch_empty). Proved for all lists, maps and strings of values without NaN and functions."
  },
  {
   "property": "C90",
   "status": "partial",
   "theorems": [
    "Verif.Assert.reported_partial",
    "Verif.Assert.subset_reported_partial",
    "Verif.Assert.subset_silent",
    "Verif.Assert.message_not_string",
    "Verif.Simple.reported_simple"
   ],
   "note": "Full statement is false: Subset and NotSubset with a nil list return false and report nothing (subset_silent), and so does Subset with a message that is not a string, which makes the other assertions panic (message_not_string). Proved for all other arguments. ElementsMatch is in C89, the assertions about numbers and panics in C92 to C96."
  },
  {
   "property": "C91",
   "status": "partial",
   "theorems": [
    "Verif.Assert.nil_partial",
    "Verif.Assert.nil_unsafe_pointer",
    "Verif.Assert.len_iff",
    "Verif.Assert.empty_len",
    "Verif.Assert.empty_ptr",
    "Verif.Assert.empty_other",
    "Verif.Assert.zero_iff",
    "Verif.Assert.empty_not"
   ],
   "note": "Full statement is false of nil unsafe pointers, which count as not nil (nil_unsafe_pointer). Everything else is proved."
  },
  {
   "property": "C92",
   "status": "partial",
   "theorems": [
    "Verif.Assert.inDelta_partial",
    "Verif.Assert.inDelta_int",
    "Verif.Assert.inDelta_symm",
    "Verif.Assert.inDelta_nan",
    "Verif.Assert.inDelta_inf",
    "Verif.Assert.inDelta_large",
    "Verif.Assert.inDelta_nan_delta",
    "Verif.Assert.inDelta_uint"
   ],
   "note": "Full statement is false of integers above 2^53, which are rounded (inDelta_large), of uint, uintptr and named types, which are rejected (inDelta_uint), and of a delta that is NaN, which accepts everything (inDelta_nan_delta). Proved with IEEE 754 rounding, as defined in Verif/Assert/Float.lean, for all numbers a float64 can hold: exact if the difference is not rounded, for example for all integers up to 2^52, and up to its rounding otherwise."
  },
  {
   "property": "C93",
   "status": "partial",
   "theorems": [
    "Verif.Assert.inDeltaSlice_partial",
    "Verif.Assert.inDeltaSlice_longer",
    "Verif.Assert.inDeltaSlice_shorter",
    "Verif.Assert.inDeltaMap_iff",
    "Verif.Assert.inDeltaMap_keys"
   ],
   "note": "Full statement is false of slices of different lengths: a longer expected slice is accepted (inDeltaSlice_longer), a shorter one makes the assertion panic (inDeltaSlice_shorter), as do maps with keys of different types (inDeltaMap_keys). Proved for slices of the same length and for all maps with keys of the same type."
  },
  {
   "property": "C94",
   "status": "partial",
   "theorems": [
    "Verif.Assert.inEpsilon_partial",
    "Verif.Assert.inEpsilonSlice_swapped",
    "Verif.Assert.inEpsilon_nan",
    "Verif.Assert.inEpsilon_zero",
    "Verif.Assert.inEpsilonSlice_partial",
    "Verif.Assert.inEpsilonSlice_nil",
    "Verif.Assert.inEpsilon_inf"
   ],
   "note": "Full statement is false: InEpsilonSlice takes the error relative to the actual element (inEpsilonSlice_swapped), NaN is within any epsilon of everything (inEpsilon_nan), and zero is rejected even if found (inEpsilon_zero). Proved for numbers whose difference a float64 can hold, up to the rounding of the quotient."
  },
  {
   "property": "C95",
   "status": "partial",
   "theorems": [
    "Verif.Assert.within_partial",
    "Verif.Assert.within_max",
    "Verif.Assert.within_min"
   ],
   "note": "Full statement is false of the largest duration, within which times any time apart are (within_max), and of the smallest, which is negative (within_min). Proved for all other durations and all times."
  },
  {
   "property": "C96",
   "status": "partial",
   "theorems": [
    "Verif.Assert.panics_partial",
    "Verif.Assert.panics_nil",
    "Verif.Assert.panicsWithValue_partial",
    "Verif.Assert.panicsWithValue_pointer",
    "Verif.Assert.panicsWithValue_slice",
    "Verif.Assert.errors_iff",
    "Verif.Assert.panicsWithValue_nil"
   ],
   "note": "Full statement is false of panic(nil), which counts as no panic (panics_nil), of slices, maps and functions, on which PanicsWithValue itself panics (panicsWithValue_slice), and of pointers, which must be identical (panicsWithValue_pointer). Proved for all other panics and for all errors."
  },
  {
   "property": "C97",
   "status": "partial",
   "theorems": [
    "Verif.Assert.report_partial",
    "Verif.Assert.report_long",
    "Verif.Assert.report_cr"
   ],
   "note": "Full statement is false: from a line of 65536 bytes on the text is missing (report_long), and so are carriage returns at the end of lines and a line feed at the end (report_cr). Proved for all other texts, against a reader of the table."
  },
  {
   "property": "C98",
   "status": "partial",
   "theorems": [
    "Verif.Check.currentT_partial",
    "Verif.Check.child_currentT_partial",
    "Verif.Check.case_partial",
    "Verif.Check.plain_goroutine_panics",
    "Verif.Check.inner_case_loses_t"
   ],
   "note": "Full statement is false: on a goroutine started with a plain go statement checks panic instead of reporting (plain_goroutine_panics), and after a case run inside another one on the same goroutine the outer one has no T any more (inner_case_loses_t). Proved: the test goroutine finds its T under all operations of others, and goroutines started with gls.WithGls do if no wrapped function is run twice."
  },
  {
   "property": "C99",
   "status": "partial",
   "theorems": [
    "Verif.Check.check_partial",
    "Verif.Check.must_ends_should_goes_on_partial",
    "Verif.Check.case_partial",
    "Verif.Check.odd_pairs",
    "Verif.Check.no_pairs_panics"
   ],
   "note": "Full statement is false of Pass and Assert with a key without value or a key that is not a string: they panic instead of failing the test (odd_pairs; must.Assert ignores its keys and values). Proved for all other checks, for arguments of Equal without NaN and functions (see C87) and of Nil other than nil unsafe pointers (see C91). Equal calls the original stretchr package, which is modelled by its copy in this repository."
  },
  {
   "property": "C100",
   "status": "partial",
   "theorems": [
    "Verif.Check.panic_partial",
    "Verif.Check.case_partial",
    "Verif.Check.panic_with_nil"
   ],
   "note": "Full statement is false of functions that panic with a nil pointer or other typed nil: the test fails as if there were no panic (panic_with_nil). Proved for all other functions, with checks, skips and Panic inside to any depth."
  },
  {
   "property": "C101",
   "status": "partial",
   "theorems": [
    "Verif.Check.must_call_partial",
    "Verif.Check.should_call_partial",
    "Verif.Check.should_nil_panics",
    "Verif.Check.nil_variadic",
    "Verif.Check.typed_nil_error",
    "Verif.Check.misfit_panics"
   ],
   "note": "Full statement is false: should.Call panics on nil arguments (should_nil_panics), must.Call passes a nil slice for the first variadic argument that is nil and panics for others (nil_variadic), and a nil pointer whose type implements error counts as an error (typed_nil_error). Proved for all other calls."
  },
  {
   "property": "C102",
   "status": "partial",
   "theorems": [
    "Verif.Check.set_partial",
    "Verif.Check.set_nil_panics"
   ],
   "note": "Full statement is false if a result is nil: Set panics, so that the error of a call that went well cannot be stored (set_nil_panics). Proved for all other results."
  },
  {
   "property": "C103",
   "status": "partial",
   "theorems": [
    "Verif.Spew.sdump_ends_partial",
    "Verif.Spew.sdump_ends_with_max_depth_partial",
    "Verif.Spew.pointer_circle_hangs",
    "Verif.Spew.slice_circle_hangs",
    "Verif.Spew.map_circle_hangs"
   ],
   "note": "Full statement is false: Sdump runs for ever on a pointer that leads back to itself through pointers and interfaces alone (pointer_circle_hangs), and without MaxDepth on slices and maps that contain themselves without a pointer (slice_circle_hangs, map_circle_hangs). Proved for all other values, with any circles through pointers to structs, slices and maps."
  },
  {
   "property": "C104",
   "status": "partial",
   "theorems": [
    "Verif.Spew.sdump_is_picture_partial",
    "Verif.Spew.shared_pointer_said_shown",
    "Verif.Spew.nan_key_value_lost",
    "Verif.Spew.head_is_right"
   ],
   "note": "Full statement is false of maps with NaN keys: their values are shown as <invalid> and the closing brace loses its indent (nan_key_value_lost). Proved for all other values. A pointer that is shared but not circular is called already shown too, depending on its depth (shared_pointer_said_shown)."
  },
  {
   "property": "C105",
   "status": "proved",
   "theorems": [
    "Verif.Spew.blobText_rows",
    "Verif.Spew.blobText_inj",
    "Verif.Spew.line_offset",
    "Verif.Spew.line_columns"
   ],
   "note": "For an indent of blanks (spaces and tabs)."
  },
  {
   "property": "C106",
   "status": "proved",
   "theorems": [
    "Verif.Spew.printHexPtr_exact",
    "Verif.Spew.printHexPtr_nil",
    "Verif.Spew.printHexPtr_injective"
   ],
   "note": ""
  },
  {
   "property": "C107",
   "status": "partial",
   "theorems": [
    "Verif.Spew.same_dump_same_value_partial",
    "Verif.Spew.nil_pointers_look_alike",
    "Verif.Spew.nil_slice_looks_like_nil_pointer",
    "Verif.Spew.methods_hide_difference"
   ],
   "note": "Full statement is false: nil pointers at different depths of indirection are shown alike (nil_pointers_look_alike), a pointer to a nil slice looks like a nil pointer (nil_slice_looks_like_nil_pointer), and Error and String methods hide what they do not say (methods_hide_difference). Proved for all other values; that quoting and number formatting are injective is assumed of the standard library and stated (Plainly)."
  },
  {
   "property": "C108",
   "status": "partial",
   "theorems": [
    "Verif.Spew.keys_total",
    "Verif.Spew.keys_one_order_partial",
    "Verif.Spew.keys_with_methods_partial",
    "Verif.Spew.sorted_increases",
    "Verif.Spew.sdump_deterministic_partial",
    "Verif.Spew.interface_keys_any_order",
    "Verif.Spew.nan_breaks_order"
   ],
   "note": "Full statement is false of maps whose keys are interfaces, or structs or pointers without methods: all of them compare equal, as Value.String is only the type, and come out in any order (interface_keys_any_order); and of NaN keys (nan_breaks_order). Proved for keys that are booleans, numbers, strings or arrays of such, and for keys whose methods give different texts."
  },
  {
   "property": "C109",
   "status": "partial",
   "theorems": [
    "Verif.Reflect2.Safe.safe_is_list",
    "Verif.Reflect2.Safe.unsafe_is_list_partial",
    "Verif.Reflect2.Safe.configurations_agree_partial",
    "Verif.Reflect2.Safe.index_differs",
    "Verif.Reflect2.Safe.make_differs",
    "Verif.Reflect2.Safe.grow_differs",
    "Verif.Reflect2.Safe.get_points",
    "Verif.Reflect2.Safe.struct_assertion_differs"
   ],
   "note": "Full statement is false: behind the end of a slice the safe configuration panics and the unsafe one goes on (index_differs), likewise for MakeSlice with a length above the capacity (make_differs); Grow panics or does nothing with the safe one, for every slice (grow_differs); GetIndex gives a pointer to a copy with the safe one (get_points); and the safe struct types do not satisfy StructType (struct_assertion_differs). Proved: the safe configuration agrees with lists on all programs, panics included, and the unsafe one whenever there is no panic, up to 2^60 elements."
  },
  {
   "property": "C110",
   "status": "partial",
   "theorems": [
    "Verif.Reflect2.Safe.safe_field_partial",
    "Verif.Reflect2.Safe.promoted_differs",
    "Verif.Reflect2.Safe.unexported_differs",
    "Verif.Reflect2.Safe.other_struct_differs"
   ],
   "note": "Full statement is false: the unsafe configuration misplaces fields of embedded structs (promoted_differs), the safe one refuses fields that are not exported (unexported_differs) and accepts structs of other types (other_struct_differs). Proved: the safe configuration reads and sets exactly the selected exported field."
  },
  {
   "property": "C111",
   "status": "partial",
   "theorems": [
    "Verif.Reflect2.SafeIter.iteration_partial",
    "Verif.Reflect2.SafeIter.unchanged_partial",
    "Verif.Reflect2.SafeIter.nan_panics",
    "Verif.Reflect2.SafeIter.deleted_panics"
   ],
   "note": "Full statement is false: a key that does not equal itself (nan_panics) and a deleted entry (deleted_panics) make Next panic. Proved for all other maps and changes."
  },
  {
   "property": "C112",
   "status": "partial",
   "theorems": [
    "Verif.Assert.Http.serve_right",
    "Verif.Assert.Http.status_partial",
    "Verif.Assert.Http.status_one",
    "Verif.Assert.Http.status_left_out",
    "Verif.Assert.Http.body_partial",
    "Verif.Assert.Http.body_without_request"
   ],
   "note": "Full statement is false: 207 to 299 and 308 to 399 belong to no class (status_left_out), and the assertions about the body pass without the handler having been called if the request cannot be made (body_without_request). Proved for the rest."
  },
  {
   "property": "C113",
   "status": "partial",
   "theorems": [
    "Verif.Assert.Http.query_partial",
    "Verif.Assert.Http.query_twice",
    "Verif.Assert.Http.query_fragment"
   ],
   "note": "Full statement is false of URLs with a query (query_twice) or a fragment (query_fragment) of their own. Proved for all others."
  },
  {
   "property": "C114",
   "status": "partial",
   "theorems": [
    "Verif.Spew.format_shows_partial",
    "Verif.Spew.type_lost"
   ],
   "note": "Full statement is false under %#v: behind a nil or already shown pointer in a list or map the flag that hides the type stays set, and the next field of the surrounding struct loses its type (type_lost). Proved for %v and %+v of all values, and for %#v of values whose lists and maps hold no pointers except behind interfaces."
  },
  {
   "property": "C115",
   "status": "partial",
   "theorems": [
    "Verif.Spew.format_ends_partial",
    "Verif.Spew.format_ends_with_max_depth_partial",
    "Verif.Spew.format_pointer_circle_hangs",
    "Verif.Spew.format_slice_circle_hangs",
    "Verif.Spew.format_det"
   ],
   "note": "Full statement is false: circles of pointers alone (format_pointer_circle_hangs) and circles through slices without a pointer (format_slice_circle_hangs) are followed for ever. Proved for all other values, and with MaxDepth for all but circles of pointers alone."
  },
  {
   "property": "C116",
   "status": "partial",
   "theorems": [
    "Verif.Spew.orig_format_partial",
    "Verif.Spew.width_zero",
    "Verif.Spew.digit_verb"
   ],
   "note": "Full statement is false: a width of 0 given by an argument becomes the flag 0 (width_zero), and verbs that are digits run together with the precision (digit_verb). Proved for all other directives."
  },
  {
   "property": "C117",
   "status": "partial",
   "theorems": [
    "Verif.Spew.concurrent_partial",
    "Verif.Spew.sequential_partial",
    "Verif.Spew.shared_mixes"
   ],
   "note": "Full statement is false where the array behind percentBytes has room for more than one byte: every buffer writes there (shared_mixes). Proved for an array of one byte, and for calls one after the other."
  },
  {
   "property": "C118",
   "status": "partial",
   "theorems": [
    "Verif.Dump.map_complete_partial",
    "Verif.Dump.map_shows_partial",
    "Verif.Dump.every_bucket_shown_partial",
    "Verif.Dump.interface_count_wrong",
    "Verif.Dump.free_bucket_hides_array",
    "Verif.Dump.every_bucket_entered_partial",
    "Verif.Dump.every_bucket_or_slice_partial"
   ],
   "note": "Full statement is false: the encoder of a map in an interface takes the address of a pointer to the header for the header, so that the count shown is an address (interface_count_wrong); and the array of buckets is replaced by its first bucket where the free overflow bucket is linked to it (free_bucket_hides_array). Completeness proved for all maps in interfaces; the rest for an encoder given the header, keys and elements without pointers (that every linked bucket has an entry: without pointers to pointers), held in the buckets."
  },
  {
   "property": "C119",
   "status": "partial",
   "theorems": [
    "Verif.Dump.map_ends_iff_partial",
    "Verif.Dump.simple_map_ends_iff_partial",
    "Verif.Dump.empty_slot_panics",
    "Verif.Dump.bucket_circle_hangs"
   ],
   "note": "Full statement is false: a map of pointers panics at every slot not in use, since the slot holds nil (empty_slot_panics). For an encoder given the header: proved as stated for integers, strings and structs of them; for all types without pointers to pointers and slices of pointers, exactly when a dump ends, those panics included. Pointers to pointers and slices of pointers are missing."
  },
  {
   "property": "C120",
   "status": "partial",
   "theorems": [
    "Verif.Stats.counted_iff_partial",
    "Verif.Stats.call_never_counted",
    "Verif.Stats.info_call_not_counted",
    "Verif.Stats.counter_ignored",
    "Verif.Stats.handlerOf_panics"
   ],
   "note": "Full statement is false: the Call functions ask for the aggregation call, which the aggregator does not know, so they are never counted (call_never_counted, info_call_not_counted); the first event of a name decides for all later ones (counter_ignored); property lists that are not names and values panic (handlerOf_panics). Proved: counted exactly if the first logged event of the name asked for a counter, for runs whose calls with one event name have the same property names and dim list."
  },
  {
   "property": "C121",
   "status": "partial",
   "theorems": [
    "Verif.Stats.collector_changes_no_writing_partial",
    "Verif.Stats.call_written_iff_partial",
    "Verif.Stats.collector_changes_writing",
    "Verif.Stats.disabled_counter_hides"
   ],
   "note": "Full statement is false: with a collector a successful InfoCall is written at INFO, without one only at INFO_CALL (collector_changes_writing); and events that ask for a counter are hidden at their own level even though aggregation is disabled (disabled_counter_hides). Proved for event names first logged with agg counter or without agg, and the documented levels without a collector."
  },
  {
   "property": "C122",
   "status": "partial",
   "theorems": [
    "Verif.Lumberjack.quiet_cleaned_partial",
    "Verif.Lumberjack.quiet_expired_gone_partial",
    "Verif.Lumberjack.worker_stops",
    "Verif.Lumberjack.not_stuck",
    "Verif.Lumberjack.failed_rotation_leaves_expired",
    "Verif.Lumberjack.late_backup_leaves_expired"
   ],
   "note": "Full statement is false: a rotation that moves the file aside but cannot open the new one returns without cleaning (failed_rotation_leaves_expired), and a file that cannot be opened for appending is moved aside after cleaning was asked for (late_backup_leaves_expired). Proved for runs without these two failures; that writers never wait and that cleaning ends (worker_stops, not_stuck) for all. Removing and compressing the listed files is one step of the model; its system calls are the subject of C148."
  },
  {
   "property": "C123",
   "status": "partial",
   "theorems": [
    "Verif.Countlog.Contexts.properties_exactly_partial",
    "Verif.Countlog.Contexts.properties_kept_partial",
    "Verif.Countlog.Contexts.derived_shows_same_partial",
    "Verif.Countlog.Contexts.add_shows_partial",
    "Verif.Countlog.Contexts.rewrapped_shows_nothing",
    "Verif.Countlog.Contexts.added_below_shows_above",
    "Verif.Countlog.Contexts.added_before_ctx_lost",
    "Verif.Countlog.Contexts.int_key_hides",
    "Verif.Countlog.Contexts.concurrent_adds_panic"
   ],
   "note": "Full statement is false: Ctx of a context derived from a countlog context starts without properties (rewrapped_shows_nothing); what is added to a derived context shows in the one above (added_below_shows_above); without a log context what is added is dropped (added_before_ctx_lost); an int key of somebody else hides the properties (int_key_hides); adding in two goroutines can mix names and values (concurrent_adds_panic). Proved for sequential programs that leave the key alone: what a context shows is exactly what was added to the log context of the nearest call of Ctx that made a new one."
  },
  {
   "property": "C124",
   "status": "partial",
   "theorems": [
    "Verif.JsonEqual.one_key_partial",
    "Verif.JsonEqual.collision_accepted",
    "Verif.JsonEqual.missing_key_panics",
    "Verif.JsonEqual.any_below_key_fails",
    "Verif.JsonEqual.order_matters",
    "Verif.JsonEqual.never_ends",
    "Verif.JsonEqual.models_agree",
    "Verif.JsonEqual.two_keys",
    "Verif.JsonEqual.order_of_waiting",
    "Verif.JsonEqual.many_keys_partial",
    "Verif.JsonEqual.many_orders_partial"
   ],
   "note": "Full statement is false: a name that is a key of the template too overwrites that member, so a wrong document is accepted (collision_accepted); a missing key or a value that is not a string panics (missing_key_panics); {ANYTHING} does not work below such a key (any_below_key_fails); a nested use depends on the order of the map (order_matters); a document with the placeholder itself overflows the stack (never_ends). Proved for templates with any number of such keys and of placeholders as values in the outermost object, each key bound to a fresh name of its own by members of the same object, in every order (many_keys_partial, many_orders_partial); missing are {ANYTHING} and placeholders in nested objects together with keys."
  },
  {
   "property": "C125",
   "status": "partial",
   "theorems": [
    "Verif.Wrappers.reaches",
    "Verif.Wrappers.reaches_plain",
    "Verif.Wrappers.message_kept_partial",
    "Verif.Wrappers.shown_partial",
    "Verif.Wrappers.http_drops",
    "Verif.Wrappers.epsilon_drops",
    "Verif.Wrappers.single_not_formatted",
    "Verif.Wrappers.message_panics",
    "Verif.Wrappers.can_fail",
    "Verif.Wrappers.nothing_shown"
   ],
   "note": "Full statement is false: the assertions about HTTP never show the message (http_drops), InEpsilonSlice drops it when two elements differ (epsilon_drops), a message without arguments is shown unformatted (single_not_formatted), and one that is not a string panics (message_panics). Proved for all forms and all other assertions."
  },
  {
   "property": "C126",
   "status": "partial",
   "theorems": [
    "Verif.Files.fileExists_partial",
    "Verif.Files.dirExists_partial",
    "Verif.Files.not_both",
    "Verif.Files.link_to_dir",
    "Verif.Files.dangling"
   ],
   "note": "Full statement is false: Lstat does not follow a link at the end of the path, so a link to a directory passes FileExists and not DirExists (link_to_dir), and a dangling link passes FileExists (dangling). Proved for all other paths."
  },
  {
   "property": "C127",
   "status": "partial",
   "theorems": [
    "Verif.Callers.callers_partial",
    "Verif.Callers.subtest",
    "Verif.Callers.helper_cuts",
    "Verif.Callers.user_package_hidden"
   ],
   "note": "Full statement is false: a helper named like a test ends the walk (helper_cuts), and frames in any directory named assert, mock or require are left out (user_package_hidden). Proved for stacks without such helpers, with those directories named in the specification."
  },
  {
   "property": "C128",
   "status": "partial",
   "theorems": [
    "Verif.JsonEq.jsonEq_same",
    "Verif.JsonEq.jsonEq_partial",
    "Verif.JsonEq.invalid_fails",
    "Verif.JsonEq.rounded_passes",
    "Verif.JsonEq.too_large_fails"
   ],
   "note": "Full statement is false: numbers are compared as float64, so 9007199254740993 equals 9007199254740992 (rounded_passes), and 1e400 fails against itself (too_large_fails). Proved for all texts whose numbers a float64 holds; texts with the same meaning pass for all numbers in range."
  },
  {
   "property": "C129",
   "status": "partial",
   "theorems": [
    "Verif.Simple.decides_bool",
    "Verif.Simple.decides_isType",
    "Verif.Simple.implements_partial",
    "Verif.Simple.implements_panics",
    "Verif.Simple.regexp_partial",
    "Verif.Simple.regexp_or_not",
    "Verif.Simple.regexp_panics",
    "Verif.Simple.bytes_not_text",
    "Verif.Simple.bytes_numbers",
    "Verif.Simple.failNow_ends",
    "Verif.Simple.condition_panics"
   ],
   "note": "Full statement is false: Implements panics unless its first argument is a pointer to an interface (implements_panics), Regexp panics for a text that is no pattern (regexp_panics) and sees bytes as a list of numbers (bytes_not_text). Proved for all other arguments."
  },
  {
   "property": "C130",
   "status": "partial",
   "theorems": [
    "Verif.NameByIndex.listed_iff",
    "Verif.NameByIndex.indexed_listed_partial",
    "Verif.NameByIndex.no_directory",
    "Verif.NameByIndex.no_verb",
    "Verif.NameByIndex.two_verbs",
    "Verif.NameByIndex.longer_listed",
    "Verif.NameByIndex.zeros_listed",
    "Verif.NameByIndex.digit_suffix",
    "Verif.NameByIndex.percent_listed"
   ],
   "note": "Full statement is false: what follows the pattern in a name is ignored, so test-1.log.gz is listed (longer_listed); leading zeros, signs and spaces are listed (zeros_listed); with a digit behind %d the archives themselves are not (digit_suffix). Proved which names are listed, for all patterns with one %d, and that every indexed file is listed if the suffix does not start with a digit."
  },
  {
   "property": "C131",
   "status": "partial",
   "theorems": [
    "Verif.LogPanic.nil_silent",
    "Verif.LogPanic.logged_partial",
    "Verif.LogPanic.unchanged_partial",
    "Verif.LogPanic.own_panic_partial",
    "Verif.LogPanic.trace_padded",
    "Verif.LogPanic.overwrites",
    "Verif.LogPanic.wrong_panic",
    "Verif.LogPanic.only_behind"
   ],
   "note": "Full statement is false: a short trace is padded with zero bytes (trace_padded); a property slice with spare capacity is appended to in place, overwriting data of the caller (overwrites) and mixing up the panics of two goroutines (wrong_panic). Proved for slices without room."
  },
  {
   "property": "C132",
   "status": "partial",
   "theorems": [
    "Verif.Reflect2.Kinds.is_type",
    "Verif.Reflect2.Kinds.unsafe_tells_partial",
    "Verif.Reflect2.Kinds.slice_is_array",
    "Verif.Reflect2.Kinds.all_ptr",
    "Verif.Reflect2.Kinds.all_interface",
    "Verif.Reflect2.Kinds.safe_struct",
    "Verif.Reflect2.Kinds.safe_map",
    "Verif.Reflect2.Kinds.safe_slice",
    "Verif.Reflect2.Kinds.configurations_differ"
   ],
   "note": "Full statement is false: slices are an ArrayType (slice_is_array), everything is a PtrType and an InterfaceType (all_ptr, all_interface), and with the safe configuration nothing is a StructType (safe_struct) while pointers are a MapType (safe_map) and arrays a SliceType (safe_slice). Proved for StructType, SliceType and MapType with the unsafe configuration."
  },
  {
   "property": "C133",
   "status": "partial",
   "theorems": [
    "Verif.Reflect2.TypeByName.found_linked",
    "Verif.Reflect2.TypeByName.by_name_partial",
    "Verif.Reflect2.TypeByName.unknown_panics",
    "Verif.Reflect2.TypeByName.shadowed",
    "Verif.Reflect2.TypeByName.others_panic",
    "Verif.Reflect2.TypeByName.old_versions"
   ],
   "note": "Full statement is false: of two packages with one name only the last is found (shadowed), and only structs are found (others_panic). Proved for structs whose text is that of no other, and that a name of no struct panics (unknown_panics)."
  },
  {
   "property": "C134",
   "status": "partial",
   "theorems": [
    "Verif.HomePage.start_page",
    "Verif.HomePage.missing_file",
    "Verif.HomePage.homepage_partial",
    "Verif.HomePage.start_page_unused",
    "Verif.HomePage.error_sent",
    "Verif.HomePage.not_replaced_again",
    "Verif.HomePage.files_webroot"
   ],
   "note": "Full statement is false: the page made at the start is never sent (start_page_unused), since debug mode is always on; the files are read from where the program was built, and an error text is sent as the page if they are not there (error_sent). Proved for the page at the start, and for the page sent if the source is there."
  },
  {
   "property": "C135",
   "status": "partial",
   "theorems": [
    "Verif.Countlog.Timers.text_shows",
    "Verif.Countlog.Timers.shown_partial",
    "Verif.Countlog.Timers.failed_call",
    "Verif.Countlog.Timers.lowered"
   ],
   "note": "Full statement is false: a timer whose level is not enabled is 0, but a call that failed is logged all the same and shows the time since 1970 (failed_call); so does an entry whose level was enabled after the timer was started (lowered). Proved for entries at a level not above that of the timer, with a level not lowered in between; and that the text of every duration is that duration (text_shows)."
  },
  {
   "property": "C136",
   "status": "partial",
   "theorems": [
    "Verif.Spew.reuse_partial",
    "Verif.Spew.shown_at_once",
    "Verif.Spew.type_lost_again"
   ],
   "note": "Full statement is false: the pointers shown are remembered, so a struct prints <shown> for a pointer shown only the last time (shown_at_once), and with # a type is missing the second time (type_lost_again). Proved without # for pointers, nil and values without pointers."
  },
  {
   "property": "C137",
   "status": "partial",
   "theorems": [
    "Verif.Spew.printf_partial",
    "Verif.Spew.std_filled",
    "Verif.Spew.printf_same",
    "Verif.Spew.own_type",
    "Verif.Spew.star_width",
    "Verif.Spew.extra_shown",
    "Verif.Spew.star_prec",
    "Verif.Spew.extras_shown"
   ],
   "note": "Full statement is false: %T and %p are about the formatter (own_type), a width or precision given by an argument is never taken (star_width), and arguments left over are shown as *spew.formatState (extra_shown). Proved for all formats without these verbs and without *, and at most one argument for each directive. Argument numbers in brackets are the subject of C150; C136 tells what happens when a formatter is used again."
  },
  {
   "property": "C138",
   "status": "proved",
   "theorems": [
    "Verif.Spew.sprint_blanks",
    "Verif.Spew.sprintln_blanks",
    "Verif.Spew.dump_each"
   ],
   "note": ""
  },
  {
   "property": "C139",
   "status": "partial",
   "theorems": [
    "Verif.Spew.Bypass.init_right",
    "Verif.Spew.Bypass.bypass_partial",
    "Verif.Spew.Bypass.uintptr_lost",
    "Verif.Spew.Bypass.struct_lost"
   ],
   "note": "Full statement is false: in the versions of package reflect with a field for scalars, a uintptr in the value itself is read from the pointer field (uintptr_lost) and a struct of one pointer from the field for scalars (struct_lost). Proved for all values in the other versions, and for those kept elsewhere or of other kinds in these. Where package reflect kept what is taken from its documentation at the time."
  },
  {
   "property": "C140",
   "status": "partial",
   "theorems": [
    "Verif.Test.Helper.site_partial",
    "Verif.Test.Helper.site_in_test",
    "Verif.Test.Helper.helper_outside",
    "Verif.Test.Helper.panic_line",
    "Verif.Test.Helper.site_deep"
   ],
   "note": "Full statement is false: should.Panic and must.Panic report from a function inside, which is no helper, so that the failure is shown at a line of the package (panic_line). Proved for all stacks with at most fifty helpers in a row, the number package testing looks at; inlining is not modelled."
  },
  {
   "property": "C141",
   "status": "partial",
   "theorems": [
    "Verif.Reflect2.MapCalls.same_calls_partial",
    "Verif.Reflect2.MapCalls.calls_do_partial",
    "Verif.Reflect2.MapCalls.panics_iff",
    "Verif.Reflect2.MapCalls.tryGetIndex_never",
    "Verif.Reflect2.MapCalls.nil_element_deletes",
    "Verif.Reflect2.MapCalls.nil_pointer_differs",
    "Verif.Reflect2.MapCalls.near_accepted",
    "Verif.Reflect2.MapCalls.nil_key",
    "Verif.Reflect2.MapCalls.tryGetIndex_finds"
   ],
   "note": "Full statement is false: TryGetIndex panics with one of the two whatever the arguments, as one wants pointers and the other the values (tryGetIndex_never); a nil element deletes with the safe one and panics with the other (nil_element_deletes); nil pointers to maps and keys differ (nil_pointer_differs); pointers to other types are accepted by the safe one only (near_accepted). Proved for all sequences of the other calls with pointers to values of the types."
  },
  {
   "property": "C142",
   "status": "partial",
   "theorems": [
    "Verif.Reflect2.MapIter.iteration_partial",
    "Verif.Reflect2.MapIter.deleted_returned",
    "Verif.Reflect2.MapIter.stale_returned"
   ],
   "note": "Full statement is false: the iterator is one entry ahead, so an entry deleted before it is reached is returned all the same, with what the runtime left in its place (deleted_returned), and an element assigned after the map grew is returned as it was (stale_returned). Proved for all orders and all changes without these two. Keys that do not equal themselves are not modelled."
  },
  {
   "property": "C143",
   "status": "partial",
   "theorems": [
    "Verif.Reflect2.KindTypes.default_partial",
    "Verif.Reflect2.KindTypes.default_none",
    "Verif.Reflect2.KindTypes.nullable_partial",
    "Verif.Reflect2.KindTypes.complex_missing",
    "Verif.Reflect2.KindTypes.unsafePointer_nullable"
   ],
   "note": "Full statement is false: complex64 and complex128 have no default type (complex_missing), and unsafe.Pointer is not nullable (unsafePointer_nullable). Proved for all other kinds."
  },
  {
   "property": "C144",
   "status": "proved",
   "theorems": [
    "Verif.Stats.KeyMemory.keys_outlive"
   ],
   "note": "Dimensions that are no strings (C29) and counters beyond 2^64 are not modelled."
  },
  {
   "property": "C145",
   "status": "partial",
   "theorems": [
    "Verif.Gls.Nested.called_partial",
    "Verif.Gls.Nested.storage_gone",
    "Verif.Gls.Nested.user_lost"
   ],
   "note": "Full statement is false: when such a function returns or panics the caller has no storage at all, its next Get gives nothing and its next Set panics (storage_gone, user_lost). Proved for all programs that call them only where there is no storage, panics included."
  },
  {
   "property": "C146",
   "status": "proved",
   "theorems": [
    "Verif.Msgfmt.PrintPool.own_text",
    "Verif.Msgfmt.PrintPool.kept_changes"
   ],
   "note": "For writers that do not keep what they are given, as package io asks; one that does finds it changed (kept_changes). What the texts are is in C20 to C24."
  },
  {
   "property": "C147",
   "status": "proved",
   "theorems": [
    "Verif.Reflect2.Layout.program",
    "Verif.Reflect2.Layout.path_place",
    "Verif.Reflect2.Layout.path_aligned",
    "Verif.Reflect2.Layout.path_bytes",
    "Verif.Reflect2.Layout.path_inside",
    "Verif.Reflect2.Layout.path_checked"
   ],
   "note": "Fields by number, that is of the struct itself; fields of embedded structs by name are the subject of C82, indexes outside of the array of C83. The layout of structs is that of the compiler on 64-bit machines."
  },
  {
   "property": "C148",
   "status": "partial",
   "theorems": [
    "Verif.Lumberjack.Compress.kept_partial",
    "Verif.Lumberjack.Compress.caught_up_partial",
    "Verif.Lumberjack.Compress.nothing_left_partial",
    "Verif.Lumberjack.Compress.two_loggers_lose",
    "Verif.Lumberjack.Compress.chown_leaves_empty",
    "Verif.Lumberjack.Compress.kill_leaves_part"
   ],
   "note": "Full statement is false: two Loggers cleaning at the same time lose a backup without any failure (two_loggers_lose); on Linux a failing chown returns before the removal of the compressed file is deferred and leaves it empty (chown_leaves_empty), and of course a kill can leave part of one (kill_leaves_part). Proved when no two goroutines clean at a time: no backup is lost whatever fails (kept_partial), the next cleaning without failures compresses all (caught_up_partial), and without kills, failures of the removal itself, and failures of chown or the second opening on Linux nothing incomplete stays (nothing_left_partial). Losing power, after which finished writes may be gone, is not modelled."
  },
  {
   "property": "C149",
   "status": "partial",
   "theorems": [
    "Verif.AsyncFile.in_the_files_partial",
    "Verif.AsyncFile.despite_failures_partial",
    "Verif.AsyncFile.full_disk_loses",
    "Verif.AsyncFile.long_message_loses"
   ],
   "note": "Full statement is false: a message that the downstream writer fails to write, for example because the disk is full, is cut or missing though Write and Close report no error (full_disk_loses), and so is a message longer than the maximum size (long_message_loses). A downstream panic and the time limit of a second lose messages as in C36, two rotations in a millisecond as in C32. Proved without these: in_the_files_partial. With any failures except those of os.Stat, what is in the files is a beginning of each message, in order (despite_failures_partial)."
  },
  {
   "property": "C150",
   "status": "partial",
   "theorems": [
    "Verif.Spew.indexed_partial",
    "Verif.Spew.indexed_once",
    "Verif.Spew.std_picked",
    "Verif.Spew.picked_twice",
    "Verif.Spew.picked_type",
    "Verif.Spew.picked_width"
   ],
   "note": "Full statement is false: an argument with pointers inside that is printed a second time takes a pointer for one shown further up (picked_twice), with # the type goes missing (picked_type), and sizes from arguments are not taken (picked_width). Proved for all formats whose numbers stand before the verb, if arguments printed twice by %v are nil, pointers, or without pointers, and have no # (indexed_partial), and for all values and flags if none is picked twice (indexed_once); package fmt itself picks as the specification says (std_picked)."
  },
  {
   "property": "C151",
   "status": "partial",
   "theorems": [
    "Verif.Parse.Buffers.alone_partial",
    "Verif.Parse.Buffers.peeked_stays",
    "Verif.Parse.Buffers.neighbours_disturbed",
    "Verif.Parse.Buffers.behind_written"
   ],
   "note": "Full statement is false: PeekN gathers with append(src.current, ...) and so writes into the spare capacity behind the buffer: with the two halves of one array as buffers it overwrites what the other source holds (neighbours_disturbed), and it writes into the array of the caller behind the buffer given (behind_written). Proved for all buffers that do not overlap counting their capacity, e.g. made with make or cut with big[:n:n] (alone_partial, peeked_stays); this also carries the theorems on sources as values (C01 to C11) over to sources on memory. SetBuffer is not among the calls here (C166)."
  },
  {
   "property": "C152",
   "status": "partial",
   "theorems": [
    "Verif.Jsonfmt.Mem.memory_read_partial",
    "Verif.Jsonfmt.Mem.memory_safe_partial",
    "Verif.Jsonfmt.Mem.pointer_key_misread",
    "Verif.Jsonfmt.Mem.nil_key_panics",
    "Verif.Jsonfmt.Mem.nil_error_panics",
    "Verif.Jsonfmt.Mem.cycle_never_ends"
   ],
   "note": "Full statement is false: a pointer as key of a map[interface{}]T is taken for the address of a pointer, so that what it points to is read as an address (pointer_key_misread); a nil key there panics (nil_key_panics); a nil interface in a struct field of type error or json.Marshaler panics (nil_error_panics); a value that contains itself is never finished (cycle_never_ends). Proved for all memories that hold a finite value of any type without these (memory_safe_partial), and with C17 that the text reads as the value (memory_read_partial). One cell per variable without parts; the methods Error and MarshalJSON are taken to return."
  },
  {
   "property": "C153",
   "status": "partial",
   "theorems": [
    "Verif.Jsonfmt.Cache.extension_decides_partial",
    "Verif.Jsonfmt.Cache.asked_with_path_partial",
    "Verif.Jsonfmt.Cache.extension_lost_below_interface",
    "Verif.Jsonfmt.Cache.extension_not_for_fields",
    "Verif.Jsonfmt.Cache.field_path_lost"
   ],
   "note": "Full statement is false: below interfaces the default configuration is used, which has no extensions (extension_lost_below_interface); fields that are functions or channels are left out before extensions are asked (extension_not_for_fields); in structs the prefix given to extensions is overwritten by the text of the field, so that it says nothing about where the struct is (field_path_lost). Proved for extensions that look at types only and types without interfaces and such fields, after any earlier calls (extension_decides_partial); and that the prefix is the path through pointers, slices, arrays and maps (asked_with_path_partial). Encoders given by extensions are functions of the value; field names start in ASCII (C18)."
  },
  {
   "property": "C154",
   "status": "partial",
   "theorems": [
    "Verif.Jsonfmt.Cache.history_free_partial",
    "Verif.Jsonfmt.Cache.caches_transparent_partial",
    "Verif.Jsonfmt.Cache.chan_key_remembers",
    "Verif.Jsonfmt.Cache.path_extension_remembers"
   ],
   "note": "Full statement is false: the encoder of a key type is remembered with the prefix of the first place it was met, which shows in the message about keys that cannot be encoded (chan_key_remembers) and in the decisions of extensions that look at the prefix (path_extension_remembers). Proved for all types whose map keys can be encoded and extensions that look at types only, after any earlier calls whatever their types (history_free_partial); without extensions the text is that of the model without caches, so that C16 to C19 hold of any sequence of calls (caches_transparent_partial). Calls are taken one after the other here; C160 takes them at the same time."
  },
  {
   "property": "C155",
   "status": "partial",
   "theorems": [
    "Verif.Countlog.JsonLine.event_shown_partial",
    "Verif.Countlog.JsonLine.names_of_sample",
    "Verif.Countlog.JsonLine.type_confused",
    "Verif.Countlog.JsonLine.fewer_panics",
    "Verif.Countlog.JsonLine.more_left_out",
    "Verif.Countlog.JsonLine.nil_panics"
   ],
   "note": "Full statement is false: names are those of the event the handler was made for (names_of_sample), values of another type than there are read from memory as what they are not (type_confused), events with fewer properties panic (fewer_panics), properties beyond those of that event are left out (more_left_out), and no handler can be made for an event with a nil value (nil_panics). Proved for events whose properties have the same names and types (event_shown_partial), for the values of C17 and C152; that the line itself is no JSON is C69."
  },
  {
   "property": "C156",
   "status": "partial",
   "theorems": [
    "Verif.Stats.Points.points_partial",
    "Verif.Stats.Points.point_unnamed",
    "Verif.Stats.Points.appended_lost",
    "Verif.Stats.Points.append_later_spoils"
   ],
   "note": "Full statement is false: no point has the name of its event, since the window never gets it (point_unnamed); what a collector appends to a dimension is overwritten by the next point (appended_lost), and appending later changes other points (append_later_spoils), because each dimension has the rest of the array as its capacity. Proved: time, combination and count of every point, and that they are still so at the end of the export whatever collectors append meanwhile (points_partial)."
  },
  {
   "property": "C157",
   "status": "partial",
   "theorems": [
    "Verif.Output.Drops.viewer_reported",
    "Verif.Output.Drops.async_reported_partial",
    "Verif.Output.Drops.silent",
    "Verif.Output.Drops.same_number",
    "Verif.Output.Drops.viewer_order"
   ],
   "note": "Full statement is false for the asynchronous writer, whose counter is a plain variable: if two goroutines drop messages at the same time, any number of drops can go unreported (silent) and increments are lost, so that two reports say the same number (same_number). Proved for goroutines dropping messages one at a time (async_reported_partial), and in full for the viewer (viewer_reported), whose reports may come in another order (viewer_order)."
  },
  {
   "property": "C158",
   "status": "partial",
   "theorems": [
    "Verif.Gls.GoId.goid_partial",
    "Verif.Gls.GoId.another_runtime",
    "Verif.Gls.GoId.no_g",
    "Verif.Gls.GoId.no_goid",
    "Verif.Gls.GoId.by_id_partial",
    "Verif.Gls.GoId.negative_panics"
   ],
   "note": "Full statement is false: the struct is looked up by the text runtime.g, which another package called runtime can have too (another_runtime); a program without it, or without goid in it, panics when it starts (no_g, no_goid); negative ids panic unless they are multiples of 16 (negative_panics). Proved for programs with the struct of the runtime only, for all layouts and memories (goid_partial), and for all other ids and histories (by_id_partial). getg is assembly and is taken to return the address of the struct."
  },
  {
   "property": "C159",
   "status": "partial",
   "theorems": [
    "Verif.Assert.Diff.diff_explains_partial",
    "Verif.Assert.Diff.difference_shown_partial",
    "Verif.Assert.Diff.no_diff",
    "Verif.Assert.Diff.message_ends",
    "Verif.Assert.Diff.percent_garbled",
    "Verif.Assert.Diff.nothing_shown",
    "Verif.Assert.Diff.circular_never_ends"
   ],
   "note": "Full statement is false: lines with percent signs are used as formats, so the diff of []string{\"100%\"} and []string{\"50%\"} shows texts that neither has (percent_garbled); values that differ can have the same dump, and the diff is then empty (nothing_shown); for values that contain themselves the message is never done (circular_never_ends). Proved for dumps without percent signs of values whose dump ends (diff_explains_partial), and, for values without methods and pointers shown as nil, that a difference is shown (difference_shown_partial)."
  },
  {
   "property": "C160",
   "status": "partial",
   "theorems": [
    "Verif.Jsonfmt.Cache.together_partial",
    "Verif.Jsonfmt.Cache.together_ends",
    "Verif.Jsonfmt.Cache.together_transparent_partial",
    "Verif.Jsonfmt.Cache.alone_marshal",
    "Verif.Jsonfmt.Cache.chan_key_race"
   ],
   "note": "Full statement is false for maps whose keys cannot be encoded: the message about them says where they were met by whichever call came first (chan_key_race). Proved for all types whose map keys can be encoded and extensions that look at types only, whatever the other goroutines marshal (together_partial); without extensions the text is that of the model without caches (together_transparent_partial). Every call returns (together_ends). Cache accesses in a row are the calls of C154 (alone_marshal). Each Load or Store of a cache is one step."
  },
  {
   "property": "C161",
   "status": "partial",
   "theorems": [
    "Verif.Countlog.Together.together_no_panic_partial",
    "Verif.Countlog.Together.together_never_lost",
    "Verif.Countlog.Together.together_delivered_partial",
    "Verif.Countlog.Together.together_own_handlers_partial",
    "Verif.Countlog.Together.together_once_partial",
    "Verif.Countlog.Together.together_result",
    "Verif.Countlog.Together.together_ends",
    "Verif.Countlog.Together.alone_calls",
    "Verif.Countlog.Together.counted_apart"
   ],
   "note": "Full statement is false: besides the failures of C27, C70 and C71, goroutines that log a new event at the same time each make a handler, and the event is counted in two windows (counted_apart). Proved for every earlier history, number of goroutines, pattern of panics and interleaving: the claims of C26, C27, C70 and C71 (together_*), and that every call returns (together_ends). The accesses to the cache in a row are the calls of C27 (alone_calls). Each Load or Store is one step; the levels do not change meanwhile."
  },
  {
   "property": "C162",
   "status": "partial",
   "theorems": [
    "Verif.Msgfmt.Together.together_partial",
    "Verif.Msgfmt.Together.together_after_one",
    "Verif.Msgfmt.Together.together_ends",
    "Verif.Msgfmt.Together.alone_calls",
    "Verif.Msgfmt.Together.order_decides"
   ],
   "note": "Full statement is false as C23 is: with the same names in another order, what is printed depends on the interleaving (order_decides). Proved for goroutines that pass the same names in the same order with values of the same types for the same format (together_partial); without conditions, every call gives what it gives after one earlier call with its format (together_after_one). Every call returns (together_ends), given that compiling and formatting do. Each Load or Store is one step."
  },
  {
   "property": "C163",
   "status": "partial",
   "theorems": [
    "Verif.Countlog.LevelRace.together_partial",
    "Verif.Countlog.LevelRace.undisturbed",
    "Verif.Countlog.LevelRace.important_kept",
    "Verif.Countlog.LevelRace.all_decided",
    "Verif.Countlog.LevelRace.one_setter",
    "Verif.Countlog.LevelRace.torn",
    "Verif.Countlog.LevelRace.mixed_forever"
   ],
   "note": "Full statement is false: a counted event whose call reads MinLevel before and MinCallLevel after SetMinLevel is counted but not written, though the old level writes it and the new one drops it (torn); and two goroutines in SetMinLevel at the same time can leave MinLevel of the one and MinCallLevel of the other for good (mixed_forever). Proved for levels set by one goroutine at a time: torn events are the only exception (together_partial), and calls during which none is set go by the last one (undisturbed). In all interleavings warnings, errors, fatal events and failed calls are kept (important_kept). Reads and writes of an int are atomic; handlers do not panic (C161)."
  },
  {
   "property": "C164",
   "status": "partial",
   "theorems": [
    "Verif.Countlog.Sinks.assigned_first_partial",
    "Verif.Countlog.Sinks.new_event",
    "Verif.Countlog.Sinks.first_decides",
    "Verif.Countlog.Sinks.panic_moves",
    "Verif.Countlog.Sinks.assigned_late"
   ],
   "note": "Full statement is false: events of a name that was logged before stay with the writer and aggregator of that time, whatever is assigned later (assigned_late; exactly: first_decides), until that writer panics (panic_moves). Proved for assignments before anything is logged, with any panics (assigned_first_partial), and for names not logged before (new_event). Handlers of aggregators do not panic here; only calls that pass the levels are considered."
  },
  {
   "property": "C165",
   "status": "partial",
   "theorems": [
    "Verif.Countlog.Places.one_place_partial",
    "Verif.Countlog.Places.first_place",
    "Verif.Countlog.Places.second_place_wrong",
    "Verif.Countlog.Places.logPanic_wrong",
    "Verif.Countlog.Places.right_after_panic",
    "Verif.Countlog.Places.func_stale"
   ],
   "note": "Full statement is false: an event name logged at two places always shows the first (second_place_wrong; exactly: first_place), LogPanic shows itself (logPanic_wrong), and after a panic the function is that of the first place while file and line are right (func_stale, right_after_panic). Proved for names logged at one place each, with any panics; the event that made its handler panic shows the file as unknown. That runtime.Caller counts the frames as listed in the model is part of the model."
  },
  {
   "property": "C166",
   "status": "partial",
   "theorems": [
    "Verif.Parse.setBuffer_irrelevant_partial",
    "Verif.Parse.setBuffer_used",
    "Verif.Parse.empty_buffer_hangs",
    "Verif.Parse.Buffers.old_bytes_stay",
    "Verif.Parse.Buffers.old_bytes_lost"
   ],
   "note": "Full statement is false for an empty buffer, with which PeekN never returns (empty_buffer_hangs). Proved for all other buffers, under the conditions of C01 (operations inside the input, readers that give bytes or an error but not both). Old bytes are kept if the new buffer does not overlap the old one counting capacity; without SetBuffer they are overwritten (old_bytes_lost). On memory the results of reads after SetBuffer are given, fitting the new buffer; readers of package read are covered by the part on values."
  },
  {
   "property": "C167",
   "status": "partial",
   "theorems": [
    "Verif.Countlog.Fanout.all_once_partial",
    "Verif.Countlog.Fanout.behind_silenced",
    "Verif.Countlog.Fanout.before_again",
    "Verif.Countlog.Fanout.at_most_twice",
    "Verif.Countlog.Fanout.twice_once"
   ],
   "note": "Full statement is false: handlers behind one that panics on an event never get it (behind_silenced), and at the first panic of an event name those before it handle the event twice (before_again), which no handler does more often (at_most_twice) and which happens once for a name (twice_once). Proved for every event on which no handler panics, after any history (all_once_partial). Without aggregator; a handler that panics is taken not to have handled the event."
  },
  {
   "property": "C168",
   "status": "partial",
   "theorems": [
    "Verif.Countlog.Chain.steps_told_partial",
    "Verif.Countlog.Chain.logged_below",
    "Verif.Countlog.Chain.success_nil",
    "Verif.Countlog.Chain.not_the_cause",
    "Verif.Countlog.Chain.same_text"
   ],
   "note": "Full statement is false: log makes a new error of the text, so that the result is never equal to the cause or to any other known error such as io.EOF (not_the_cause), and the text does not tell where the cause begins (same_text). Proved: text of the result (steps_told_partial), of the error of each event (logged_below), and nil without a failure (success_nil), for all chains in which nothing panics (C27 says when). What formatting a message gives is a parameter (C20 to C23)."
  },
  {
   "property": "C169",
   "status": "partial",
   "theorems": [
    "Verif.Msgfmt.Custom.custom_printed_partial",
    "Verif.Msgfmt.Custom.initial_output",
    "Verif.Msgfmt.Custom.complaint_shown",
    "Verif.Msgfmt.Custom.complaint_panics",
    "Verif.Msgfmt.Custom.registered_late",
    "Verif.Msgfmt.Custom.name_space",
    "Verif.Msgfmt.Custom.args_space",
    "Verif.Msgfmt.Custom.reserved_panics"
   ],
   "note": "Full statement is false: white space behind the name of a format is taken as part of it (name_space) and white space around arguments is passed on (args_space); formats whose names begin with select or plural panic (reserved_panics); a complaint behind other text makes Sprintf panic (complaint_panics); and a format registered after the message was printed once is not used for it (registered_late). Proved: what is printed for all formats and well-formed messages not used before (custom_printed_partial), which for the formats at the start is what C21 says (initial_output), and complaints in first place (complaint_shown). The formatter a format returns is given by its text for the arguments at hand."
  },
  {
   "property": "C170",
   "status": "partial",
   "theorems": [
    "Verif.Parse.nothing_consumed_partial",
    "Verif.Parse.no_error",
    "Verif.Parse.sign_swallowed",
    "Verif.Parse.second_read_panics"
   ],
   "note": "Full statement is false: no error is reported for any such input (no_error), the signed readers take a minus sign that no digit follows (sign_swallowed), and at the end of the input they panic (second_read_panics). Proved: Uint64 consumes nothing (nothing_consumed_partial), and sign_swallowed is exact about what the signed readers consume."
  },
  {
   "property": "C171",
   "status": "partial",
   "theorems": [
    "Verif.Reflect2.Types.set_same_partial",
    "Verif.Reflect2.Types.isNil_same_partial",
    "Verif.Reflect2.Types.indirect_same_partial",
    "Verif.Reflect2.Types.safeIndirect_copied",
    "Verif.Reflect2.Types.safeIsNil_right",
    "Verif.Reflect2.Types.set_no_pointer",
    "Verif.Reflect2.Types.set_unchecked",
    "Verif.Reflect2.Types.set_converts",
    "Verif.Reflect2.Types.isNil_differ_typed",
    "Verif.Reflect2.Types.isNil_differ_kind",
    "Verif.Reflect2.Types.isNil_differ_pointer",
    "Verif.Reflect2.Types.isNil_unchecked",
    "Verif.Reflect2.Types.indirect_differ_later",
    "Verif.Reflect2.Types.indirect_unchecked"
   ],
   "note": "Full statement is false: the safe configuration does not compare types (set_unchecked, isNil_unchecked, indirect_unchecked) and converts (set_converts); IsNil differs for an interface{} that holds a nil pointer (isNil_differ_typed), for types without nil and for nil itself (isNil_differ_kind) and for nil pointers (isNil_differ_pointer); what Indirect gave follows the variable with the unsafe configuration only (indirect_differ_later). Proved: the same results on pointers to variables of the type that can be nil, with the safe configuration right for all types (safeIndirect_copied, safeIsNil_right)."
  },
  {
   "property": "C172",
   "status": "partial",
   "theorems": [
    "Verif.CloserArgs.caller_kept_partial",
    "Verif.CloserArgs.close_kept_partial",
    "Verif.CloserArgs.closeAll_array",
    "Verif.CloserArgs.close_overwrites",
    "Verif.CloserArgs.kept_event_changes"
   ],
   "note": "Full statement is false: append writes to the array behind the slice if there is room (close_overwrites; closeAll_array says exactly what is written), and an event that was kept then tells the error of a later call (kept_event_changes). Proved: the elements given are never changed, and nothing is if no resource fails or there is no room for two elements."
  },
  {
   "property": "C173",
   "status": "partial",
   "theorems": [
    "Verif.Msgfmt.Append.formats_as_meant_partial",
    "Verif.Msgfmt.Append.formats_when_made_partial",
    "Verif.Msgfmt.Append.appended_twice",
    "Verif.Msgfmt.Append.careful_partial",
    "Verif.Msgfmt.Append.no_room_partial"
   ],
   "note": "Full statement is false: two formatters appended to one value whose array has room go to the same place, so that the first of the two values formats with the second formatter (appended_twice). Proved: programs that append to no value twice, as the parser of messages does (formats_as_meant_partial), more generally programs that append to a value twice only if it has no room (careful_partial; all programs if the runtime left no room, no_room_partial), and every value at the time it is made."
  }
 ]
}