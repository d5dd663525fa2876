{
 "claims": [
  {
   "property": "C01",
   "status": "proved",
   "theorems": [
    "Sval.C01_lowering_balanced",
    "Sval.C01_tree_unique",
    "Sval.C01_no_early_end"
   ],
   "note": "Methods opening, filling and closing one kind of container are overridden together."
  },
  {
   "property": "C02",
   "status": "proved",
   "theorems": [
    "Sval.C02_lowering_preserves_data",
    "Sval.C02_independent_of_overrides",
    "Sval.C02_run_completed",
    "Sval.C02_hints_anywhere"
   ],
   "note": ""
  },
  {
   "property": "C03",
   "status": "proved",
   "theorems": [
    "Sval.C03_integer_widening_exact",
    "Sval.C03_minimal_stream",
    "Sval.C03_float_widening_exact"
   ],
   "note": ""
  },
  {
   "property": "C04",
   "status": "proved",
   "theorems": [
    "Sval.C04_value_computed_never_borrows",
    "Sval.C04_otherwise_unchanged"
   ],
   "note": "Values are arbitrary terminating interaction trees."
  },
  {
   "property": "C05",
   "status": "proved",
   "theorems": [
    "Sval.C05_forwarding_transparent",
    "Sval.C05_dynamic_value_transparent"
   ],
   "note": ""
  },
  {
   "property": "C06",
   "status": "proved",
   "theorems": [
    "Sval.C06_failure_stops_value",
    "Sval.C06_exactly_k_calls"
   ],
   "note": ""
  },
  {
   "property": "C07",
   "status": "proved",
   "theorems": [
    "Sval.C07_text_exact",
    "Sval.C07_binary_exact",
    "Sval.C07_text_any_code",
    "Sval.C07_binary_any_code"
   ],
   "note": ""
  },
  {
   "property": "C08",
   "status": "proved",
   "theorems": [
    "Sval.C08_bool_any_code",
    "Sval.C08_f32_any_code",
    "Sval.C08_f64_any_code",
    "Sval.C08_int_any_code",
    "Sval.C08_bool_exact",
    "Sval.C08_f32_exact",
    "Sval.C08_f64_exact",
    "Sval.C08_int_exact"
   ],
   "note": ""
  },
  {
   "property": "C09",
   "status": "partial",
   "theorems": [
    "Sval.C09_counterexample",
    "Sval.C09_int_widths_partial"
   ],
   "note": "False as stated: 1i32.to_i64() is None (counterexample theorem). The partial theorem says exactly which conversions work."
  },
  {
   "property": "C10",
   "status": "proved",
   "theorems": [
    "Sval.C10_option_stream",
    "Sval.C10_option_transparent",
    "Sval.C10_option_calls"
   ],
   "note": ""
  },
  {
   "property": "C100",
   "status": "partial",
   "theorems": [
    "Sval.C100_partial",
    "Sval.C100_fails",
    "Sval.C100_exact",
    "Sval.C100_derived",
    "Sval.C100_others"
   ],
   "note": "False as stated: a value with the tag in a value with the tag clears the flag, so that what follows it is not printed as a time (C100_fails). C100_partial: exactly what is printed, and when it panics, for all values in which the tag is not in itself. C100_exact: exactly what is printed of any value, from any state of the flag. C100_derived: the type of the example. C100_others: values without the tag are printed as by the example without tags. What humantime and core print is a parameter."
  },
  {
   "property": "C101",
   "status": "partial",
   "theorems": [
    "Sval.C101_keys_exact",
    "Sval.C101_partial",
    "Sval.C101_fails_option",
    "Sval.C101_fails_label",
    "Sval.C101_fails_flatten"
   ],
   "note": "Exact for the types of keys: C101_keys_exact says for which different keys have different names (booleans, integers, characters, text, newtypes and references of those, enums whose unit variants differ in name, and options of what is never written as null). False for Option<String> (C101_fails_option), for labels given twice, which the macro accepts (C101_fails_label), and for flattened maps with the key of another field (C101_fails_flatten)."
  },
  {
   "property": "C102",
   "status": "partial",
   "theorems": [
    "Sval.C102_partial",
    "Sval.C102_given",
    "Sval.C102_chars",
    "Sval.C102_values",
    "Sval.C102_exact",
    "Sval.C102_rust",
    "Sval.C102_fails_json",
    "Sval.C102_fails_ident"
   ],
   "note": "False as stated for text that is copied: text tagged as JSON (C102_fails_json) and labels tagged as identifiers (C102_fails_ident). Proved for any code that drives the formatter, whatever it does after errors, if nothing is copied (C102_partial) or what is given has no control character (C102_given); every character is printable ASCII or given (C102_chars); for values and all Rust values (C102_values, C102_rust). Exactly, for values that have a document: it is on one line if and only if the texts tagged as JSON are, outside keys of maps (C102_exact)."
  },
  {
   "property": "C103",
   "status": "partial",
   "theorems": [
    "Sval.C103_partial",
    "Sval.C103_exact",
    "Sval.C103_whole",
    "Sval.C103_concat",
    "Sval.C103_io",
    "Sval.C103_early",
    "Sval.C103_rust",
    "Sval.C103_fails",
    "Sval.C103_fails_concat",
    "Sval.C103_fails_space"
   ],
   "note": "False as stated for numbers (C103_fails, C103_fails_concat) and, by space at the end, for text tagged as JSON (C103_fails_space). Proved for every other value that is written correctly (C20): a beginning that is a document is all of it (C103_whole), or all but space (C103_partial); outputs one after the other can be taken apart (C103_concat); a writer that failed has not got a document (C103_io); a value that stops early has not written one, unless the calls it leaves out would write nothing (C103_early); the same for Rust values (C103_rust). Exactly: no beginning of what is written is a document if and only if it does not end with space and is not a number of more than one digit (C103_exact)."
  },
  {
   "property": "C104",
   "status": "partial",
   "theorems": [
    "Sval.C104_doc",
    "Sval.C104_partial",
    "Sval.C104_skip",
    "Sval.C104_decoder",
    "Sval.C104_fails",
    "Sval.C104_fails_float",
    "Sval.C104_fails_skip",
    "Sval.C104_fails_variants"
   ],
   "note": "Two values of a type have the same document (C104_doc), or the same text (C104_partial), only if they are the same, so there is a decoder (C104_decoder), for all types of structs, enums, options, sequences, maps and basic values with Ty.fine: what is in an option is not itself written as null, no skipped fields, variants have different names. False without: C104_fails (Some(()) and None), C104_fails_float, C104_fails_skip, C104_fails_variants. With skipped fields, exactly those are lost: the text of two values is the same if and only if they are the same but for skipped fields (C104_skip), for types that have Ty.fine without those."
  },
  {
   "property": "C105",
   "status": "partial",
   "theorems": [
    "Sval.C105_partial",
    "Sval.C105_exact",
    "Sval.C105_computed_exact",
    "Sval.C105_buffer_exact",
    "Sval.C105_sees_exact",
    "Sval.C105_serializers_exact",
    "Sval.C105_computed_partial",
    "Sval.C105_buffer_partial",
    "Sval.C105_nested_partial",
    "Sval.C105_sees_partial",
    "Sval.C105_serde_partial",
    "Sval.C105_serializers_partial",
    "Sval.C105_enum",
    "Sval.C105_fails_skip",
    "Sval.C105_fails_dynamic",
    "Sval.C105_fails_variants",
    "Sval.C105_fails_serde"
   ],
   "note": "Two values of a type that make the same calls are the same (C105_partial), also with value_computed, from a buffer, and as seen by a recursive stream, for all types with Ty.kept: no skipped fields, no dynamic enums, variants that differ in tag, label or index, which they do without attributes (C105_enum). With skipped fields, exactly those are lost: two values make the same calls if and only if they are the same but for skipped fields (C105_exact), and so with value_computed, buffers, recursive streams and serde (C105_*_exact). With serde as well, if no serializer can tell (C105_serializers_partial), for types with Ty.keptSerde, whose variants differ in label or index as serde does not see tags (C105_fails_serde). False without: C105_fails_skip, C105_fails_dynamic, C105_fails_variants."
  },
  {
   "property": "C106",
   "status": "partial",
   "theorems": [
    "Sval.C106_partial",
    "Sval.C106_skip",
    "Sval.C106_prefix_partial",
    "Sval.C106_decoder_partial",
    "Sval.C106_fails_float",
    "Sval.C106_fails_skip",
    "Sval.C106_fails_dynamic",
    "Sval.C106_fails_label",
    "Sval.C106_fails_empty",
    "Sval.C106_fails_number"
   ],
   "note": "Two values of a type that sval_fmt prints the same are the same (C106_partial), also with something behind them (C106_prefix_partial), so there is a decoder (C106_decoder_partial), for all types with Ty.shown: no floats, no skipped fields, labels without punctuation, variants with different labels, no text tagged NUMBER. Options of options and maps with any keys are included; the defect of C26 loses nothing. False without: C106_fails_*. With skipped fields, exactly those are lost: the text of two values is the same if and only if they are the same but for skipped fields (C106_skip), for types that have Ty.shown without those."
  },
  {
   "property": "C107",
   "status": "partial",
   "theorems": [
    "Sval.C107_chars",
    "Sval.C107_tokens",
    "Sval.C107_partial",
    "Sval.C107_given",
    "Sval.C107_value_partial",
    "Sval.C107_exact",
    "Sval.C107_fragments",
    "Sval.C107_rust",
    "Sval.C107_fails_label",
    "Sval.C107_fails_number"
   ],
   "note": "False as titled: labels and text tagged as a number are printed as they are (C107_fails_label, C107_fails_number). C107_chars says exactly which characters may be printed by any code, C107_tokens the same of every token given to any writer; C107_partial and C107_value_partial: one line without those; C107_given: otherwise a line break is in the text given. C107_exact, C107_fragments and C107_rust: a value is printed on one line if and only if the labels and numbers in it that are printed as they are are on one line."
  },
  {
   "property": "C11",
   "status": "proved",
   "theorems": [
    "Sval.C11_index_exact",
    "Sval.C11_index_compare"
   ],
   "note": ""
  },
  {
   "property": "C12",
   "status": "proved",
   "theorems": [
    "Sval.C12_tag_identity",
    "Sval.C12_hash_covers_all",
    "Sval.C12_label_identity"
   ],
   "note": ""
  },
  {
   "property": "C13",
   "status": "partial",
   "theorems": [
    "Sval.C13_counterexample",
    "Sval.C13_label_preserved_partial",
    "Sval.C13_exact"
   ],
   "note": "False as stated: to_owned, and cloning an owned label, drop the tag hint (counterexample theorem). Text and static-ness are preserved. C13_exact: a clone is the same exactly if the label is not owned or has no hint."
  },
  {
   "property": "C14",
   "status": "proved",
   "theorems": [
    "Sval.C14_buffer_concatenates",
    "Sval.C14_buffer_without_alloc",
    "Sval.C14_display",
    "Sval.C14_collect_display",
    "Sval.C14_display_without_alloc",
    "Sval.C14_life"
   ],
   "note": "C14_display is for values pushed by way of fmt::Display, for any Display that writes pieces and returns a result. Without alloc it is for a Display that passes errors on."
  },
  {
   "property": "C15",
   "status": "proved",
   "theorems": [
    "Sval.C15_round_trip",
    "Sval.C15_collect",
    "Sval.C15_owned_lends_nothing",
    "Sval.C15_normalisation",
    "Sval.C15_without_alloc"
   ],
   "note": "An owned buffer may still replay an empty fragment as borrowed; lendsNothing allows exactly that."
  },
  {
   "property": "C16",
   "status": "proved",
   "theorems": [
    "Sval.C16_complete_iff",
    "Sval.C16_complete_balance"
   ],
   "note": "A prefix consisting of tag hints only counts as complete; the statement (open container or text) does not cover it."
  },
  {
   "property": "C17",
   "status": "proved",
   "theorems": [
    "Sval.C17_unbalanced_end",
    "Sval.C17_nested"
   ],
   "note": "With the alloc feature, which push_begin needs to keep stack and parts in step."
  },
  {
   "property": "C18",
   "status": "proved",
   "theorems": [
    "Sval.C18_clear",
    "Sval.C18_into_owned",
    "Sval.C18_empty"
   ],
   "note": ""
  },
  {
   "property": "C19",
   "status": "partial",
   "theorems": [
    "Sval.C19_well_formed_partial",
    "Sval.C19_exact",
    "Sval.C19_fails_nested_enum",
    "Sval.C19_fails_labelled_key",
    "Sval.C19_fails_raw_key",
    "Sval.C19_fails_enum_scalar",
    "Sval.C19_fails_number"
   ],
   "note": "False as stated: five kinds of values give malformed JSON (C19_fails_*). Proved for every value that has a meaning as JSON and avoids exactly those (safe). For maps with a name on both sides of an entry C19_exact says precisely what happens: one closing brace is missing for each such entry, so the output is well-formed iff there is none."
  },
  {
   "property": "C20",
   "status": "partial",
   "theorems": [
    "Sval.C20_round_trip_partial",
    "Sval.C20_fails_number_tag"
   ],
   "note": "As C19: for every value in that domain the output parses to the document the value means, and to nothing else. Finite floats mean the number ryu spells (ryu is a parameter). A native integer tagged NUMBER comes out multiplied by ten."
  },
  {
   "property": "C21",
   "status": "proved",
   "theorems": [
    "Sval.C21_escape_exact",
    "Sval.C21_injective",
    "Sval.C21_bytes"
   ],
   "note": "All texts, all fragmentations; the byte loop never splits a character."
  },
  {
   "property": "C22",
   "status": "partial",
   "theorems": [
    "Sval.C22_fragments_partial",
    "Sval.C22_fails_number",
    "Sval.C22_number_exact"
   ],
   "note": "All values, all fragmentations, including text tagged NUMBER that is a number the formatter gets right. False for other text tagged NUMBER (C22_fails_number). C22_number_exact: a grammar of exactly the texts tagged NUMBER for which the split makes no difference."
  },
  {
   "property": "C23",
   "status": "partial",
   "theorems": [
    "Sval.C23_number_partial",
    "Sval.C23_number_fails",
    "Sval.C23_exact",
    "Sval.C23_panics",
    "Sval.C19_fails_number",
    "Sval.C23_panic_exact"
   ],
   "note": "False for numbers with zero integral part, no fraction and an exponent. C23_exact: the numbers that come out as a JSON number with the same value, however split, are exactly the others. Non-conforming text can panic (C23_panics); C23_panic_exact says exactly which text, in which fragments, does, and that all other text is written."
  },
  {
   "property": "C24",
   "status": "proved",
   "theorems": [
    "Sval.C24_complex_key",
    "Sval.C24_scalar_key",
    "Sval.C24_text_key"
   ],
   "note": "Any context, any nesting of tags, enums and hints around the key."
  },
  {
   "property": "C25",
   "status": "partial",
   "theorems": [
    "Sval.C25_io_partial",
    "Sval.C25_io_short_writes",
    "Sval.C25_to_vec",
    "Sval.C25_fails_zero",
    "Sval.C25_exact",
    "Sval.C25_exact_no_errors"
   ],
   "note": "All schedules of short writes, interrupts and errors; false for writers that answer Ok(0), which lose bytes silently (C25_fails_zero). C25_exact says what happens for every schedule: success is reported just when streaming to a string succeeds, bytes are missing just when the writer answered Ok(0), at least one for each such answer, and a reported I/O error is the writer's last answer, given before it had got everything."
  },
  {
   "property": "C26",
   "status": "partial",
   "theorems": [
    "Sval.C26_layout_partial",
    "Sval.C26_exact",
    "Sval.C26_fails"
   ],
   "note": "Holds for values in which no enum has an empty variant. C26_fails: the label of the enum is printed after an empty variant (enum_end looks at the flag left by the innermost container). C26_exact gives the output for every value."
  },
  {
   "property": "C27",
   "status": "proved",
   "theorems": [
    "Sval.C27_recoverable",
    "Sval.C27_injective",
    "Sval.C27_fragments",
    "Sval.C27_errors"
   ],
   "note": ""
  },
  {
   "property": "C28",
   "status": "partial",
   "theorems": [
    "Sval.C28_dense_partial",
    "Sval.C28_count",
    "Sval.C28_fails"
   ],
   "note": "Proved for values without tagged enums at the root or nested maps, entries with implicit indexes. False for enums whose variant holds a value and has an offset other than 0 (C28_fails). What happens with all other values and indexes is exactly C29_exact, C29_tagged_exact and C29_tagged_wraps, and at the limits of isize C83."
  },
  {
   "property": "C29",
   "status": "partial",
   "theorems": [
    "Sval.C29_exact",
    "Sval.C29_tagged_exact",
    "Sval.C29_tagged_wraps",
    "Sval.C29_partial",
    "Sval.C29_fails"
   ],
   "note": "C29_exact and C29_tagged_exact (C29_tagged_wraps without overflow checks) give the calls for every value. False for nested maps: flattener.rs:305 passes map_key_end through as map_key_begin (C29_fails); and for tagged enums, which get an end without a begin and then panic (C29_tagged_exact)."
  },
  {
   "property": "C30",
   "status": "partial",
   "theorems": [
    "Sval.C30_exact",
    "Sval.C30_labels_partial",
    "Sval.C30_text",
    "Sval.C30_fails"
   ],
   "note": "Proved for keys made of text and words, or of one number. False for composite keys with a number in them (C30_fails); C30_exact says what they become."
  },
  {
   "property": "C31",
   "status": "partial",
   "theorems": [
    "Sval.C31_nothing_partial",
    "Sval.C31_exact",
    "Sval.C31_fails"
   ],
   "note": "Proved for all such values but tagged enums, which panic (C31_fails) or, without overflow checks, get an end without a begin (C29_tagged_wraps). C31_exact: exactly these, in both kinds of builds."
  },
  {
   "property": "C32",
   "status": "partial",
   "theorems": [
    "Sval.C32_partial",
    "Sval.C32_parts_partial",
    "Sval.C32_exact",
    "Sval.C32_parts_exact",
    "Sval.C32_unique",
    "Sval.C32_methods",
    "Sval.C32_rust",
    "Sval.C32_first",
    "Sval.C32_fails"
   ],
   "note": "For every value tree, and for any code that streams it directly or hands over parts with value / value_computed, a recursive stream that looks into everything sees that tree, for every recursive stream and every failure. C32_exact, C32_parts_exact: it sees exactly that tree and no other, and sees nothing if an enum somewhere in the value is not supported; C32_unique: it never sees two trees, whatever the code does. False (C32_fails) for enums whose content is not a variant and enums in enums with a tuple or record variant, which fail or panic (C34_exact). Record tuples reach recursive streams as records by design; labels are kept as owned text, without the label's own tag. C32_rust: all standard and derived Rust values are supported. C32_first: the first method gets exactly the value's tag, index and count, and its label, which keeps a tag of its own unless it owns its text."
  },
  {
   "property": "C33",
   "status": "partial",
   "theorems": [
    "Sval.C33_fails",
    "Sval.C33_fails_json",
    "Sval.C33_partial",
    "Sval.C33_handed_over",
    "Sval.C33_exact",
    "Sval.C33_methods_unique"
   ],
   "note": "False as stated: seq_value_begin and seq_value_end are not passed to the value buffer, so the elements of a sequence inside a buffered element come without them. The element of [[1,2]] is written as the JSON [12] (C33_fails_json). Proved: every element streams the calls of a value with the same tree up to exactly those calls, and with all calls if it contains no sequence; elements handed over with value are passed on untouched. C33_exact: for a value that makes its calls itself every argument streams the calls of a value with the same tree without any of the calls around elements, and these are the calls of some value just if every sequence in it is empty; the methods and arguments are unique (C33_methods_unique)."
  },
  {
   "property": "C34",
   "status": "partial",
   "theorems": [
    "Sval.C34_exact",
    "Sval.C34_fails",
    "Sval.C34_partial"
   ],
   "note": "False as stated: an enum in an enum with a tuple or record variant hits an assertion. C34_exact says exactly which values panic, for every recursive stream that does not panic itself."
  },
  {
   "property": "C35",
   "status": "proved",
   "theorems": [
    "Sval.C35",
    "Sval.C35_calls",
    "Sval.C35_indexes"
   ],
   "note": "On any stream, failing or not, a serde value does what the sval tree it stands for does; tuple indexes count from zero."
  },
  {
   "property": "C36",
   "status": "partial",
   "theorems": [
    "Sval.C36_partial",
    "Sval.C36_exact_partial",
    "Sval.C36_fails"
   ],
   "note": "Same calls on any serializer, failing or not, up to char and collect_str which become serialize_str (C36_fails)."
  },
  {
   "property": "C37",
   "status": "partial",
   "theorems": [
    "Sval.C37_partial",
    "Sval.C37_calls",
    "Sval.C37_exact",
    "Sval.C37_fails",
    "Sval.C37_panics",
    "Sval.C37_rust_partial",
    "Sval.C37_rust_fails"
   ],
   "note": "Exact set of values that serialize. Arrays do not (C37_fails); tuples in nested enums panic (C37_panics). C37_rust_partial: the round trip for Rust and derived values without arrays, numbers as text, data tags; C37_rust_fails: arrays, byte arrays and stream_number cannot be serialized."
  },
  {
   "property": "C38",
   "status": "proved",
   "theorems": [
    "Sval.C38",
    "Sval.C38_calls",
    "Sval.C38_computed",
    "Sval.C38_sizes",
    "Sval.C38_lengths"
   ],
   "note": "For standard impls and derived types without flatten. All sizes of containers and bytes are given, and through sval_serde all lengths."
  },
  {
   "property": "C39",
   "status": "partial",
   "theorems": [
    "Sval.C39_fields",
    "Sval.C39_discriminants",
    "Sval.C39_distinct_partial",
    "Sval.C39_fields_partial",
    "Sval.C39_fails",
    "Sval.C39_fields_exact",
    "Sval.C39_variants_exact"
   ],
   "note": "Implicit indexes are 0..n, and variants whose discriminants are literals get exactly Rust's discriminants. False with explicit ones: an #[sval(index)] on a variant does not advance the counter, nor does a discriminant that is a path; explicit field indexes can repeat earlier implicit ones. C39_fields_exact and C39_variants_exact say, for any mix of indexes that are given and not, exactly when all are different: no two runs of indexes meet."
  },
  {
   "property": "C40",
   "status": "partial",
   "theorems": [
    "Sval.C40_exact",
    "Sval.C40_values",
    "Sval.C40_labels",
    "Sval.C40_indexes_partial",
    "Sval.C40_fails",
    "Sval.C40_fails_maps"
   ],
   "note": "All structs and enums, with and without flattened fields, at any nesting. Partial: with explicit indexes before a flattened field two fields can get the same index (C40_fails), and flattened values with maps in them are not balanced (C40_fails_maps, from C29)."
  },
  {
   "property": "C41",
   "status": "partial",
   "theorems": [
    "Sval.C41_checked",
    "Sval.C41_exact",
    "Sval.C41_room",
    "Sval.C41_partial",
    "Sval.C41_fails"
   ],
   "note": "With overflow checks the counters accept exactly the legal histories with room for every bracket (the two counters and one more fit in u64), at any depth, and then agree with a stack of brackets. In any build they agree with it on legal histories with room, and completely up to 91 open brackets. False beyond: some legal histories of 92 pushes are refused, and without overflow checks the counters can name the wrong bracket."
  },
  {
   "property": "C42",
   "status": "proved",
   "theorems": [
    "Sval.C42",
    "Sval.C42_nested"
   ],
   "note": ""
  },
  {
   "property": "C43",
   "status": "partial",
   "theorems": [
    "Sval.C43_partial",
    "Sval.C43_exact",
    "Sval.C43_number_exact",
    "Sval.C43_fails_ident",
    "Sval.C43_fails_number"
   ],
   "note": "Proved, for collect and collect_owned, for all values whose labels tagged VALUE_IDENT need no escaping and whose text tagged NUMBER is a number or in one fragment. False otherwise: the buffer drops label tags, and the formatter reads some split numbers differently. C43_exact: for values whose text tagged NUMBER is a number, and that can be formatted, the JSON is the same exactly if no label tagged VALUE_IDENT needs escaping. C43_number_exact: for which texts tagged NUMBER it is the same, however split."
  },
  {
   "property": "C44",
   "status": "proved",
   "theorems": [
    "Sval.C44_append_only",
    "Sval.C44_prefix"
   ],
   "note": "Any code, any calls, well-formed or not."
  },
  {
   "property": "C45",
   "status": "proved",
   "theorems": [
    "Sval.C45_tag_exact"
   ],
   "note": ""
  },
  {
   "property": "C46",
   "status": "proved",
   "theorems": [
    "Sval.C46_label_memory_safe"
   ],
   "note": ""
  },
  {
   "property": "C47",
   "status": "partial",
   "theorems": [
    "Sval.C47_counterexample",
    "Sval.C47_collect_text_partial",
    "Sval.C47_collect_binary_partial",
    "Sval.C47_panic_only_if_no_call_failed",
    "Sval.C47_panic",
    "Sval.C47_binary_exact",
    "Sval.C47_text_no_alloc",
    "Sval.C47_binary_no_alloc",
    "Sval.C47_no_alloc_agrees"
   ],
   "note": "False as stated: a value that fails by itself makes both collect functions panic on an unwrap. Proved for values that do not fail by themselves, with alloc and without."
  },
  {
   "property": "C48",
   "status": "proved",
   "theorems": [
    "Sval.C48_to_string_panics"
   ],
   "note": ""
  },
  {
   "property": "C49",
   "status": "partial",
   "theorems": [
    "Sval.C49_display_partial",
    "Sval.C49_display_error",
    "Sval.C49_fails",
    "Sval.C49_exact",
    "Sval.C49_stays_broken",
    "Sval.C49_fails_ignored"
   ],
   "note": "Fails only if a write failed; always succeeds on a String. C49_fails: a failed write is reported as success if the message that replaces the error can be written. C49_exact: that is the only way, for code that uses `?`; C49_stays_broken: so the claim is true of writers that keep failing once they have failed. C49_fails_ignored: code that ignores errors can hide any failure."
  },
  {
   "property": "C50",
   "status": "proved",
   "theorems": [
    "Sval.C50_display_value",
    "Sval.C50_display_error"
   ],
   "note": ""
  },
  {
   "property": "C51",
   "status": "partial",
   "theorems": [
    "Sval.C51_partial",
    "Sval.C51_exact",
    "Sval.C51_fails"
   ],
   "note": "The error of an element is replaced (C51_fails); errors are kept for values without elements, and for all serializers exactly for those (C51_exact). C37_calls says exactly which error is returned."
  },
  {
   "property": "C52",
   "status": "proved",
   "theorems": [
    "Sval.C52"
   ],
   "note": "For arbitrary code and any recursive stream, as an invariant over executions."
  },
  {
   "property": "C53",
   "status": "partial",
   "theorems": [
    "Sval.C53_partial",
    "Sval.C53_nesting",
    "Sval.C53_arrays",
    "Sval.C53_exact",
    "Sval.C53_checked",
    "Sval.C53_builds",
    "Sval.C53_holds",
    "Sval.C53_fails"
   ],
   "note": "False as stated (C53_fails). C53_builds says exactly which documents are read, in any build: those whose strings use no escapes but \\n \\r \\\" \\\\\\\\, whose numbers use no E, and whose brackets the counters can hold (holds; with overflow checks: those there is room for, C53_holds; any nested no deeper than 91, arrays only at any depth). The calls are then those of the value; no document is read as another value. Other documents with room panic (C53_exact)."
  },
  {
   "property": "C54",
   "status": "proved",
   "theorems": [
    "Sval.C54",
    "Sval.C54_moves"
   ],
   "note": ""
  },
  {
   "property": "C55",
   "status": "partial",
   "theorems": [
    "Sval.C55_exact",
    "Sval.C55_checked",
    "Sval.C55_partial",
    "Sval.C55_fails"
   ],
   "note": "False as stated: text that is not JSON can be accepted, or panic (C55_fails). C55_exact: a grammar of exactly the texts that are accepted, and which of the others are refused and which panic, for all texts with at most 91 opening brackets in any build; C55_checked: what is accepted, for all texts, in builds with overflow checks. Nesting of the calls is proved for all texts (builds without overflow checks: up to 91 brackets)."
  },
  {
   "property": "C56",
   "status": "partial",
   "theorems": [
    "Sval.C56_partial"
   ],
   "note": "For the documents C53 holds for; where reading fails see C53_exact."
  },
  {
   "property": "C57",
   "status": "partial",
   "theorems": [
    "Sval.C57_partial",
    "Sval.C57_ints",
    "Sval.C57_tag_partial",
    "Sval.C57_tag_exact",
    "Sval.C57_fails_int",
    "Sval.C57_fails_tag"
   ],
   "note": "False for integers (an integer converts to its own type although the default conversion of what it streams, and so that of a transparent newtype around it, does not) and for tags of transparent newtypes. Proved for booleans, floats, text and bytes of all values, for integers exactly (C57_ints), for tags exactly (C57_tag_exact: all values but transparent newtypes whose tag is not that of what they hold)."
  },
  {
   "property": "C58",
   "status": "partial",
   "theorems": [
    "Sval.Test.C58_exact",
    "Sval.Test.C58_partial",
    "Sval.Test.C58_valid",
    "Sval.Test.C58_shown",
    "Sval.Test.C58_fails_hint",
    "Sval.Test.C58_fails_zero",
    "Sval.Test.C58_fails_nan"
   ],
   "note": "False as stated: hints of labels and indexes and the sign of zero are not noticed, and a NaN passes with no list. C58_exact says what passing means for every value and list."
  },
  {
   "property": "C59",
   "status": "partial",
   "theorems": [
    "Sval.C59_exact",
    "Sval.C59_order",
    "Sval.C59_type",
    "Sval.C59_variant_partial",
    "Sval.C59_fields_partial",
    "Sval.C59_variant_fields_partial",
    "Sval.C59_fails_unlabeled",
    "Sval.C59_fails_dynamic",
    "Sval.C59_fails_tag",
    "Sval.C59_fails_flatten"
   ],
   "note": "C59_exact: which items compile and what is read from them, C59_order: order and grouping do not matter, C59_type: attributes of types are honoured. False in full: labels of variants with unlabeled_variants, tags, labels and indexes of newtype variants of dynamic enums, tags of fields without label and index, and tags and labels of flattened fields are dropped in silence (C59_fails_*). The partial theorems are about all other variants and fields."
  },
  {
   "property": "C60",
   "status": "partial",
   "theorems": [
    "Sval.C60_exact",
    "Sval.C60_calls_partial",
    "Sval.C60_fails",
    "Sval.C60_token",
    "Sval.C60_generic",
    "Sval.C60_byRef",
    "Sval.C60_decorate",
    "Sval.C60_leaves",
    "Sval.C60_errors"
   ],
   "note": "False as stated: write_map_value_begin gets a wrong is_first when the key is a container or tagged (C60_fails), and an enum whose variant has nothing in it repeats its label (C26_fails). C60_calls_partial characterises exactly the values for which the calls are right; C60_exact gives the calls for all others. The remaining parts are proved for all writers and values."
  },
  {
   "property": "C61",
   "status": "proved",
   "theorems": [
    "Sval.C61",
    "Sval.C61_parts",
    "Sval.C61_all",
    "Sval.C61_int"
   ],
   "note": "For the values recursive streams support, which are those of C32 (C34_exact says what happens otherwise). `Gets` asks for a depth of calls from which on the result does not depend on it: the provided methods end."
  },
  {
   "property": "C62",
   "status": "proved",
   "theorems": [
    "Sval.C62",
    "Sval.C62_once",
    "Sval.C62_capacity",
    "Sval.C62_buffer",
    "Sval.C62_unwind"
   ],
   "note": "For all histories. C62_unwind is for a Clone of the values that may panic at any value, with the panic caught and the vector used again. Drop of the values is assumed not to panic. C62_buffer ties the vector to the model of ValueBuf without alloc."
  },
  {
   "property": "C63",
   "status": "partial",
   "theorems": [
    "Sval.C63_partial",
    "Sval.C63_loose_partial",
    "Sval.C63_text"
   ],
   "note": "The exact text, for the values that C19 and C20 hold for (value, safe), and for maps with names on both sides of an entry (loose); for the others C19_fails_* show wrong text. Strings in full. The spelling of floats is a parameter (ryu)."
  },
  {
   "property": "C64",
   "status": "partial",
   "theorems": [
    "Sval.C64_verbatim",
    "Sval.C64_embed_partial",
    "Sval.C64_self_partial",
    "Sval.C64_fails"
   ],
   "note": "Copying is proved for all texts and histories. Replacing parts is proved for the values that C19 and C20 hold for, any set of parts; C64_fails: false of a labelled value behind a labelled key."
  },
  {
   "property": "C65",
   "status": "partial",
   "theorems": [
    "Sval.C65_partial",
    "Sval.C65_value_partial",
    "Sval.C65_fails"
   ],
   "note": "For the documents C53 holds for; where reading fails see C53_exact. For values: those C63 is about whose text can be read. C65_fails: false if JSON with whitespace was copied into the text (JSON_VALUE)."
  },
  {
   "property": "C66",
   "status": "proved",
   "theorems": [
    "Sval.C66_fmt",
    "Sval.C66_nested",
    "Sval.C66_serde"
   ],
   "note": "Recursive streams and serde: values that sval_nested supports, as in C32."
  },
  {
   "property": "C67",
   "status": "partial",
   "theorems": [
    "Sval.C67_partial",
    "Sval.C67_usual_partial",
    "Sval.C67_exact",
    "Sval.C67_fails_unit",
    "Sval.C67_fails_map"
   ],
   "note": "Exact: a serde value that has a document is written as it iff no map has an entry whose key and value both have a name (struct, newtype, enum, Some), C67_exact; otherwise the output is malformed, C67_fails_map. Unit structs are written as their name and not as null: C67_fails_unit."
  },
  {
   "property": "C68",
   "status": "partial",
   "theorems": [
    "Sval.C68_partial",
    "Sval.C68_ref_partial",
    "Sval.C68_exact",
    "Sval.C68_fails_map",
    "Sval.C68_fails_tag",
    "Sval.C68_fails_number"
   ],
   "note": "Exact for tidy values, C68_exact: well-formed iff no map has an entry whose key and value both have a name (C68_fails_map: malformed JSON). Not tidy are values with tags that say that data is a number or JSON (C68_fails_tag: false), and numbers in text like 0e5 (C68_fails_number). Flattened fields are in C69."
  },
  {
   "property": "C69",
   "status": "partial",
   "theorems": [
    "Sval.C69_partial",
    "Sval.C69_struct_partial",
    "Sval.C69_numbered_partial",
    "Sval.C69_array_partial",
    "Sval.C69_fails_enum",
    "Sval.C69_enum_tree_partial",
    "Sval.C69_enum_partial",
    "Sval.C69_enum_exact"
   ],
   "note": "Proved for structs with and without names for their fields, whose flattened fields are structs, tuples, arrays, or maps with simple keys, behind newtypes, references or Some, also nested; numbered elements without explicit indexes; values that are not collections (None, numbers, text), which have no members; dynamic enums. False for other enums (C69_fails_enum): C69_enum_partial says which members a flattened enum has instead, none for unit variants, its own for newtypes, those of the content without the variant's name else; C69_enum_exact: they are its own exactly for newtypes and for variants with neither name nor index."
  },
  {
   "property": "C70",
   "status": "proved",
   "theorems": [
    "Sval.C70",
    "Sval.C70_exact",
    "Sval.C70_exact_owned",
    "Sval.C70_debug",
    "Sval.C70_feature",
    "Sval.C70_fails_careless"
   ],
   "note": "C70 for all code that uses ?; C70_fails_careless shows that hypothesis is needed. C70_exact and C70_exact_owned say which values fit, onePart being defined on the value alone. C70_debug says that builds where a lack of allocator panics do so exactly where others fail for it."
  },
  {
   "property": "C71",
   "status": "proved",
   "theorems": [
    "Sval.C71",
    "Sval.C71_debug",
    "Sval.C71_alloc",
    "Sval.C71_rust",
    "Sval.C71_fails_char"
   ],
   "note": "C71 for all code that uses ? and any recursive stream, in all builds where a lack of allocator is an error; C71_debug for all builds. C71_rust says that values of Rust types that need no copies are seen, all the way down, in every build; C71_fails_char is one that is not."
  },
  {
   "property": "C72",
   "status": "partial",
   "theorems": [
    "Sval.C72_fails",
    "Sval.C72_partial",
    "Sval.C72_exact",
    "Sval.C72_buffer"
   ],
   "note": "Holds for sval_buffer (C72_buffer). False for sval_nested: its error.rs asks for a cfg no_debug_assertions, not for the feature of that name which its Cargo.toml declares, so that the feature has no effect whatever (C72_exact) and such a build panics (C72_fails). C72_partial: the cfg has the effect."
  },
  {
   "property": "C73",
   "status": "proved",
   "theorems": [
    "Sval.C73",
    "Sval.C73_alone",
    "Sval.C73_width",
    "Sval.C73_read",
    "Sval.C73_plain"
   ],
   "note": "Display and pad_integral of core are modelled after its source; Display of floats is a parameter"
  },
  {
   "property": "C74",
   "status": "partial",
   "theorems": [
    "Sval.C74_exact",
    "Sval.C74_partial",
    "Sval.C74_iff",
    "Sval.C74_fails"
   ],
   "note": "False: stream_to_string writes floats with ryu, ToFmt with Display: 1.0 and 1. Proved for values whose floats both write alike, and shown to hold for all values just if both write all floats alike"
  },
  {
   "property": "C75",
   "status": "proved",
   "theorems": [
    "Sval.C75_fmt",
    "Sval.C75_nested",
    "Sval.C75_serde"
   ],
   "note": "With alloc; for sval_json see C22. Recursive streams and serde: for values that they support at all (supported)"
  },
  {
   "property": "C76",
   "status": "proved",
   "theorems": [
    "Sval.C76",
    "Sval.C76_free",
    "Sval.C76_exact",
    "Sval.C76_plain"
   ],
   "note": "Any code that propagates errors, any stream (C76); exactly what arrives for every value whose offsets fit (C76_free, C76_exact). C76_free is for values without a tagged enum at the root, which panic with and without alloc (C29_tagged_exact). Builds with debug assertions, where sval_buffer panics instead of failing (C70, C72), are outside this model of sval_flatten."
  },
  {
   "property": "C77",
   "status": "partial",
   "theorems": [
    "Sval.C77_partial",
    "Sval.C77_text",
    "Sval.C77_fails_char",
    "Sval.C77_fails_float",
    "Sval.C77_fails_std",
    "Sval.C77_fails_derived",
    "Sval.C77_fails_attributes"
   ],
   "note": "False as documented. Proved for all values that are alike (Rust/Debug), each exclusion has a witness; texts, characters and floats are settled for every value (C77_text, C77_fails_char, C77_fails_float). Debug of core and of derived types is specified, not modelled after source"
  },
  {
   "property": "C78",
   "status": "partial",
   "theorems": [
    "Sval.C78_fmt",
    "Sval.C78_fmt_numbered",
    "Sval.C78_fmt_tuple",
    "Sval.C78_serde_fails"
   ],
   "note": "Proved for ToFmt: structs with names for their fields whose flattened fields have entries with labels or keys or none (C78_fmt), or also elements without names, which are written with their number, if no indexes are given (C78_fmt_numbered), and structs without names, whatever is flattened (C78_fmt_tuple); false for serde, for every such struct and every serializer."
  },
  {
   "property": "C79",
   "status": "partial",
   "theorems": [
    "Sval.C79_calls",
    "Sval.C79_iff",
    "Sval.C79_partial",
    "Sval.C79_usual_partial",
    "Sval.C79_rust_partial",
    "Sval.C79_fails_record",
    "Sval.C79_fails_dynamic"
   ],
   "note": "The calls are the same for every value that is accepted; the JSON is the same for values with names on records (alike) that sval_json writes correctly; false for records without a name and for dynamic enums whose variants have fields (witnesses)."
  },
  {
   "property": "C80",
   "status": "partial",
   "theorems": [
    "Sval.C80_partial",
    "Sval.C80_again_partial",
    "Sval.C80_fails",
    "Sval.C80_exact"
   ],
   "note": "Exact for all values that C20 is about, in any build: C80_exact says that what is written is read exactly if its strings use only the escapes the reader knows, its numbers no E, and the counters can hold its brackets, and that then it is the same document. False for control characters, on which the reader panics (C80_fails)."
  },
  {
   "property": "C81",
   "status": "partial",
   "theorems": [
    "Sval.C81_prog",
    "Sval.C81_serde_partial",
    "Sval.C81_serde_exact",
    "Sval.C81_buffer_partial",
    "Sval.C81_nested_partial",
    "Sval.C81_fmt_partial",
    "Sval.C81_fails"
   ],
   "note": "False for serde and documents with numbers (C81_fails, C81_serde_exact: exactly those are refused). Otherwise proved for all documents that the reader reads (C53_exact says which)."
  },
  {
   "property": "C82",
   "status": "proved",
   "theorems": [
    "Sval.C82_exact",
    "Sval.C82_fate",
    "Sval.C82_same",
    "Sval.C82_calm",
    "Sval.C82_doc",
    "Sval.C82_serde",
    "Sval.C82_rust",
    "Sval.C82_odd"
   ],
   "note": "C82_exact: for every value, with a text to write to, exactly which of the two outcomes there is, by a specification that is a function of the value only (`refused`), and when there can be a panic (`calm`). C82_fate: exactly which of three outcomes there is, panics included, by a specification that is a function of the value only (`fate`), for every writer that does not fail. C82_same: for any code, in any order, errors ignored or not, the outcome is the same for all such writers. C82_doc: for values that use tags and enums as they are meant to be used (`usual`), refused exactly if there is no document. C82_serde: all serde values. C82_rust: values of Rust types without flattened fields, without tags that say that text is a number or JSON, and whose numbers in text are numbers. C82_odd: values refused for another reason than a key. That finite floats are spelled as numbers is an assumption on the formatting of floats, `Env.Numbers`, met by `anyEnv`. Writers that fail: C25."
  },
  {
   "property": "C83",
   "status": "proved",
   "theorems": [
    "Sval.C83_wraps",
    "Sval.C83_panics",
    "Sval.C83_panics_iff",
    "Sval.C83_builds",
    "Sval.C83_wraps_dense",
    "Sval.C83_differ"
   ],
   "note": "With alloc. C83_wraps: exact calls and result without overflow checks, for every value and offset. C83_panics, C83_panics_iff: with checks, exactly when and after which calls (a tagged enum whose offsets fit is C29_tagged_exact). isize has 64 bits; the nesting depth, a usize, is taken to be less than 2^64."
  },
  {
   "property": "C84",
   "status": "partial",
   "theorems": [
    "Sval.C84_partial",
    "Sval.C84_panics",
    "Sval.C84_wraps",
    "Sval.C84_same_partial",
    "Sval.C84_fails"
   ],
   "note": "Proved for all values; the label of a map key stays the same unless there is a text without fragments in it, when it can become empty (C84_fails: after a number). C84_same_partial: the containers are then buffered, formatted and seen by recursive streams as the same (no nested maps, which flattening breaks, C29)."
  },
  {
   "property": "C85",
   "status": "proved",
   "theorems": [
    "Sval.C85_text",
    "Sval.C85_binary",
    "Sval.C85_collect",
    "Sval.C85_casts",
    "Sval.C85_text_fragments",
    "Sval.C85_binary_fragments"
   ],
   "note": "Equality of effects on every stream; JSON, formatted text and collected buffer of any pushed fragments."
  },
  {
   "property": "C86",
   "status": "proved",
   "theorems": [
    "Sval.C86_serializer",
    "Sval.C86",
    "Sval.C86_refuses",
    "Sval.C86_rust",
    "Sval.C86_again",
    "Sval.C86_unchanged",
    "Sval.C86_json_partial",
    "Sval.C86_fails"
   ],
   "note": "C86 gives the value that arrives for every serializable value and C86_refuses covers the others that sval_nested supports (C34 has the rest). C86_rust is both for the values of Rust types. C86_json_partial: the same JSON, within C79_partial. C86_fails: it need not be the value itself."
  },
  {
   "property": "C87",
   "status": "proved",
   "theorems": [
    "Sval.C87_slice",
    "Sval.C87_reader",
    "Sval.C87_number",
    "Sval.C87_fmt",
    "Sval.C21_bytes"
   ],
   "note": "Refinement between the code over bytes and the models over characters; escape_str is C21_bytes."
  },
  {
   "property": "C88",
   "status": "proved",
   "theorems": [
    "Sval.C88_buffer",
    "Sval.C88_static",
    "Sval.C88_fragments",
    "Sval.C88_provided",
    "Sval.C88_collect",
    "Sval.C88_collect_owned",
    "Sval.C88_collect_text",
    "Sval.C88_collect_binary"
   ],
   "note": "Lifetimes are modelled as whether a fragment or label was given as borrowed, owned or static; that what is owned is freed only with its owner is Rust's."
  },
  {
   "property": "C89",
   "status": "partial",
   "theorems": [
    "Sval.C89_partial",
    "Sval.C89_release_partial",
    "Sval.C89_rust",
    "Sval.C89_alloc",
    "Sval.C89_fails",
    "Sval.C89_fails_serializer"
   ],
   "note": "Same result or an error for every propagating value and every serializer that returns the errors of its arguments; in builds with debug assertions also a panic. False as documented: a derived struct with a char field needs the feature (C89_fails), and a serializer that swallows errors returns Ok with less (C89_fails_serializer). Values of Rust types without chars, Displays, data tags, computed labels or unlabeled unindexed fields never need it, for every serializer (C89_rust)."
  },
  {
   "property": "C90",
   "status": "proved",
   "theorems": [
    "Sval.C90",
    "Sval.C90_recorded",
    "Sval.C90_same",
    "Sval.C90_alloc"
   ],
   "note": "C90 has all of it, for every build. Code that goes on after an error can run into a panic of a buffer (an example is given): the recursive stream is not called again then either. Code is a function of the results that it gets: values that change while they are streamed are not modelled."
  },
  {
   "property": "C91",
   "status": "proved",
   "theorems": [
    "Sval.C91_json",
    "Sval.C91_json_text",
    "Sval.C91_fmt",
    "Sval.C91_fmt_token",
    "Sval.C91_fmt_options",
    "Sval.C91_fmt_generic",
    "Sval.C91_extract",
    "Sval.C91_collect",
    "Sval.C91_replay",
    "Sval.C91_not_serde",
    "Sval.C91_nested",
    "Sval.C91_serde_ends",
    "Sval.C91_flatten",
    "Sval.C91_flatten_text"
   ],
   "note": "What each receiver looks at is the small specification Json.seen, Fmt.seen, Fmt.seenD and Token.unhint; Prog.Alike says that two pieces of code are the same up to that. C91_not_serde is the last sentence, with a tuple. C91_flatten: flattening into a stream that ignores size hints ignores them; C91_flatten_text: into JSON and formatted text. C91_nested, C91_serde_ends: a recursive stream that does not look at the sizes of texts and at what is repeated at ends in the values it is given is called the same without them, and so is any serializer, by all code."
  },
  {
   "property": "C92",
   "status": "proved",
   "theorems": [
    "Sval.C92_default",
    "Sval.C92_computed",
    "Sval.C92_buffer",
    "Sval.C92_recursive",
    "Sval.C92_from_serde",
    "Sval.C92_to_serde"
   ],
   "note": "Values of Rust types give right sizes by C38, derived structs with flattened fields by C40. Recursive streams get texts and bytes whole, without a size, so for them only right sizes are claimed; that counts are passed on is C32_first."
  },
  {
   "property": "C93",
   "status": "partial",
   "theorems": [
    "Sval.C93_json",
    "Sval.C93_json_io",
    "Sval.C93_fmt",
    "Sval.C93_buffer",
    "Sval.C93_nested_partial",
    "Sval.C93_nested_on_partial",
    "Sval.C93_nested_panics_partial",
    "Sval.C93_nested_exact_partial",
    "Sval.C93_nested_calls_exact",
    "Sval.C93_fails_json",
    "Sval.C93_fails_buffer",
    "Sval.C93_fails_nested",
    "Sval.C93_flatten_unchecked",
    "Sval.C93_flatten",
    "Sval.C93_flatten_exact",
    "Sval.C93_fails_flatten",
    "Sval.C93_buffer_noalloc",
    "Sval.C93_fails_buffer_noalloc"
   ],
   "note": "False as stated: C93_fails_json, C93_fails_buffer, C93_fails_nested and C93_fails_flatten are panics. sval_fmt never panics (C93_fmt); C93_json says what a panic of sval_json takes, for any writer; C93_buffer is an equivalence, and C93_buffer_noalloc another for builds without an allocator, where a buffer also panics if something begins when it is full and something ends nevertheless (C93_fails_buffer_noalloc); flattening never panics without overflow checks (C93_flatten_unchecked), with them C93_flatten says what a panic takes and C93_flatten_exact is an equivalence for streams that do not fail (indexes in the range of isize, for which see C83). Recursive streams: C93_nested_panics_partial says what a panic takes, and C93_nested_exact_partial is an equivalence for recursive streams that do not fail, both for code that calls no fragment after an error until it has begun something again (all code that uses ?, and all code without fragments); C93_nested_calls_exact spells it out for calls in a row. Missing: an exact condition for recursive streams driven by code that calls fragments after errors."
  },
  {
   "property": "C94",
   "status": "proved",
   "theorems": [
    "Sval.C94_json",
    "Sval.C94_json_io",
    "Sval.C94_json_value",
    "Sval.C94_json_six",
    "Sval.C94_fmt",
    "Sval.C94_fmt_value",
    "Sval.C94_buffer",
    "Sval.C94_buffer_back",
    "Sval.C94_default",
    "Sval.C94_reader",
    "Sval.C94_flatten",
    "Sval.C94_flatten_bytes_fails",
    "Sval.C94_nested"
   ],
   "note": "For any code: linear bounds for sval_json to any writer (six per byte, nine per call), sval_fmt (six per byte, five per call) and ValueBuf (one part per call, no more bytes; replay three calls per part, twice the bytes). The six of sval_json is attained for every length. Bytes of floats are those of the formatter taken as parameter. Default methods: nine calls per call and three per byte, three times the bytes. The reader: eight calls per character, no more bytes than read. Flattening: six calls per call, and for the bytes a proof that no linear bound holds for malformed code. Recursive streams: two methods per call."
  },
  {
   "property": "C95",
   "status": "proved",
   "theorems": [
    "Sval.C95",
    "Sval.C95_collect",
    "Sval.C95_code",
    "Sval.C95_noalloc"
   ],
   "note": "Buffers in any state that calls can leave (Reach, also after errors and incomplete); the second buffer in any state between values. An empty buffer counts as a null. C95_code and C95_noalloc quantify over the code that is collected, with and without an allocator."
  },
  {
   "property": "C96",
   "status": "proved",
   "theorems": [
    "Sval.C96",
    "Sval.C96_keeps",
    "Sval.C96_owned",
    "Sval.C96_noalloc"
   ],
   "note": "Exact: for every value tree, what each conversion of its buffer returns. Conversions are the default ones, by streaming, which buffers have; values with conversions of their own are in C57."
  },
  {
   "property": "C97",
   "status": "proved",
   "theorems": [
    "Sval.C97_streams",
    "Sval.C97_fmt",
    "Sval.C97_nested",
    "Sval.C97_nested_code",
    "Sval.C97_serde",
    "Sval.C97_serde_code",
    "Sval.C97_json",
    "Sval.C97_collect"
   ],
   "note": "Places in values are one-hole contexts (Place); Replaced is any number of replacements one after the other, so parts of parts and several parts are covered for fmt, JSON and collect, and for recursive streams and serde at the level of the resulting value. The _code theorems are about the code that hands over one buffer with value or value_computed. The JSON clause is under the condition of C43 (steady), without which already a buffer of the whole gives other JSON (C43_fails_ident, C43_fails_number)."
  },
  {
   "property": "C98",
   "status": "partial",
   "theorems": [
    "Sval.C98_flat",
    "Sval.C98_flat_any",
    "Sval.C98_recursive",
    "Sval.C98_exact",
    "Sval.C98_same_partial",
    "Sval.C98_fails_quote",
    "Sval.C98_fails_combining",
    "Sval.C98_fails_enum"
   ],
   "note": "False as stated. C98_flat and C98_recursive are what each stream prints, for all values (of those supported, for the recursive one). C98_exact says just when the two texts are the same. What core prints for floats is a parameter."
  },
  {
   "property": "C99",
   "status": "proved",
   "theorems": [
    "Sval.C99_native",
    "Sval.C99_forward",
    "Sval.C99_integers",
    "Sval.C99_containers",
    "Sval.C99_tags",
    "Sval.C99_hints"
   ],
   "note": "The fallbacks are pinned down for all sets of implemented methods. C99_tags leaves out the tags, labels and indexes that the default methods use themselves: empty ones on the pairs of a map, and NUMBER on numbers as text, which C99_integers gives exactly."
  }
 ]
}
