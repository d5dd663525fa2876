{"id": "C01", "title": "Default stream methods keep streams balanced", "statement": "If a value makes a well-formed (balanced, correctly nested) sequence of Stream calls, then a Stream that implements only the required methods and any chosen subset of the optional ones (methods that open and close one kind of container being overridden together) receives a well-formed sequence on the methods it does implement: every begin has its matching end, in order, whatever the defaults rewrote.", "quantifier": "all value trees x all subsets of overridden optional Stream methods", "why_tests_cant": "there are 2^30 override subsets and unboundedly many nestings; a test picks one stream and a few values", "anchors": ["src/stream.rs: default_stream", "src/stream.rs: trait Stream"]}
{"id": "C02", "title": "Default stream methods preserve the data", "statement": "Streaming a value into a Stream that overrides any subset of the optional methods delivers the same data as the original calls: same scalars, same text and bytes, maps as sequences of key/value pairs, records as maps from field label to value, tuples as sequences, a bare tag as its label (or null), enum and tag wrappers transparent. The data delivered does not depend on which subset is overridden.", "quantifier": "all value trees x all subsets of overridden methods", "why_tests_cant": "the claim compares every override subset against every other on every nesting", "anchors": ["src/stream.rs: default_stream"]}
{"id": "C03", "title": "Integers survive default widening exactly", "statement": "Any integer of any of the ten widths, streamed to a Stream that only implements i64, arrives either as that same integer through i64, or (exactly when it is outside the i64 range) as one NUMBER-tagged text value whose characters are the canonical decimal spelling of that integer.", "quantifier": "all integers of all ten Rust widths (2^128 values)", "why_tests_cant": "the boundary depends on 128-bit values; exhaustive testing is impossible", "anchors": ["src/stream.rs: default_stream::u8..i128", "src/data/number.rs: stream_u128, stream_i128, stream_number"]}
{"id": "C04", "title": "value_computed never leaks borrowed data", "statement": "A stream that receives a value through value_computed never sees a borrowed text or binary fragment from it: every borrowed fragment arrives as a computed one with the same content, nested value() calls included, and every other call arrives unchanged and in order.", "quantifier": "all value programs (arbitrary call sequences with arbitrarily nested value/value_computed calls)", "why_tests_cant": "lifetime safety must hold for every nesting of value and value_computed; a leak anywhere is a dangling borrow", "anchors": ["src/stream.rs: Computed", "src/stream.rs: default_stream::value_computed"]}
{"id": "C05", "title": "Forwarding wrappers are transparent", "statement": "Streaming into &mut S, Box<S> or a dynamic (object-safe) stream makes exactly the calls on S, with the same arguments, order and results, that streaming into S directly makes; a dynamic value streams exactly what the underlying value streams.", "quantifier": "all value programs x all stream behaviours (including failing ones)", "why_tests_cant": "forwarding covers ~45 methods; one dropped or swapped method only shows for values and streams that use it", "anchors": ["src/stream.rs: impl_stream_forward", "dynamic/src/stream.rs", "dynamic/src/value.rs"]}
{"id": "C06", "title": "A failing stream stops the value immediately", "statement": "If the stream fails at call number k, a value whose code propagates errors makes no further call: the stream has seen exactly the first k calls and the value reports failure. If the stream never fails and the value itself does not fail, all its calls are made.", "quantifier": "all values x all failure points", "why_tests_cant": "failure points are unbounded and the claim is about calls that must not happen", "anchors": ["src/stream.rs", "src/data/seq.rs", "src/data/map.rs"]}
{"id": "C07", "title": "Text and binary extraction are exact", "statement": "Value::to_text (to_binary) returns Some(s) exactly when the value streams, under any tag, enum and hint wrappers, one text (binary) value built from the single borrowed fragment s, or (text only) a bare tag labelled with the static string s. Whatever code the value runs, it never returns a computed, partial or concatenated string.", "quantifier": "all values (arbitrary call sequences)", "why_tests_cant": "fragmentation patterns are unbounded", "anchors": ["src/value.rs: default_value::to_text", "src/value.rs: default_value::to_binary"]}
{"id": "C08", "title": "Numeric and boolean extraction never fabricate a value", "statement": "The default Value::to_bool/to_i8..to_i128/to_u8..to_u128/to_f32/to_f64 return Some(n) only if the value streamed n itself (the last scalar it streamed) and n fits the requested type; integers extracted are never truncated or wrapped.", "quantifier": "all values x all requested widths", "why_tests_cant": "wrap-around only shows at unbounded many boundary values and call sequences", "anchors": ["src/value.rs: default_value::to_i128", "src/value.rs: default_value::to_u128", "src/data/number.rs"]}
{"id": "C09", "title": "Integer extraction across widths succeeds whenever the number fits", "statement": "For a Rust integer n of any width, v.to_X() returns Some(n) for every integer type X that can represent n, and None otherwise.", "quantifier": "all integers of all widths x all requested widths", "why_tests_cant": "100 source/target pairs times 2^128 values", "anchors": ["src/value.rs: default_value::to_i64", "src/data/number.rs: impl_value"]}
{"id": "C10", "title": "Option is transparent for extraction", "statement": "Some(v) extracts the same bool, integer, float, text and binary as v, and None extracts nothing.", "quantifier": "all values v and all extractors", "why_tests_cant": "quantifies over all values, including those with overridden extractors", "anchors": ["src/data/option.rs"]}
{"id": "C11", "title": "Index conversions are exact", "statement": "Index::to_usize/to_u32/to_u64/to_isize/to_i32/to_i64 of an index built from any integer n return Some(n) exactly when n is representable in the target type and None otherwise; comparison of indexes is comparison of the integers, ignoring hints.", "quantifier": "all integers accepted by an Index constructor x all target types", "why_tests_cant": "the boundaries are at 2^31..2^64", "anchors": ["src/data.rs: Index"]}
{"id": "C12", "title": "Tag and label identity", "statement": "Two tags compare equal exactly when they were created from the same string, and two labels compare equal (and hash equal) exactly when their text is equal, whatever their tag hints, backing or lifetime.", "quantifier": "all strings and all label representations", "why_tests_cant": "tag equality goes through a computed hash id; collisions and truncations are only visible over all strings", "anchors": ["src/data.rs: Tag::new, Tag::compute_id", "src/data.rs: Label"]}
{"id": "C13", "title": "Cloning or owning a label preserves it", "statement": "Cloning a label, or converting it to an owned label, preserves its text, its static-ness and its tag hint.", "quantifier": "all labels", "why_tests_cant": "all representations x hints; found by case analysis", "anchors": ["src/data.rs: Label::clone", "src/data.rs: Label::to_owned", "src/data.rs: Label::try_to_owned"]}
{"id": "C14", "title": "Text and binary buffers concatenate", "statement": "After any sequence of borrowed and computed pushes, a TextBuf (BinaryBuf) holds exactly the concatenation of the fragments in push order; it exposes a borrowed string only if that string is one borrowed fragment it was given, and conversion to an owned buffer preserves content and drops every borrow. Pushing a value that implements Display appends exactly what it writes, and fails exactly if its Display does. The same holds over the whole life of a buffer that is also cleared, assigned from a slice and made owned in between, counting from when it was last empty.", "quantifier": "all sequences of pushes of both kinds", "why_tests_cant": "all interleavings of borrowed/computed/empty fragments", "anchors": ["buffer/src/fragments.rs: FragmentBuf, TextBuf, BinaryBuf, TextBuf::push_display, TextBuf::collect_display"]}
{"id": "C15", "title": "Buffered values replay what they were given", "statement": "Collecting any well-formed value into a ValueBuf and streaming the buffer replays the same calls in the same order, up to a fixed normalisation: the fragments of one text or binary are merged into one with an exact size hint, and labels are owned copies (which drops a label's tag hint, see C13). Normalising twice changes nothing more and the data carried is unchanged. Without an allocator the result is the same or an allocation error.", "quantifier": "all value trees", "why_tests_cant": "the buffer is a flat array with patched-in lengths; an off-by-one only shows at particular nestings", "anchors": ["buffer/src/value.rs: ValueBuf", "buffer/src/value.rs: ValueSlice::stream_ref"]}
{"id": "C16", "title": "ValueBuf completeness tracks balance", "statement": "While a well-formed value is being streamed into an empty ValueBuf, is_complete is true after the last call and false after every strict prefix that has an open container or text.", "quantifier": "all value trees x all prefixes of their call sequences", "why_tests_cant": "quantifies over every prefix of every value", "anchors": ["buffer/src/value.rs: ValueBuf::is_complete"]}
{"id": "C17", "title": "ValueBuf rejects unbalanced ends", "statement": "In every state a ValueBuf can reach by any history of calls (balanced or not, failed or not, clears and ownership conversions included), an end call with no open container makes it fail with an error that leaves the content alone; with one open it closes the innermost. The only call that panics is a text or binary fragment sent to a buffer with nothing in it. The content can always be replayed without panicking. Streaming it makes at least one call, and calls that are properly nested: all that is opened is closed, in order and by the call that closes it, even if the calls it was given were not.", "quantifier": "all reachable buffer states", "why_tests_cant": "all call histories", "anchors": ["buffer/src/value.rs: push_end"]}
{"id": "C18", "title": "Clearing or owning a ValueBuf", "statement": "After clear, a ValueBuf behaves exactly like a new one for every following call sequence; converting a buffer to an owned one changes nothing it replays except that every fragment becomes computed; a new or cleared buffer streams a null.", "quantifier": "all histories before and after clear; all buffers", "why_tests_cant": "all histories", "anchors": ["buffer/src/value.rs: ValueBuf::clear, into_owned"]}
{"id": "C19", "title": "JSON output is well-formed", "statement": "Whenever sval_json reports success for a well-formed value, its output is one syntactically valid JSON document.", "quantifier": "all value trees for which streaming succeeds", "why_tests_cant": "JSON nesting and the internally-tagged flag interact over unbounded nesting; tests try a few shapes", "anchors": ["json/src/to_fmt.rs: Formatter"]}
{"id": "C20", "title": "JSON output round-trips", "statement": "Parsing the JSON output gives back the data that was streamed: numbers by value, text exactly, sequences and tuples as arrays in order, maps and records as objects with entries in order, enum variants as an object keyed by the variant.", "quantifier": "all value trees in the supported domain", "why_tests_cant": "a round trip is a statement about all inputs", "anchors": ["json/src/to_fmt.rs: Formatter", "json/src/to_fmt.rs: escape_str"]}
{"id": "C21", "title": "JSON string escaping is exact and injective", "statement": "Escaping any text yields characters with no raw control character, no raw quote and no lone backslash, and un-escaping by the JSON rules gives exactly the original text; bytes of multi-byte UTF-8 sequences are never touched or split.", "quantifier": "all strings; all byte strings", "why_tests_cant": "all strings", "anchors": ["json/src/to_fmt.rs: escape_str, ESCAPE"]}
{"id": "C22", "title": "JSON text is independent of fragmentation", "statement": "The JSON produced for a text value depends only on the concatenation of its fragments, not on how the text was split or whether fragments were borrowed or computed.", "quantifier": "all texts x all fragmentations, in quoted, key and number positions", "why_tests_cant": "fragmentations are unbounded", "anchors": ["json/src/to_fmt.rs: text_fragment_computed", "json/src/to_fmt.rs: NumberTextHandler"]}
{"id": "C23", "title": "Arbitrary-precision numbers become valid JSON numbers", "statement": "Text tagged as NUMBER that conforms to the NUMBER grammar is written as a valid JSON number with the same mathematical value, whatever its length and however it is split into fragments.", "quantifier": "all strings of the NUMBER grammar x all fragmentations", "why_tests_cant": "infinite language", "anchors": ["json/src/to_fmt.rs: NumberTextHandler", "src/data/tags.rs: NUMBER"]}
{"id": "C24", "title": "JSON object keys", "statement": "A map key that is a map, sequence, record or tuple is rejected with an error; a scalar key is written as a JSON string whose content is the key's JSON text.", "quantifier": "all keys", "why_tests_cant": "all nestings of tags around keys", "anchors": ["json/src/to_fmt.rs: map_key_begin, map_begin, seq_begin"]}
{"id": "C25", "title": "Writing JSON to an io::Write", "statement": "Whatever short writes and interruptions the writer performs, if stream_to_io_write reports success then the writer has received exactly the bytes of the JSON string, and if the writer fails with a real error, that error is what is reported and the bytes written are a prefix of the JSON string.", "quantifier": "all writer behaviours (schedules of short writes, interrupts, errors) x all outputs", "why_tests_cant": "adversarial schedules are unbounded", "anchors": ["json/src/to_io.rs: IoToFmt"]}
{"id": "C26", "title": "Debug-style formatting matches its layout", "statement": "Formatting any well-formed value with sval_fmt gives the documented layout: separators exactly between elements, each container closed once, labels printed exactly once.", "quantifier": "all value trees", "why_tests_cant": "nesting is unbounded and the layout depends on a mutable 'empty' flag", "anchors": ["fmt/src/writer.rs: Writer", "fmt/src/token_write.rs"]}
{"id": "C27", "title": "sval_fmt never swallows errors or loses text", "statement": "Escaping text for display preserves the text (the literal can be read back), and is independent of fragmentation; a write that fails is never reported as success by stream_to_write.", "quantifier": "all texts x all fragmentations; all writers x all values that use ?", "why_tests_cant": "all strings, all failing writers", "anchors": ["fmt/src/token_write.rs: write_escape_debug", "fmt/src/to_write.rs: stream_to_write"]}
{"id": "C28", "title": "Flattening a value into a sequence-like parent keeps offsets dense", "statement": "flatten_to_seq/tuple/record_tuple started at offset k emit, for a value with n top-level entries, exactly n entries, numbered k..k+n-1 when indexes are implicit, and return k+n.", "quantifier": "all value trees, all starting offsets", "why_tests_cant": "all nestings and entry counts", "anchors": ["flatten/src/index.rs: IndexAllocator", "flatten/src/flattener.rs", "flatten/src/{seq,tuple,record_tuple}.rs"]}
{"id": "C29", "title": "Flattened output is well-formed", "statement": "Flattening any well-formed value into an open record/tuple/seq/map emits only balanced entries of that container: each entry's begin and end carry the same label and index, and the nested entry values are passed through unchanged.", "quantifier": "all value trees", "why_tests_cant": "depth-tracking bugs only show at particular nesting depths", "anchors": ["flatten/src/flattener.rs", "flatten/src/{record,map,seq,tuple,record_tuple}.rs"]}
{"id": "C30", "title": "Flattened map keys become labels", "statement": "When a map is flattened into a record, each entry's label is the text of its key; a key made of several values is stringified and concatenated.", "quantifier": "all keys", "why_tests_cant": "all key shapes", "anchors": ["flatten/src/label.rs: LabelBuf"]}
{"id": "C31", "title": "Values with nothing to flatten emit nothing", "statement": "Flattening a scalar, text, binary, null, bare tag or empty container emits no entry and returns the offset unchanged.", "quantifier": "all scalar and empty values, all offsets, any tag wrappers", "why_tests_cant": "all wrappers", "anchors": ["flatten/src/flattener.rs: value_at_root"]}
{"id": "C32", "title": "Recursive (nested) streams see the value's tree", "statement": "Streaming any well-formed value through sval_nested calls the recursive stream's methods so that the recorded structure is the value's tree: same containers, elements in order, same keys, labels and indexes.", "quantifier": "all value trees", "why_tests_cant": "the adaptor is a state machine with partial buffering; bugs show only at depth 2+", "anchors": ["nested/src/flat.rs: FlatStream", "nested/src/flat_enum.rs"]}
{"id": "C33", "title": "Nested element values are well-formed", "statement": "Each element handed to a recursive stream's callback, re-streamed into an ordinary Stream, is the same well-formed call sequence as the original element.", "quantifier": "all value trees", "why_tests_cant": "depth 2+ nestings", "anchors": ["nested/src/flat.rs: seq_value_begin, buffer_or_*"]}
{"id": "C34", "title": "Nested streams do not panic", "statement": "Streaming any well-formed value through sval_nested returns a result; it does not panic or diverge.", "quantifier": "all value trees, including nested enums", "why_tests_cant": "needs particular enum nestings", "anchors": ["nested/src/flat_enum.rs"]}
{"id": "C35", "title": "serde to sval produces well-formed streams", "statement": "Streaming any serde data-model value through sval_serde::ToValue makes a balanced call sequence whose begin and end calls carry the same labels and indexes, with tuple and variant indexes in order.", "quantifier": "all serde data-model values", "why_tests_cant": "unbounded nesting", "anchors": ["serde/src/to_value.rs"]}
{"id": "C36", "title": "serde to sval to serde round-trips", "statement": "Serializing a serde value through ToValue and back through ToSerialize makes the same calls on the serializer as serializing it directly, also if the serializer fails somewhere.", "quantifier": "all serde data-model values", "why_tests_cant": "unbounded nesting", "anchors": ["serde/src/to_value.rs", "serde/src/to_serialize.rs", "nested/src/flat.rs"]}
{"id": "C37", "title": "Every standard value can be serialized through serde", "statement": "Any value built from the standard impls (numbers, text, options, slices, arrays, tuples, maps, derived structs and enums) serializes through sval_serde without error.", "quantifier": "all values built from the standard impls", "why_tests_cant": "unbounded combinations", "anchors": ["serde/src/to_serialize.rs"]}
{"id": "C38", "title": "Standard collections stream well-formed values with exact size hints", "statement": "Slices, Vec, arrays, tuples, maps, strings and byte slices stream balanced calls, one element per item in order, and every size hint they give equals the true number of elements or bytes. They give the size of every container and of every run of bytes, so a serde serializer gets a length wherever serde allows one, and it is right.", "quantifier": "all collections of all sizes and element values", "why_tests_cant": "all sizes and nestings", "anchors": ["src/data/seq.rs", "src/data/map.rs", "src/data/text.rs", "src/data/binary.rs", "serde/src/to_serialize.rs"]}
{"id": "C39", "title": "Derived indexes are unambiguous", "statement": "In a derived enum (struct), distinct variants (fields) get distinct indexes as long as the user's explicit ones are distinct from one another; without explicit ones they are 0..n-1 in order.", "quantifier": "all type definitions (any number of variants/fields, any mix of explicit indexes, discriminants and skips)", "why_tests_cant": "type definitions are unbounded", "anchors": ["derive_macros/src/derive/derive_enum.rs", "derive_macros/src/index.rs"]}
{"id": "C40", "title": "Derived structs stream well-formed records", "statement": "A derived struct streams a balanced record/tuple whose begin and end match, with every non-skipped field exactly once, in order, under its label and index, and a field count equal to the number of fields streamed whenever a count is given.", "quantifier": "all struct definitions and field values, including flattened fields", "why_tests_cant": "all definitions", "anchors": ["derive_macros/src/stream/stream_record_tuple.rs", "flatten/src/lib.rs"]}
{"id": "C41", "title": "The experimental JSON reader's depth counters are a faithful stack", "statement": "The two-counter stack used by the JSON reader always reports the innermost open container kind exactly as a real stack of brackets would, for every legal push/pop history.", "quantifier": "all push/pop histories", "why_tests_cant": "unbounded histories", "anchors": ["experiments/src/json/from_slice.rs: Stack"]}
{"id": "C42", "title": "References stream the same as values", "statement": "Streaming through ValueRef (stream_ref) makes the same calls, of the same text and data with the same lifetimes, as streaming the value itself, for &T, Box, Vec, slices, arrays and tuples of references at any nesting.", "quantifier": "all values of those types", "why_tests_cant": "all nestings", "anchors": ["ref/src/lib.rs", "ref/src/seq.rs"]}
{"id": "C43", "title": "Buffers as intermediaries do not change JSON", "statement": "Buffering a value in a ValueBuf and formatting the buffer as JSON gives the same output as formatting the value directly.", "quantifier": "all value trees", "why_tests_cant": "composition of two unbounded transducers", "anchors": ["buffer/src/value.rs", "json/src/to_fmt.rs"]}
{"id": "C44", "title": "JSON output is append-only", "statement": "The JSON formatter only ever appends: after any sequence of calls, successful or not, the output written earlier is a prefix of the output, so on failure what was written is a prefix of what the calls made so far produce.", "quantifier": "all streams of calls, well-formed or not, at every cut point", "why_tests_cant": "all histories", "anchors": ["json/src/to_fmt.rs"]}
{"id": "C45", "title": "Value::tag reports the outermost tag only", "statement": "Value::tag returns the tag of the outermost tagged value, enum, record, tuple or bare tag that a value streams, NUMBER for a bare number, and None for anything else; a tag of some nested part is never returned.", "quantifier": "all well-formed values, arbitrarily nested", "why_tests_cant": "Nesting is unbounded; a nested tag leaking out only shows for particular shapes.", "anchors": ["src/value.rs: Value::tag"]}
{"id": "C46", "title": "Labels are memory safe", "statement": "For any history of creating static, computed and owned labels, cloning them, converting them to owned, attaching tags and dropping them in any order, every owned string is freed exactly once, no label reads a freed string, and once all labels are dropped nothing is leaked.", "quantifier": "all finite histories of label operations, in any interleaving", "why_tests_cant": "The implementation uses raw pointers and a manual Drop/Clone; a double free or use after free depends on the order of clones and drops, of which there are infinitely many.", "anchors": ["src/data.rs: Label, Label::new_owned, Label::to_owned, Label::with_tag", "src/data.rs: impl Drop for Label, impl Clone for Label"]}
{"id": "C47", "title": "Collecting text and binary", "statement": "TextBuf::collect succeeds exactly for values that are text under any number of wrappers, with that text, borrowed where one borrowed fragment gives it, and returns an error for every other value; BinaryBuf::collect likewise for binary and for nested sequences and tuples of u8. Without alloc, whatever is collected is what is collected with it, and a value that would have to be copied is an error.", "quantifier": "all values", "why_tests_cant": "quantifies over all values, including ones that fail", "anchors": ["buffer/src/fragments.rs: TextBuf::collect, BinaryBuf::collect"]}
{"id": "C48", "title": "sval_fmt::stream_to_string panics only for failing values", "statement": "stream_to_string returns a string for every value except one that itself reports an error while all its calls succeed; for such a value it panics.", "quantifier": "all values, including ill-formed and adaptive ones", "why_tests_cant": "all programs against the stream API", "anchors": ["fmt/src/to_string.rs: stream_to_string", "fmt/src/writer.rs: Writer"]}
{"id": "C49", "title": "Formatting through Display fails exactly when the writer fails", "statement": "Formatting a ToFmt with {} fails if and only if a write to the formatter failed; errors of the value are turned into text.", "quantifier": "all values x all writers", "why_tests_cant": "all failure patterns of writers", "anchors": ["fmt/src/to_fmt.rs: Display for ToFmt, stream_to_fmt"]}
{"id": "C50", "title": "Formattable values stream as their text", "statement": "Streaming a Display or Debug through DisplayToValue/DebugToValue is, to any stream, the same as streaming the text that formatting to a string gives; if formatting fails the value fails.", "quantifier": "all formatting implementations x all streams", "why_tests_cant": "arbitrary formatting code and arbitrary stream answers", "anchors": ["fmt/src/to_value.rs: DebugToValue, DisplayToValue, stream_debug, stream_display"]}
{"id": "C51", "title": "Errors of a serde serializer are returned", "statement": "When a serde serializer fails while a sval value is serialized through ToSerialize, the error that is returned is the one of the serializer.", "quantifier": "all serializers, all values, all points of failure", "why_tests_cant": "a failure can occur at any call of any value", "anchors": ["serde/src/to_serialize.rs"]}
{"id": "C52", "title": "A recursive stream is called in order and success means it was finished", "statement": "For any value, also one that makes calls in a wrong order, ignores errors or stops early, the methods of a recursive stream are called in an order its types allow and none after one failed; and streaming succeeds only if every method succeeded and the last one ended the value.", "quantifier": "all values including ill-behaved ones, all recursive streams", "why_tests_cant": "the code of a value is arbitrary", "anchors": ["nested/src/flat.rs", "nested/src/flat_enum.rs", "nested/src/lib.rs"]}
{"id": "C53", "title": "The JSON reader streams a valid document as exactly its value", "statement": "Streaming JsonSlice over a text that is a JSON document makes exactly the calls of the value the document stands for: null, booleans, arrays as sequences, objects as maps with text keys in source order, strings with escapes decoded, numbers as text tagged as JSON numbers with their spelling kept; whitespace makes no difference and no fragment is lost or added.", "quantifier": "all JSON documents, at any nesting and with any whitespace, all streams", "why_tests_cant": "documents are unboundedly many and nested; tests read a few fixed strings, and none of them nest deep enough for the counters or use the escapes that panic", "anchors": ["experiments/src/json/from_slice.rs: JsonSlice, JsonSliceReader::stream_resume, str_fragment"]}
{"id": "C54", "title": "The JSON reader always ends", "statement": "Streaming JsonSlice over any text, valid or not, ends: the resume loop takes at most one round per character and one more, and every round that asks for another has consumed input.", "quantifier": "all texts, all reader states", "why_tests_cant": "termination on all inputs is not a finite check", "anchors": ["experiments/src/json/from_slice.rs: JsonSlice::stream, JsonSliceReader::stream_resume"]}
{"id": "C55", "title": "The JSON reader reports text that is not JSON", "statement": "Streaming JsonSlice over text that is not a JSON document returns an error; in any case the maps and sequences in the calls it made are properly nested, and all closed if it succeeded.", "quantifier": "all texts", "why_tests_cant": "invalid texts are unboundedly many; nesting of the calls is an invariant over all executions", "anchors": ["experiments/src/json/from_slice.rs: JsonSliceReader, Stack"]}
{"id": "C56", "title": "Reading JSON and writing it again keeps the document", "statement": "Formatting JsonSlice over a JSON document with sval_json gives a JSON document equal to it: same structure, keys in order, strings with the same characters, numbers of the same value.", "quantifier": "all JSON documents", "why_tests_cant": "composition of two state machines over all documents", "anchors": ["experiments/src/json/from_slice.rs: JsonSlice", "json/src/to_fmt.rs: Formatter"]}
{"id": "C57", "title": "Conversions of standard and derived values agree with what they stream", "statement": "For a standard or derived value, to_bool, to_f32, to_f64, to_<int>, to_text, to_binary and tag, whether overridden by its type, forwarded by a reference, box or option, or left to the default, return what the default conversion returns on what the value streams.", "quantifier": "all values of types with a standard or derived Value impl, at any nesting of references, boxes, options and newtypes", "why_tests_cant": "overrides and streams are written separately for each type and composed arbitrarily; a test sees one value of one type", "anchors": ["src/data/number.rs: Value impls", "src/data/text.rs: Value for str", "src/data/binary.rs: Value for BinarySlice", "src/data/option.rs: Value for Option", "src/value.rs: impl_value_forward", "ref/src/lib.rs: ValueRef", "dynamic/src/value.rs: Value for dyn Value", "derive_macros/src/derive/derive_struct.rs", "derive_macros/src/derive/derive_newtype.rs"]}
{"id": "C58", "title": "assert_tokens passes exactly when the value streams the calls listed", "statement": "assert_tokens(value, tokens) returns if and only if value streams without an error and the calls it makes are exactly tokens, in order; assert_valid and assert_invalid return if and only if streaming succeeds, or fails.", "quantifier": "all values (including ones that inspect errors and stream other values) and all lists of tokens", "why_tests_cant": "the assertion is itself the oracle of the tests; what it fails to notice no test using it notices", "anchors": ["test/src/lib.rs: assert_tokens, assert_valid, assert_invalid, Token, TokenBuf"]}
{"id": "C59", "title": "Derive attributes are honoured or rejected", "statement": "For any item with any #[sval(...)] attributes on it, its variants and its fields, #[derive(Value)] either does not compile, or every attribute that is given has its documented effect on what values of the type stream: tags, labels and indexes of types, variants and fields are those given, skipped fields are not streamed, unlabeled or unindexed fields and variants have no labels or indexes. An attribute that is unknown, given twice, of the wrong kind, or out of place does not compile. The order of attributes and how they are grouped into lists does not matter.", "quantifier": "all items (structs, newtypes, enums, with any fields and variants), all lists of attributes, all values of the type", "why_tests_cant": "the combinations of attributes over types, variants and fields are unbounded; tests derive a few dozen types, and attributes that are dropped in silence are not looked for", "anchors": ["derive_macros/src/attr.rs: check, get_unchecked, ensure_missing, ensure_empty, sval_attr, IndexAttr, LabelAttr, TagAttr", "derive_macros/src/derive/derive_struct.rs: StructAttrs", "derive_macros/src/derive/derive_enum.rs: EnumAttrs, derive_enum", "derive_macros/src/derive/derive_newtype.rs: NewtypeAttrs", "derive_macros/src/derive/derive_unit_struct.rs: UnitStructAttrs", "derive_macros/src/stream/stream_record_tuple.rs: stream_record_tuple"]}
{"id": "C60", "title": "A custom TokenWrite is told the structure of the value", "statement": "When a value is formatted into a user's TokenWrite, whichever of its methods are overridden, its methods are called in the order of the structure of the value, with is_first true exactly at the first element of a container and is_empty true exactly for an empty container, until one fails; a failure is not swallowed. A writer that overrides only write_token or nothing gets the layout of C26; one whose overrides merely decorate the text (colours) shows the same text; formatting to &mut W loses no override.", "quantifier": "all values x all TokenWrite implementations (any subset of methods overridden, any effect, any failure)", "why_tests_cant": "the flags live in one mutable field shared by all depths, and overrides are arbitrary user code; tests try a few values with no override", "anchors": ["fmt/src/writer.rs: Writer, GenericWriter", "fmt/src/token_write.rs: TokenWrite, impl TokenWrite for &mut W", "fmt/src/to_write.rs: stream_to_token_write"]}
{"id": "C61", "title": "The provided methods of a recursive stream lose nothing but what they say", "statement": "An implementation of sval_nested::Stream that looks into every value it is given sees the tree of any value that recursive streams support (C32), whichever of the provided methods it overrides: with all of them the tree itself; without a method for an integer width the same number in the next wider one it has, or as i64, or as decimal text tagged NUMBER; f32 as f64; bytes as a sequence of numbers; tags as tagged labels, null for None; tagged values without their tag if there is no tagged_computed; borrowed values as computed ones. Only methods that it has are called, and no call goes on forever.", "quantifier": "all supported values, however they hand over parts of themselves x all sets of overridden methods x all implementations (any effect, any failure)", "why_tests_cant": "the provided methods call each other and the FlatStream adaptor, which calls them again for parts of the value: 2^14 sets of overrides times all values; tests try one implementation", "anchors": ["nested/src/lib.rs: default_stream", "nested/src/lib.rs: trait Stream, StreamSeq, StreamMap, StreamTuple, StreamRecord, StreamEnum", "nested/src/flat.rs: FlatStream"]}
{"id": "C62", "title": "The unsafe vector of buffers without alloc is a list of bounded length", "statement": "Without the alloc feature a ValueBuf keeps its parts in ArrayVec, a vector with a fixed number of slots and unsafe code. Whatever is pushed, popped, cleared, replaced and cloned, in any order: no slot is read, moved out of or dropped that does not hold a value; nothing panics; the slice it derefs to is what a list that refuses to grow beyond the capacity would hold; every value put in or made by clone is moved out once or dropped once, none is leaked and none is dropped twice. This holds as well when cloning a value panics halfway and the vector is used again.", "quantifier": "all capacities x all sequences of operations x all values", "why_tests_cant": "undefined behaviour does not show as a failed test; tests of the crate try two sequences with one capacity", "anchors": ["buffer/src/value.rs: array_vec::ArrayVec"]}
{"id": "C63", "title": "JSON is spelled in one way", "statement": "The text sval_json writes for a value is exactly its compact spelling: no whitespace at all, elements and entries in the order they are streamed and separated by single commas, characters of strings and labels escaped only where JSON requires it and with the short escape if there is one, integers in decimal, floats as ryu prints them or null, binary as an array of numbers, variants as an object with one entry, raw JSON copied, NUMBER text in the grammar of JSON with its digits kept.", "quantifier": "all values that have a meaning as JSON and avoid the defects of C19, of any nesting, any fragmentation and any size hints", "why_tests_cant": "the text depends on flags that every call changes (is_current_depth_empty, is_internally_tagged, is_text_quoted): infinitely many interleavings", "anchors": ["json/src/to_fmt.rs: Formatter", "json/src/to_fmt.rs: escape_str"]}
{"id": "C64", "title": "JSON can be put in the place of any part of a value", "statement": "Streaming a JsonStr to the JSON formatter copies its text at that place, whatever the text is and whatever was formatted before, and nothing else. So if any parts of a value - elements, entries' values, fields, contents of tagged values and variants, at any depth - are replaced by JsonStr of what stream_to_string gives for them, the JSON of the whole value does not change.", "quantifier": "all values x all sets of parts; for the copying all texts x all histories", "why_tests_cant": "all pairs of a value and a set of places in it; state of the formatter leaks from a part to what follows", "anchors": ["json/src/value.rs: JsonStr", "json/src/to_fmt.rs: tagged_begin, tagged_end"]}
{"id": "C65", "title": "Reading JSON and writing it again only removes whitespace", "statement": "Formatting JsonSlice over a JSON document with sval_json gives exactly the text of the document without the whitespace between its parts: numbers, strings and escapes are spelled as they were. Doing it again changes nothing, and text that sval_json wrote itself comes out unchanged.", "quantifier": "all documents; for the last part all values", "why_tests_cant": "all documents, of any size and nesting", "anchors": ["experiments/src/json/from_slice.rs: JsonSliceReader, JsonSlice", "json/src/to_fmt.rs: Formatter", "json/src/to_string.rs: stream_to_string"]}
{"id": "C66", "title": "A buffer can stand in for the value in sval_fmt, recursive streams and serde", "statement": "Collecting a value into a ValueBuf (with collect or collect_owned) and then formatting the buffer with sval_fmt gives the text that formatting the value gives. Streaming the buffer to a recursive stream shows the tree the value shows, and serializing the buffer through ToSerialize makes the calls, or gives the errors, that serializing the value does: in particular static labels stay static.", "quantifier": "all values (for recursive streams and serde: all that sval_nested supports, see C32), all implementations of recursive streams and all serializers, including failing ones", "why_tests_cant": "the calls a buffer replays are not those of the value: fragments are merged and labels copied, and consumers have state that depends on the calls; a test sees one consumer with one value", "anchors": ["buffer/src/value.rs: ValueBuf::collect, ValueBuf::collect_owned, ValueSlice::stream_ref", "fmt/src/to_string.rs: stream_to_string", "fmt/src/writer.rs: Writer", "nested/src/lib.rs: stream, Stream", "serde/src/to_serialize.rs: ToSerialize"]}
{"id": "C67", "title": "Values that implement serde's Serialize are written as JSON in serde's form", "statement": "Formatting a serde value with sval_json, through sval_serde's ToValue, gives the JSON document that serde's data model has: structs and maps are objects, sequences and tuples arrays, None and unit and unit structs null, Some and newtype structs what they hold, and variants externally tagged. Any JSON parser reads that document back.", "quantifier": "all serde values of any depth", "why_tests_cant": "all values; the bridge makes the calls of every kind of value in every other, and the formatter has state that leaks from one value to the next", "anchors": ["serde/src/to_value.rs: ToValue, Stream", "json/src/to_fmt.rs: Formatter", "json/src/to_string.rs: stream_to_string"]}
{"id": "C68", "title": "Values of Rust types, and of types that derive Value, are written as JSON in the expected form", "statement": "stream_to_string gives the JSON document one expects of a value of a type that sval implements Value for or that derives it: structs with named fields are objects of the fields that are not skipped, under their labels, others arrays; variants are externally tagged by label, or by index if they are unlabeled, and not tagged in dynamic enums; Option, references and newtypes are what they hold; numbers in text are numbers. Any JSON parser reads it back. Through sval_ref it is the same.", "quantifier": "all values of all types that can be built from those, with any attributes that the macro accepts", "why_tests_cant": "all types and attributes, and all values of them in each other", "anchors": ["src/data.rs", "src/data/option.rs", "src/data/map.rs", "src/data/seq.rs", "derive_macros/src/derive/derive_struct.rs", "derive_macros/src/derive/derive_enum.rs", "derive_macros/src/stream/stream_record_tuple.rs", "ref/src/lib.rs", "json/src/to_fmt.rs: Formatter", "json/src/to_string.rs: stream_to_string"]}
{"id": "C69", "title": "In JSON a flattened field has the members its value has by itself", "statement": "A struct with named fields, some of them #[sval(flatten)], is written as one JSON object: other fields are members under their labels, and in the place of a flattened field are the members of the object that the field's value is written as by itself. The elements of a flattened array are members under the numbers of their places. A struct without names for its fields is one array, with the values that are in a flattened field's own array or object in its place.", "quantifier": "all structs, values and nestings of flattened fields", "why_tests_cant": "all structs; two programs, the flattener and the formatter, run in lockstep, and keys of flattened maps are formatted by the one and as labels by the other", "anchors": ["derive_macros/src/stream/stream_record_tuple.rs", "flatten/src/record_tuple.rs", "flatten/src/record.rs", "flatten/src/flattener.rs", "flatten/src/label.rs", "json/src/to_fmt.rs: Formatter", "flatten/src/tuple.rs", "flatten/src/seq.rs"]}
{"id": "C70", "title": "Without an allocator a buffer holds a value completely or says that it cannot", "statement": "Built without the alloc feature, ValueBuf::collect and collect_owned of a value give exactly the buffer, or exactly the error, that they give with the feature, or else fail for lack of an allocator: they never give a buffer of part of the value. The values they can hold are those of one part that is not copied: scalars, tags and empty containers whose label is static, and, for collect, text or bytes borrowed as a whole. With debug assertions and without the feature no_debug_assertions they panic exactly where they would fail for lack of an allocator.", "quantifier": "all values, being any code that returns the error of a call that fails", "why_tests_cant": "the test suite is built with alloc; all values", "anchors": ["buffer/src/value.rs: ValueBuf::collect, collect_owned, BufMut::push, ArrayVec", "buffer/src/fragments.rs: FragmentBuf", "buffer/src/error.rs: Error::no_alloc", "src/label.rs: Label::try_to_owned"]}
{"id": "C71", "title": "Without an allocator a recursive stream sees the value or an error", "statement": "Built without the alloc feature, and so that a lack of allocator is an error, sval_nested's stream of a value to a recursive stream calls exactly the methods, with the same values, and has the result, that it has with the feature, or else it reports failure. In builds where a lack of allocator panics it does that or panics. Values of Rust types and of derived types that are made of borrowed text and bytes and static labels, without data tags, and without structs that are streamed as a sequence, are shown completely, all the way down, in every build.", "quantifier": "all values, being any code that returns the error of a call that fails; all recursive streams", "why_tests_cant": "the test suite is built with alloc; all values and all streams", "anchors": ["nested/src/flat.rs: FlatStream, buffer_or_with, buffer_or_begin_with, buffer_or_end_with", "nested/src/flat_enum.rs: FlatStreamEnum, Queue", "nested/src/lib.rs: owned_label_ref, Stream::value", "nested/src/error.rs: Error::no_alloc"]}
{"id": "C72", "title": "The no_debug_assertions features turn a panic for lack of an allocator into an error", "statement": "In builds with debug assertions and without alloc, sval_buffer and sval_nested panic where they would need to allocate. With the feature no_debug_assertions of the crate, as the panic message says, they do not: the result is that of a build without debug assertions.", "quantifier": "all builds: alloc, debug assertions, the features of both crates, the cfg; all values, being any code that returns the error of a call that fails; all recursive streams", "why_tests_cant": "error.rs excludes tests from the panic, and the test suite is built with alloc", "anchors": ["nested/src/error.rs: Error::no_alloc", "buffer/src/error.rs: Error::no_alloc", "nested/Cargo.toml: no_debug_assertions", "nested/src/lib.rs: owned_label_ref", "nested/src/flat_enum.rs: Queue::push_back"]}
{"id": "C73", "title": "Formatting options apply to the numbers of a value, and to nothing else", "statement": "format!(\"{:…}\", ToFmt::new(v)) with a width, fill, alignment, +, 0, # or precision: each integer and each byte of a binary in v is formatted with these options, as it would be by itself, so that it is never shorter than the width and its sign and digits can be read back. Each float is given to its own Display with the same options. Names, punctuation, texts (also of numbers in text) and everything else are as without options.", "quantifier": "all values; all options; any Display of floats; for a single method of the writer also: any writer below the formatter, whether or not it fails", "why_tests_cant": "options and values combine freely; the tests of sval_fmt format without options", "anchors": ["fmt/src/writer.rs: impl TokenWrite for fmt::Formatter", "fmt/src/to_fmt.rs: ToFmt, stream_to_fmt", "fmt/src/token_write.rs: TokenWrite::write_token, impl TokenWrite for &mut W"]}
{"id": "C74", "title": "ToFmt and stream_to_string give the same text", "statement": "format!(\"{}\", ToFmt::new(v)), format!(\"{:?}\", ToFmt::new(v)) and stream_to_string(v) give the same text.", "quantifier": "all values", "why_tests_cant": "the tests compare the two for chosen values only; they use different code for numbers", "anchors": ["fmt/src/to_fmt.rs: ToFmt", "fmt/src/to_string.rs: stream_to_string", "fmt/src/writer.rs: impl TokenWrite for fmt::Formatter, GenericWriter"]}
{"id": "C75", "title": "How texts and bytes are handed over makes no difference to formatting, recursive streams and serde", "statement": "Two values that differ only in how their texts and binaries are split into fragments, in which fragments are borrowed and which computed, and in the sizes announced for texts and binaries give the same text with sval_fmt, are the same tree for a recursive stream, and make any serde serializer do the same.", "quantifier": "all pairs of values; all implementations of recursive streams; all serializers, also ones that fail", "why_tests_cant": "all ways to split texts at all places in a value", "anchors": ["fmt/src/writer.rs: Writer::text_fragment_computed, binary_fragment_computed", "nested/src/flat.rs: FlatStream::text_fragment, text_fragment_computed, text_end, binary_end", "serde/src/to_serialize.rs: ToSerialize"]}
{"id": "C76", "title": "Without an allocator flattening gives the same entries or an error", "statement": "Built without the alloc feature, and so that a lack of allocator is an error, flatten_to_record, flatten_to_tuple, flatten_to_seq, flatten_to_record_tuple and flatten_to_map do exactly what they do with the feature, or fail: no entry gets a shortened, empty or wrong label. They succeed when every label can be borrowed: onto records and record tuples, every text in a map key is borrowed or static, and no text follows a text that is not empty without a number between them. Entries that come with a label, or with an index, always fit, and onto other containers keys do not matter. Otherwise the container gets exactly the entries before the first that does not fit, and then flattening fails.", "quantifier": "all values, being any code that returns the error of a call that fails; all streams flattened onto, failing or panicking anywhere; all five functions; all offsets", "why_tests_cant": "flatten is only tested with alloc, and the keys in the tests are single texts", "anchors": ["flatten/src/label.rs: LabelBuf::text_fragment, text_fragment_computed, label, index", "flatten/src/flattener.rs: with_index_to_label", "buffer/src/fragments.rs: FragmentBuf::push, push_computed"]}
{"id": "C77", "title": "ToFmt gives what a derived Debug would", "statement": "As sval_fmt documents, formatting a value with ToFmt gives the same output as `{:?}` would if its types derived core::fmt::Debug. This holds for (), booleans, integers, texts without single quotes, bytes, Option, slices, arrays and tuples other than of one item, references and boxes, and structs, tuple structs, newtypes, unit structs and enums that #[derive(Value)] streams under their own names and with their own fields, as long as no enum has a variant with nothing in it. It does not hold for any char, for texts with a single quote, for floats like 1.0, one-tuples, maps with entries, structs and variants with braces but no fields, enums whose variant ends with an empty container, and for types with attributes that rename, skip or hide.", "quantifier": "all values of those types, nested to any depth; all ways in which core writes floats; all Unicode tables", "why_tests_cant": "the tests of sval_fmt compare with Debug for a handful of values, none of them of the kinds that differ", "anchors": ["fmt/src/lib.rs: crate documentation", "fmt/src/writer.rs: Writer", "fmt/src/to_fmt.rs: ToFmt", "fmt/src/token_write.rs: write_escape_debug"]}
{"id": "C78", "title": "Flattened fields in formatting and serde", "statement": "A derived struct with #[sval(flatten)] fields is to ToFmt and to serde the struct with the fields of the flattened ones written out among its own. With ToFmt it is: a struct with named fields is written as its name and, in braces, its fields, with those of flattened fields in their place. With ToSerialize it is not: since a struct with a flattened field announces no number of fields, serializing it fails with every serializer, unless its fields have neither labels nor indexes.", "quantifier": "all structs with flattened fields, nested in each other; all values of the fields; all serializers", "why_tests_cant": "flatten is only tested with token streams and JSON", "anchors": ["derive_macros/src/stream/stream_record_tuple.rs: field_count", "serde/src/to_serialize.rs: Stream::record_begin, tuple_begin", "fmt/src/writer.rs: Writer::record_begin"]}
{"id": "C79", "title": "Values as serde values", "statement": "A value that ToSerialize accepts is some serde value: every serializer gets it by the same calls as that one, whatever the serializer does. And going through serde makes no difference to the JSON: the serde value's document, and what sval_json writes for it through ToValue, is the document that sval_json writes for the value itself. This is not so for records without a name, which are tuples to serde, so that variants with fields in an enum with #[sval(dynamic)] lose the names of their fields.", "quantifier": "all values, all values of Rust types; all serializers, with any state", "why_tests_cant": "tests compare a few values with serde's own derive; that there is a serde value for each value, and that its document is the same, is about all of them", "anchors": ["serde/src/to_serialize.rs: ToSerialize, Stream", "serde/src/to_value.rs: ToValue", "json/src/to_fmt.rs: Formatter", "derive_macros/src/derive/derive_enum.rs: derive_enum"]}
{"id": "C80", "title": "What sval_json writes can be read by the experimental reader", "statement": "Text that sval_json writes for a value can be read with JsonSlice: it streams the calls of the document that the value means, and writing it once more gives the same text. This is not so if a string or name has control characters other than line breaks, such as a tab: these are written as escapes on which the reader panics.", "quantifier": "all values without texts tagged as numbers or JSON, all streams, builds with and without overflow checks", "why_tests_cant": "composition of two state machines over all values; the reader's tests have none of the escapes that the writer uses", "anchors": ["experiments/src/json/from_slice.rs: JsonSlice, str_fragment", "json/src/to_fmt.rs: Formatter, escape_str"]}
{"id": "C81", "title": "JSON text as a value for serde, buffers, recursive streams and formatting", "statement": "A JsonSlice over a document can be used wherever a value can: serializers get it as the serde value that the document is; collected into a ValueBuf, borrowed or owned, and written as JSON it is the text without its whitespace; recursive streams with whichever methods are given the document; sval_fmt writes it in the way of Rust's Debug, with numbers as they are spelled. This is not so for serde if there is a number in the document: numbers are tagged text, which ToSerialize refuses, so that exactly the documents without numbers are serialized.", "quantifier": "all JSON documents that the reader can read, at any nesting and with any whitespace; all serializers, all recursive streams", "why_tests_cant": "composition of the reader with four other state machines over all documents; there is no test that combines them", "anchors": ["experiments/src/json/from_slice.rs: JsonSlice", "serde/src/to_serialize.rs: ToSerialize", "buffer/src/value.rs: ValueBuf", "nested/src/flat.rs: FlatStream", "fmt/src/writer.rs: Writer"]}
{"id": "C82", "title": "Which values sval_json refuses", "statement": "Writing a value as JSON ends in one of two ways, and the value alone says which: it is written, or the error is that of a key that cannot be one. It is refused exactly if a bracket would have to be opened in a key, that is if below its tags and enums a key is a container or bytes, or is a variant with a name that holds something; or if one would have to be opened in text that is tagged as a number or as raw JSON. There is no other error, whatever was written before, and a panic exactly if text that is tagged as a number, before its first digit from 1 to 9 or point, has in a fragment as many signs and zeroes as there are bytes in no start of that fragment, and nothing from inf or nan in it. How it ends does not depend on the writer, as long as that does not fail. So a serde value, and a value of Rust types, is written if it has a document in JSON and otherwise refused.", "quantifier": "all values, at any nesting of containers, tags, enums and hints, with any fragments; all serde values; all values of Rust types and derived types", "why_tests_cant": "the error depends on flags that are set and reset by calls far apart, through names left by earlier keys; all combinations of nesting matter", "anchors": ["json/src/to_fmt.rs: Formatter::map_begin", "json/src/to_fmt.rs: Formatter::tagged_begin", "json/src/to_fmt.rs: Formatter::enum_begin", "json/src/to_fmt.rs: Formatter::internally_tagged_begin", "json/src/error.rs: Error::invalid_key"]}
{"id": "C83", "title": "Flattening at the limits of isize, with and without overflow checks", "statement": "In a build with overflow checks flattening a value panics by itself exactly if some entry's offset would not fit an isize (its own offset added to the starting one, or the one after it) or the value is a tagged enum, and the container has then got exactly the calls before that point: all entries before, and of the entry that does not fit nothing or everything but its end. In a build without them it never panics by itself: entries are numbered modulo 2^64, going round from the largest isize to the smallest, and a tagged enum makes the container get the ends of its tags, which were not begun. For all other values both kinds of builds do the same.", "quantifier": "all values, starting offsets, containers, and streams underneath, in both kinds of builds", "why_tests_cant": "the limits are at offsets tests do not reach, and a test run is one kind of build", "anchors": ["flatten/src/index.rs: IndexAllocator::next_begin", "flatten/src/index.rs: IndexAllocator::next_end", "flatten/src/flattener.rs: FlattenerState", "flatten/src/flattener.rs: Flattener::flattenable_end"]}
{"id": "C84", "title": "Flattening a buffered value", "statement": "A value and its buffer (ValueBuf::collect or collect_owned) can stand in for each other in a flattened field: flattening either into a record, tuple, sequence, map or record tuple gives the same entries in the same order, with the same tags, the same labels up to how they are stored, the same indexes and the same final offset, each value being the value or its buffer; and it panics for one if it does for the other.", "quantifier": "all values, also with tags, enums and nested maps, all kinds of containers, all streams whether or not they fail, all starting offsets, builds with and without overflow checks, both ways of buffering", "why_tests_cant": "Keys of maps become labels by a state machine over the fragments of all parts of the key, and a buffer changes the fragments; a test has to hit on the one shape of key where that shows.", "anchors": ["flatten/src/flattener.rs", "flatten/src/label.rs", "flatten/src/index.rs", "buffer/src/value.rs: ValueBuf::collect, collect_owned, stream", "buffer/src/text.rs"]}
{"id": "C85", "title": "TextBuf and BinaryBuf as values", "statement": "Streaming a TextBuf does to any stream what streaming one borrowed text with its content does, and streaming it by reference (ValueRef) lends the text only if it was all borrowed from one pushed fragment, otherwise it is computed; the same holds of BinaryBuf. Collecting a buffer by reference gives the same buffer, to_text and to_binary give its content, and whatever fragments were pushed, sval_json and sval_fmt write the buffer as they write the value with those fragments.", "quantifier": "all buffers, all sequences of borrowed and computed fragments, all streams, failing or not, behind value_computed or not, with and without alloc for collecting", "why_tests_cant": "tests stream a buffer of one to three fixed fragments to a token buffer; the claim is about every sequence of fragments and every stream, and about never lending text that lives only in the buffer", "anchors": ["buffer/src/fragments.rs: impl Value for TextBuf, impl ValueRef for TextBuf, impl Value for BinaryBuf, impl ValueRef for BinaryBuf", "src/data/text.rs: impl Value for str", "src/data/binary.rs: impl Value for BinarySlice"]}
{"id": "C86", "title": "What is left of a value that goes through serde and back", "statement": "sval_serde's own Serializer streams whatever is serialized with it as the value it stands for, so ToValue::new(ToSerialize::new(v)) does to any stream what streaming one fixed value after(v) does: null arrives as Rust's None; texts and bytes in one computed piece with their length; of tags, labels and indexes only the names of types, fields and variants and the indexes of variants arrive, and Rust's option and unit tags; tuple elements are numbered from zero; records without a name arrive as tuples and record tuples as records; hints are dropped. Values that a serializer refuses make the stream fail. A second trip loses nothing more, and exactly the values that come from serde values without characters and collect_str arrive unchanged.", "quantifier": "all serializable values of any depth, all streams, failing at any call or not, behind value_computed or not", "why_tests_cant": "the project's tests go one way at a time with a few fixed values; what is lost on the way back depends on the shape, the tags and the labels at every level, and what a failing stream has seen depends on where it fails", "anchors": ["serde/src/to_value.rs: impl Value for ToValue, impl Serializer for Stream, StreamTuple, StreamTupleVariant, StreamRecord, StreamRecordVariant", "serde/src/to_serialize.rs: impl Serialize for ToSerialize"]}
{"id": "C87", "title": "Code that works with bytes never cuts a character", "statement": "The JSON reader, the escaping of strings and the reading of numbers in sval_json, and the escaping in sval_fmt go over bytes and keep positions in bytes. On the UTF-8 of any text each does exactly what is described character by character: the reader's indexing and slicing stay in bounds and at boundaries of characters wherever the text itself is not at fault, and core::str::from_utf8 never fails; no byte of a longer character is taken for a quote, a digit, an escape or a bracket; the slices sval_fmt takes between escapes are always texts. The one slice that can cut a character is that of sval_json's number text (C23_panics).", "quantifier": "all texts, all writers and states of the loops, builds with and without overflow checks", "why_tests_cant": "the project's tests of these functions hardly use characters outside ASCII; a wrong step shows only for some characters at some positions next to some others", "anchors": ["experiments/src/json/from_slice.rs: JsonSliceReader::stream_resume, number, str_fragment", "json/src/to_fmt.rs: NumberTextHandler::text_fragment, escape_str", "fmt/src/token_write.rs: write_escape_debug"]}
{"id": "C88", "title": "Buffers lend only what was lent to them", "statement": "A fragment that a ValueBuf, Value, TextBuf or BinaryBuf streams or returns as borrowed for 'sval was itself given to it as borrowed for 'sval, whole, since it was last cleared or made owned, or is the empty fragment every new buffer starts with; the labels a ValueBuf streams are static or its own. So a buffer made by into_owned or collect_owned holds nothing borrowed from anyone, as the unsafe changes of lifetime in sval_buffer require. collect borrows only fragments the value lent, and from the default methods of streams only the text of static labels.", "quantifier": "all sequences of calls, failing ones included, with clear and into_owned in between; all code of values; with and without alloc; all streams and sets of implemented methods for the defaults", "why_tests_cant": "lending text that is the buffer's own shows as reading freed memory, and only if the buffer is dropped first; the tests look at contents, and the compiler is told to believe the lifetimes", "anchors": ["buffer/src/value.rs: ValueBuf::into_owned, Value::into_owned, ValueBuf::collect, ValueBuf::collect_owned, ValuePart::into_owned_in_place", "buffer/src/fragments.rs: FragmentBuf::push, push_computed, as_borrowed_inner, Fragment::into_owned_in_place, TextBuf::collect, BinaryBuf::collect", "src/data.rs: Label::try_to_owned", "src/stream.rs: provided methods of Stream"]}
{"id": "C89", "title": "Serializing through serde without an allocator", "statement": "Without its feature alloc, sval_serde::ToSerialize serializes every value as it does with the feature, or returns an error; values whose type derives sval::Value never need the feature.", "quantifier": "all code of values that returns the stream's errors, all serializers that return the errors of what they are given, all builds, all values of Rust types", "why_tests_cant": "the project's tests of sval_serde only run with the feature; what is buffered depends on the calls of the value, the state of the adapter between values, and on the features of two other crates", "anchors": ["serde/src/lib.rs: documentation of the feature alloc", "serde/src/to_serialize.rs: ToSerialize::serialize, Serializer", "nested/src/flat.rs: FlatStream", "serde/Cargo.toml: features"]}
{"id": "C90", "title": "A recursive stream cannot change what it is shown", "statement": "Whatever code streams itself to a recursive stream of sval_nested, correct or not: the calls that the recursive stream gets, with their arguments, are fixed by the code. Any two recursive streams get the same calls in the same order, as long as they return Ok, and the same result in the end. A recursive stream that fails has got the start of these calls; it is not called again, even if the code ignores the error, and the result is an error. So a first pass that only counts, and a second one that writes, see the same.", "quantifier": "all code that uses a Stream, returning errors or not, well-formed or not; all recursive streams and states of theirs; builds with and without alloc and debug assertions; value and value_computed", "why_tests_cant": "a test compares a few recursive streams on a few values; the claim is about all recursive streams, and about code that misuses the stream after an error", "anchors": ["nested/src/flat.rs: FlatStream, try_catch, buffer_or_with, buffer_or_begin_with, buffer_or_end_with", "nested/src/flat_enum.rs: FlatStreamEnum", "nested/src/lib.rs: Stream::value"]}
{"id": "C91", "title": "What receivers do not look at", "statement": "Two pieces of code that make the same calls and take the same decisions, except for arguments that a receiver promises to ignore, are not told apart by it. sval_json ignores size hints, the width of integers, whether data is lent for good or computed, where a label is stored, tags and indexes of fields, tag hints, all tags but its own and those of numbers and of an absent option, indexes beside a label, and whether a record is also a tuple: the result and every byte written are the same, for any fmt::Write or io::Write, failing or not. sval_fmt ignores the same and all indexes, with any formatter options and any TokenWrite (which does see the width of integers). Value::to_bool, to_text, tag and so on ignore size hints. A ValueBuf ends in the same state, but for the hints that it keeps, and shows the same calls, but for hints. Recursive streams and serde serializers are not told the sizes of texts, nor what is repeated at ends. A flattener passes hints on and takes no decision from them. Only sval_serde, whose receiver wants a length, is different.", "quantifier": "all pairs of values, that is arbitrary code, correct or not, returning errors or not, using value and value_computed; all writers and states of theirs; all formatter options", "why_tests_cant": "a receiver that uses a hint in one place only, for instance to shorten an empty sequence, passes every test whose hints are right", "anchors": ["json/src/to_fmt.rs: Formatter", "json/src/to_io.rs: stream_to_io_write", "fmt/src/writer.rs: Writer", "fmt/src/to_fmt.rs: ToFmt", "src/value.rs: default_value", "buffer/src/value.rs: ValueBuf", "src/stream.rs: default_stream", "nested/src/flat.rs: FlatStream", "serde/src/to_serialize.rs: tuple_begin, record_begin", "flatten/src/flattener.rs: Flattener"]}
{"id": "C92", "title": "Sizes stay right", "statement": "If the sizes that a value gives (numbers of elements, entries and fields, lengths of bytes and text) are right, then what is between the value and the receiver keeps them right, and does not drop those of containers and bytes: default stream methods that turn bytes, maps, records and tuples into sequences, value_computed, a ValueBuf (borrowed or owned, which also adds those of texts), recursive streams, and sval_serde in both directions: the lengths given to a Serializer match the number of elements given to it, and the sizes of a serde value's stream are right just if its lengths are.", "quantifier": "all value trees with any sizes that are right, given or not; all sets of overridden stream methods; all serde values", "why_tests_cant": "a size is wrong only for some kinds of containers, nested in some way, on streams that override some methods; receivers in tests do not look at sizes", "anchors": ["src/stream.rs: default_stream (binary_begin, map_begin, record_begin, tuple_begin, map_key_begin)", "buffer/src/value.rs: ValueBuf", "nested/src/flat.rs", "serde/src/to_serialize.rs", "serde/src/to_value.rs"]}
{"id": "C93", "title": "Wrong calls do not make receivers panic", "statement": "A Value or other code that streams wrongly (calls in any order, ends without begins, fragments outside of text, errors ignored) makes a receiver return an error or write nonsense, but does not make it panic. True of sval_fmt, whatever the calls. sval_json panics only if it gets text or a label that is not ASCII after the beginning of a number in text. ValueBuf panics exactly if it gets a fragment and before it only calls that end something; without an allocator also if the error of a call that begins something is ignored, because the buffer is full, and something ends nevertheless. A recursive stream of sval_nested does not panic for code that uses ?, except in an enum that is the value itself, before its variant: exactly if the enum ends, or another enum is in it and a record or a tuple begins. It also panics for some code that calls fragments after errors. Flattening (sval_flatten) does not panic in builds without overflow checks; with them it panics exactly if the calls end, at depth zero, something that was not begun.", "quantifier": "All code (any sequence of calls depending on any results), all writers, all recursive streams that do not panic themselves.", "why_tests_cant": "Tests stream well-formed values; there is no bound on the ways in which code can be wrong, and a panic needs particular calls in a particular order.", "anchors": ["json/src/to_fmt.rs: Formatter, NumberTextHandler", "fmt/src/writer.rs: Writer", "buffer/src/value.rs: ValueBuf::collect, current_mut", "nested/src/flat.rs: FlatStream", "nested/src/flat_enum.rs", "flatten/src/flattener.rs: Flattener, flattenable_end"]}
{"id": "C94", "title": "Output is in proportion to what is streamed", "statement": "Whatever code streams to it, sval_json writes at most six bytes for each byte of data in the calls it receives (text, bytes, labels, indexes, and numbers written out) and nine more for each call, to a string or to any writer, whether it succeeds or fails; sval_fmt at most six for each byte and five for each call. A ValueBuf keeps at most one part for each call and no more bytes than were in the calls, and gives back at most three calls for each part and twice the bytes it holds. Six cannot be less for sval_json. Default methods of Stream turn a call into at most nine, and three more for each byte in it, which together carry at most three times as much. The JSON reader of experiments makes at most eight calls for each character and streams no more bytes than it reads. Flattening makes at most six calls for each it gets; the bytes have no such bound, because code that ends the value of a map entry many times has the key repeated. A recursive stream gets at most two methods called for each call made.", "quantifier": "all programs of calls, well-formed or not, that may go on after errors; all writers, all values of the float formatting, all buffers; all sets of overridden methods; all texts read; all streams that are flattened onto, all recursive streams", "why_tests_cant": "a test measures the output of some values; an input that makes the output grow out of proportion is looked for among all sequences of calls, fragments split anywhere, and writers that fail midway", "anchors": ["json/src/to_fmt.rs: escape_str, NumberTextHandler, tagged_begin, record_value_begin", "json/src/to_io.rs: stream_to_io_write", "fmt/src/token_write.rs: write_escape_debug", "fmt/src/writer.rs: binary_fragment_computed", "buffer/src/value.rs: ValueBuf, ValueSlice::stream_ref", "src/stream.rs: default methods of Stream", "experiments/src/json/from_slice.rs: JsonSliceReader", "flatten/src/flattener.rs: Flattener", "flatten/src/map.rs: flattened_value_begin", "nested/src/flat.rs: FlatStream", "nested/src/flat_enum.rs: value_or_recurse"]}
{"id": "C95", "title": "A buffer of a buffer is the same buffer", "statement": "However a ValueBuf was filled, by any calls, with errors ignored and values left open, streaming it into another ValueBuf appends exactly the parts it holds and changes nothing else: text and bytes that were borrowed stay borrowed and those that were owned stay owned, tags, labels, indexes, size hints and hints are the same, and nothing is merged or split. Through value_computed the other gets what into_owned makes of them. So collecting a buffer that is not empty gives an equal buffer, and it is complete even if the first was not; an empty one is collected as null. Without an allocator the same holds of whatever was collected.", "quantifier": "all sequences of calls that fill a buffer, errors included, and all code run by collect and collect_owned; all buffers streamed into, between two fragments of text excepted; with and without alloc", "why_tests_cant": "a test compares the buffers of some values; part lengths, ownership and labels have to survive for every nesting and for buffers that calls out of order have left in odd states", "anchors": ["buffer/src/value.rs: ValueBuf::collect, collect_owned, into_owned, push_kind, push_begin, push_end, ValueSlice::stream_ref", "buffer/src/fragments.rs: FragmentBuf::push, push_computed"]}
{"id": "C96", "title": "A buffer can stand in for the value in conversions", "statement": "Converting a ValueBuf or Value made from a value (to_bool, to_f32, to_f64, to_u8 up to to_i128) gives exactly what converting the value by what it streams gives, and Value::tag is the same, for collect and collect_owned and without an allocator. Text and bytes that the value is converted to are also what its buffer is converted to; the buffer of a text or of bytes is converted to more: the last fragment, if that is borrowed and all before it are empty, and the empty text if there are no fragments. What collect_owned made is converted to no text but that of static labels, and no bytes, unless there were no fragments.", "quantifier": "all values at any depth of wrappers, all fragmentations of text and bytes, all integer types converted to; with and without alloc", "why_tests_cant": "a test converts some values; that the default conversions see the same through calls that were recorded and regrouped depends on every wrapper, fragmentation and way to own labels", "anchors": ["buffer/src/value.rs: ValueBuf::collect, collect_owned, impl Value for ValueBuf, impl Value for Value", "src/value.rs: to_bool, to_text, to_binary, to_i128, to_u128, tag", "buffer/src/fragments.rs: impl ValueRef for TextBuf, BinaryBuf"]}
{"id": "C97", "title": "Buffers can stand in for parts of a value", "statement": "Take a value and hand over, in place of any of its parts (elements, keys, values, fields, variants, what is tagged), and of parts of those, buffers collected from them, by value or value_computed. To any stream the code then does what a value does that differs from the first only in how texts and bytes are handed over and in labels being owned. sval_fmt gives the same text; a recursive stream sees the same tree; a serde serializer is called in the same way and gets the same errors; collecting the whole with ValueBuf::collect gives the buffer that collecting the original gives (for parts collected by collect and handed over by value); and the JSON is the same if labels tagged as identifiers are identifiers and text tagged as numbers is a number (the condition of C43).", "quantifier": "all values, all choices of parts at any depth and in any number (for code that calls recursive streams and serde: one part, the others at the level of the value), collect or collect_owned, value or value_computed, all streams, recursive streams and serializers, including failing ones", "why_tests_cant": "there are as many ways to put buffers into a value as the value has subsets of parts, and formatters have state at each of the places", "anchors": ["buffer/src/value.rs: ValueBuf::collect, ValueBuf::collect_owned, ValueSlice::stream_ref", "src/stream.rs: Stream::value, Stream::value_computed", "fmt/src/writer.rs: Writer", "json/src/to_fmt.rs: Formatter", "nested/src/lib.rs: stream", "serde/src/to_serialize.rs: ToSerialize"]}
{"id": "C98", "title": "The flat and the recursive example stream print the same", "statement": "The example stream of examples/stream/simple.rs and the recursive one of nested/examples/stream_nested_simple.rs, which is meant to be similar, print the same text for a value: data in the core of the data model, with everything else through the provided methods. The flat one prints every value and never fails. False: single quotes and combining characters are escaped differently, and recursive streams do not support all enums. What each prints, and where the texts are the same, is known exactly.", "quantifier": "every value, in every fragmentation; every code that makes calls for the flat one", "why_tests_cant": "the examples are only run on a few values, and whole trees of values with every kind of part and every text have to be printed the same", "anchors": ["examples/stream/simple.rs: MyStream", "nested/examples/stream_nested_simple.rs: Stream", "src/stream.rs: default_stream", "nested/src/lib.rs: default_stream"]}
{"id": "C99", "title": "Default stream methods use the closest method that the stream has", "statement": "A stream need only implement some of the methods of Stream; the others are given by default in terms of those. A method that the stream implements is called as it is. Otherwise the closest implemented method is used: an integer arrives at the closest wider width that the stream has, else as an i64 if it is one, else as the text of the number tagged as a number; a container arrives as the closest kind of container (record tuples as records, records as maps, maps as sequences of pairs, tuples and bytes as sequences) with the size given; for streams with tagged values every tag, label and index arrives in order, also those of enums, records and tuples the stream has no methods for, both at the begin and at the end; for streams with hints every hint arrives. Putting a stream that forwards everything it gets in front of another that implements fewer methods makes no difference.", "quantifier": "For all sets of implemented methods (and pairs of such sets for the forwarding stream) and all sequences of calls, balanced or not.", "why_tests_cant": "There are two to the power of twenty-one sets of methods to implement, and arbitrary calls; the fallbacks chain through one another. Tests run a few sets on a few values.", "anchors": ["src/stream.rs: default_stream", "src/data/number.rs: stream_number"]}
{"id": "C100", "title": "A stream that acts on a tag of its own acts on exactly what has the tag", "statement": "The stream of the example for user-defined tags prints an unsigned integer as a time exactly if it is in a value with the tag, whether that is a tagged value, an enum, a record or a tuple, and also if the type's implementation is derived. Everything else is printed as by the example without tags, and it does not matter what was printed before. It panics only for times that cannot be printed.", "quantifier": "all values, all nestings of tags, all printers of times", "why_tests_cant": "the example runs one value; the flag that remembers the tag is set and cleared at any depth by provided methods that the example does not have", "anchors": ["examples/tags.rs: MyStream, Timestamp", "examples/stream/simple.rs", "src/stream.rs: default_stream"]}
{"id": "C101", "title": "Objects in JSON have no two members with the same name", "statement": "When sval_json writes a value whose maps have different keys and whose structs have fields with different labels, no object in the output has two members with the same name.", "quantifier": "all values of Rust types and of types that derive Value, all types of keys, all nestings", "why_tests_cant": "whether two different keys are written alike depends on all values of the type of the keys", "anchors": ["json/src/to_fmt.rs: map_key_begin, map_key_end", "src/data/map.rs", "src/data/option.rs", "derive_macros/src/stream/stream_record_tuple.rs", "flatten/src/map.rs"]}
{"id": "C102", "title": "JSON is written on one line", "statement": "sval_json writes no control character, so the output of stream_to_string is one line whatever is in the text, and a log with a document on each line can be split at the ends of lines. Apart from printable ASCII, only characters of the given text are written. Excepted is text that the caller says is JSON or an identifier already, which is copied.", "quantifier": "all values, all code that drives the formatter, also code that goes on after an error, all Rust values", "why_tests_cant": "any text, fragmented in any way, in any position: keys, labels, tags, names of variants", "anchors": ["json/src/to_fmt.rs: escape_str, text_fragment_computed, record_value_begin, tagged_begin, tagged_end, tag", "json/src/to_string.rs: stream_to_string", "json/src/tags.rs"]}
{"id": "C103", "title": "Where a JSON document ends can be seen", "statement": "No proper beginning of the JSON written for a value is itself JSON. So if the writer given to stream_to_io_write fails, what it has got is not a document, and a reader can tell that something is missing. And the outputs for several values written one after the other, without anything in between, can be taken apart. Excepted are values written as a number, whose beginnings may be numbers, and text that the caller says is JSON, which may end with space.", "quantifier": "all values that sval_json writes correctly, all Rust values, all beginnings of the output, all schedules of short writes and errors, all sequences of values", "why_tests_cant": "every cut of every document: the claim is that the language written is prefix-free", "anchors": ["json/src/to_fmt.rs: JsonStreamer", "json/src/to_io.rs: stream_to_io_write", "json/src/to_string.rs: stream_to_string"]}
{"id": "C104", "title": "Different values of a type are written differently", "statement": "If stream_to_string gives the same text for two values of a type, they are the same value, so whoever knows the type can tell the value from the JSON. Excepted are types with optional parts that are themselves written as null, like Option<()> and Option<Option<T>>, floats that are not finite, skipped fields, variants with the same name, and values that are not written correctly (C68).", "quantifier": "all types built from unit, bool, integers, char, text, bytes, options, boxes, slices, arrays, tuples, maps, derived structs and enums with all their attributes; all pairs of values", "why_tests_cant": "a claim about every pair of values of every type", "anchors": ["json/src/to_string.rs: stream_to_string", "json/src/to_fmt.rs: JsonStreamer", "derive_macros/src/derive: derive_struct, derive_enum", "src/data/option.rs, src/data/seq.rs, src/data/map.rs"]}
{"id": "C105", "title": "Different values of a type make different calls", "statement": "A value of a Rust type can be told from the calls it makes to a stream by who knows the type: two values of a type that make the same calls are the same value. It is still so if the value is streamed with value_computed, if it has been in a ValueBuf, for what a recursive stream sees, and with any serde serializer that can tell serde values apart (as long as variants do not only differ in their tags). It holds for floats of any kind, for options of options, and for maps with any keys, where JSON (C104) loses something. Excepted are skipped fields, dynamic enums, and enums whose variants are given the same tag, label and index; enums without such attributes are told apart by their discriminants.", "quantifier": "all types built from unit, bool, integers, floats, char, text, bytes, options, boxes, slices, arrays, tuples, maps, derived structs and enums with all their attributes; all pairs of values", "why_tests_cant": "a claim about every pair of values of every type", "anchors": ["src/data: stream of the impls of Value", "derive_macros/src/derive: derive_struct, derive_enum", "buffer/src/value.rs: ValueBuf", "nested/src/lib.rs: stream", "serde/src/to_serialize.rs: ToSerialize"]}
{"id": "C106", "title": "Different values of a type are printed differently", "statement": "What is in a value of a Rust type can be told from what sval_fmt prints for it, by who knows the type: two values of a type that are printed the same are the same value, also if something else is printed behind them that does not go on like a word, and it is known where the value ends. It holds for text with any characters, for options of options, for maps with any keys, and in spite of the label that is printed behind empty variants (C26). Excepted are floats, skipped fields, dynamic enums, labels that are empty, have punctuation or spaces in them or are given twice, and text tagged as a number.", "quantifier": "all types built from unit, bool, integers, char, text, bytes, options, boxes, slices, arrays, tuples, maps, derived structs and enums with all their attributes; all pairs of values; all texts behind them", "why_tests_cant": "a claim about every pair of values of every type", "anchors": ["fmt/src/to_write.rs: ToWrite", "fmt/src/to_string.rs: stream_to_string", "derive_macros/src/derive: derive_struct, derive_enum"]}
{"id": "C107", "title": "What sval_fmt prints is on one line", "statement": "Text printed by sval_fmt (`stream_to_write`, `stream_to_token_write`, `stream_to_string`) has no character but printable ASCII, characters that `char::escape_debug` leaves as they are, characters of labels, and, if something is tagged `sval::tags::NUMBER`, characters of text. So text in a value cannot break the line it is printed on, or put control characters in a log, whatever calls are made and whether or not they succeed, unless it is in a label or tagged as a number.", "quantifier": "for all code driving the writer (it may look at results and go on after errors), all token writers that may fail at any token, all Unicode tables and float formatters that print ASCII", "why_tests_cant": "The claim is about every character of every text, every sequence of calls including ones no value makes, and every point at which a writer fails; tests sample a few strings.", "anchors": ["fmt/src/token_write.rs: write_escape_debug, TokenWrite::write_text", "fmt/src/writer.rs: Writer (impl Stream), is_number", "fmt/src/to_write.rs: stream_to_write", "fmt/src/to_string.rs: stream_to_string"]}
