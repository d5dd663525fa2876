# Formal model of sval in Lean 4

`/repo` (sval-rs/sval, Rust) is read as text. `lean/Verif` contains an executable Lean model of
its logic and machine-checked theorems about the model. Nothing here runs the Rust code.

## Shape of the model

* **Calls.** Every method of `sval::Stream` is one constructor of `Token` (as in `test/src/lib.rs`).
  A well-behaved value is a tree `V` with `toks : V → List Token`; an arbitrary value (any code) is a
  `Prog`, a list of calls with nested `value`/`value_computed` calls and explicit failure.
* **Streams.** Every concrete stream (JSON formatter, value buffer, debug formatter, flattener, ...)
  is a state machine `step : Token → σ → Res ε σ`, one branch per overridden method;
  methods it does not override go through the model of `default_stream`.
* **Results.** `Res` has `ok s`, `err e s` (the state at the time of the error is kept) and `panic`.
* **Text** is `List Char`, **binary** `List UInt8`, integers are `Int` plus the Rust width they were
  streamed at, floats are bit patterns (`UInt32`/`UInt64`) with formatting left as a parameter.

## Files

| module | models |
|---|---|
| `Verif/Core/*` | `src/data.rs`, `src/stream.rs`, `src/value.rs`, `src/data/*.rs`, `dynamic`, `ref` |
| `Verif/Json/*` | `json/src/to_fmt.rs`, `json/src/to_io.rs` |
| `Verif/Buffer/*` | `buffer/src/fragments.rs`, `buffer/src/value.rs` |
| `Verif/Fmt/*` | `fmt/src/writer.rs`, `fmt/src/token_write.rs` |
| `Verif/Flatten/*` | `flatten/src/*.rs` |
| `Verif/Nested/*` | `nested/src/flat.rs`, `nested/src/flat_enum.rs`, `nested/src/lib.rs` (`default_stream`) |
| `Verif/Examples/*` | `examples/stream/simple.rs`, `nested/examples/stream_nested_simple.rs` |
| `Verif/Serde/*` | `serde/src/to_value.rs`, `serde/src/to_serialize.rs` |
| `Verif/Rust/*` | `Value` impls in `src/data/*.rs`, `ref/src/*.rs` |
| `Verif/Derive/*` | `derive_macros/src/**` |
| `Verif/Reader/*` | `experiments/src/json/from_slice.rs` |
| `Verif/Test/*` | `test/src/lib.rs` |
| `Verif/Props/*` | property theorems only, one file per area |
| `Verif/Suite/*` | the project's own tests, on the model |

## Plan per property

| id | model | proof |
|---|---|---|
| C01, C02 | `lower1` = `default_stream` bodies; `lower caps` for a capability set | induction on `V`, denotation `den : V → D` as specification, recognizer for balance |
| C03 | integer chain of `lower` | case analysis + decimal printing/parsing lemma |
| C04, C05, C06 | `Prog`, `exec` with wrapper stack | structural induction on programs |
| C07, C08, C09, C10 | `value.rs` extractors as folds over calls | induction over the call list; C09 refuted by witness, partial for the widths that work |
| C11, C12, C13 | `Index`, `Tag` with `compute_id` on `UInt64`, `Label` backing | case analysis; C13 refuted by witness, partial for text/static-ness |
| C14 | `FragmentBuf` | induction over pushes |
| C15–C18 | `ValueBuf` flat part array, `ValueSlice::stream_ref` with fuel | frame lemma: streaming `toks v` appends `enc v` and restores the stack; replay by induction |
| C19, C20, C24, C44 | JSON formatter machine; specification `JSON` AST, renderer-independent grammar and parser | induction on `V` with flag invariants; negations by witness |
| C21, C22, C23 | escape table, number handler machine | induction over characters; NUMBER grammar as automaton vs spec value; negation by witness; `Json/Splits`: the texts that can be split anywhere, two ways to split for each other text |
| C25 | `IoToFmt::write_str` against a schedule of writer answers | induction on schedule; `Ok(0)` negation; exact for all schedules (`Json/IoZero.lean`: the bytes missing are those of the texts at which the writer answered `Ok(0)`) |
| C26, C27 | `Writer` machine | induction on `V`; negation by witness |
| C28–C31 | `Flattener` machine | induction on `V`, depth invariant; negations |
| C32–C34 | `FlatStream` machine + recorder of nested callbacks; `Sees`: the tree that is seen, which is unique | induction; negations; C33 exactly: an invariant of the stream and its buffer (no element of a sequence is begun in it), and which lists of calls without those around elements are the calls of a value |
| C35–C37 | serde data model tree, `ToValue`, `ToSerialize` over nested tree | induction; negations |
| C38, C42 | standard impls as functions to call lists | induction |
| C39, C40 | derive index allocators and generated stream code; `runsFrom`, `variantRuns`: runs of indexes, `Apart`: two that do not meet | induction; negation |
| C41 | `Stack` counters, with or without overflow checks | invariant by induction on histories; negation |
| C53–C56 | `JsonSliceReader` as the calls it makes and how it ends | induction on documents of the grammar, Hoare-style rules for brackets; negations; a grammar of exactly the texts that are accepted (`Reader/LooseSpec.lean`) |
| C65 | `squeeze`: a document without the whitespace between its parts, as a scan over the text | the inductions of C53 and C63, carrying the text |
| C66 | `Fmt.layout`, `Nested.seen`, `Serde.serV` of what a buffer replays | these do not depend on what a buffer changes (`Buffer/Through`), composed with C15, C26, C37 and C61 |
| C67 | `Serde/Doc`: the document serde's data model gives a value, and the text of its keys | equal to the document of the tree (`Json/Spec`), composed with C20 and C35 |
| C68 | `Rust/Doc`: the same for values of Rust types and derived types | induction on values, composed with C20, C38 and C42 |
| C19, C67, C68 exactly | `Json/Loose`: the text also where a key and its value have a name, and the number of braces it lacks; `Json/Balance`: counting braces outside strings | induction over values for the text; every document is balanced, by induction over documents; so well-formed iff nothing is lacking |
| C70 | the buffer with `alloc`; `onePart`, a predicate on the value | simulation step by step, for code that uses `?`; cases on the value |
| C71 | `sval_nested` with `alloc`; `free`, a predicate on values of Rust types; the relation of C32 | simulation step by step, for code that uses `?`; induction on values |
| C72 | a `Build`: `alloc`, debug assertions, the features, the `cfg` | the same simulation, between builds; negation |
| C73 | `V`, the options of a `Formatter`, any `Display` of floats | calls of the value (C60), padding as a specification |
| C74 | `V` | C73 without options against the layout of C26; negation |
| C75 | `bare`: every text and binary in one piece | the layout of C26, the tree of C61 and the calls of C37 do not change; induction on values |
| C76 | `borrowable`: what a key leaves can be kept without copying; `affordable` entries | a relation "the same or an error" closed under every combinator of the flattener, lifted to programs; calls in a key are calls on the label buffer (`Keys`, `walk`) |
| C77 | `Rust/Debug`: `{:?}` of `core` and of derived types; `alike` values | induction on values, composed with C26, C38 and C74; negation for each kind of value left out |
| C78 | `writtenOut`: the fields, flattened ones in their place; `writtenNumbered`: with numbers for those without names | C40 composed with C26 and C74; negation for serde |
| C79 | `svOf`: the serde value that a value is, written without the serializer; documents of C20 and C67 | induction on values; C37, C20 and C67 composed; negation for nameless records and dynamic enums |
| C80 | `readable`: no control characters but line breaks, in the document | scan over the spelling of C63 by induction on values; composed with C20, C53 and C65; `C80_exact` for all values of C20 and any build, via `C53_builds` |
| C81 | `Reader/Other`: `JsonSlice` as a program; `svJ`, the serde value of a document; `Shown`, its `Debug` text | induction on documents; C53 composed with C26, C37, C43, C61, C65 and C79; negation for numbers |
| C82 | `Json/Refuse`: `refused`, `leaves` and `calm`, functions of a value; the formatter's flags alone, `Flags`; `Json/Fate`: `fate`, `trips`, with panics | simulation of the formatter by its flags; induction on `V`; `Json/RefuseDoc`: a value without a document is refused; `Json/Quiet`: simulation by the formatter whose writer keeps nothing |
| C83 | `Cfg.checks`; `wrap`, `inRange`, `cut`: what a range that ends gives | the induction of C29 for runs that end in a panic, or go on with a depth below zero |
| C84 | `asBuffered`, `Merges`, `hasVoid` | the entries of a buffered value are those of the value, buffered (structural induction); the label of a key does not depend on how its texts are split |
| C85 | `Buffer/AsValue`; `StreamsAs`: the same effect on every stream | the calls are the same (`exec_calls`), composed with C14, C22, C47 and C75 |
| C86 | `Serde/Through`: `impl Serializer for Stream` as a serializer; `after`: the value that arrives, written without serde | the serializer makes the calls of the tree of C35 whatever is serialized; composed with C37 and C79; idempotence by induction |
| C87 | `Reader/Bytes`, `Json/Bytes`: the loops over bytes with positions, indexing, slicing and `from_utf8` as they stand | simulation between bytes and characters; `C87_slice` says what slicing means |
| C88 | `Buffer/Model`, `Buffer/Collect`, `Core/Lower`: which fragments and labels are borrowed, owned or static | invariant over every history of calls, `Lent`: a part borrows nothing that was not among the calls |
| C89 | `Serde/NoAlloc` (`Serde/Model` over `Nested/NoAlloc`), `Rust` | simulation of two runs of the same code on two recursive streams, one of which may fail (`Nested/Sim`), composed with C71; for Rust values, induction over what is seen without buffers |
| C90 | `Nested/NoAlloc`, `runCb`: calls one after the other until one fails | `Nested/Fixed`: each step of `FlatStream` makes a fixed list of calls (closed under sequencing); after a failure none, an invariant over all further code |
| C91 | `Json.seen`, `Fmt.seen`, `Fmt.seenD`, `Token.unhint`: what is kept of each call; `Prog.Alike`: the same code up to that | `Core/Alike`: a stream that answers alike calls alike cannot tell alike code apart (induction over both); each formatter's methods factor through `seen`; the buffer commutes with forgetting hints; `Token.terse` for recursive streams and serde, by induction on how deep values are handed over; a flattener factors through `unhint` if its target does |
| C92 | `sizes`, `Serde.sizesOf`: each size that is given is the number of elements or bytes there are | induction over trees through `lowV`, `norm`, `comp`, `seen` and `after`, which C01, C15, C32, C79 and C86 relate to the code |
| C93 | `received`: the calls a stream gets from arbitrary code; `wording`, `opensNumber`, `isFrag`, `isEnd`, `Prog.Only` | a panic is pinned to one of the calls received (`panic_at`); invariants of the handler, of buffers that hold something, and of flat streams outside of enums; flattening: a count of begins and ends that the depth is never below (`Flatten.dips`); recursive streams: a count of the enums that began (`Nested.walk`) |
| C94 | `Token.bytes`, `carried`, `received`; writers only by how much a write makes them larger | each function adds at most a linear amount to any measure (`Grows`), summed over the calls received (`grows_exec`); the reader pays from what it has yet to read (`Reader.Affords`), enums of recursive streams from what they owe (`Nested.pot`) |
| C95 | the parts of the buffer; an empty one is `[.null]` (`St.value`) | every reachable buffer is closed pieces (`Shape.closed`) whose labels stay the same when owned (`Reach.kept`); the calls such pieces are given back as push the same pieces (`Closed.appends`); without an allocator at most one part of a kind that can be pushed again (`St.small`) |
| C96 | `leaf`, `tagSpec`, `lastBorrowed`, `labelText?` | a buffer streams as the normalised value (C15), the calls regrouped as the code makes them (`flat_regroup`), composed with the exact theorems of C07, C08, C45 |
| C97 | `Place`, `Place.fill`, `Shown`, `Replaced` | congruence: what a value looks like once buffered and computed, `comp (norm v)`, depends on a part only through the same of the part (`key_fill`); for code `Shows` is compositional (`Place.shows`) and a buffer shows what it was collected from (`shows_buffer`) |
| C98 | `shown`, `flatText`, `recText`, `texts`, `plainText` | induction over trees for the flat stream (`prints_lowV`); for the recursive one, induction over what `Gets` says it sees (`puts_gets`); `Agrees`: texts that differ where they differ cannot be made the same by what follows |
| C99 | `widths`, `Holder.chain`, `Caps.closest`, `Caps.opened`, `Token.begins`, `Token.ends` | per call, by cases on the methods that the stream has; `C99_forward`: one lemma for each default method (`Low.up_*`) |
| C100 | `told`: what should be printed of a value that is in a tagged one or not | induction on values, with the flag as an invariant; C38 for the derived type; `heard` for the flag as it is (C100_exact) |
| C101 | `J.unique`: no object has two members with the same name; `KeyTy.fine`: types whose keys have different names; `differ` | injectivity of the names of keys by induction on the type; induction on values, composed with C68; negations |
| C102 | `oneLine`: no character before the space; `Token.escaped`: calls that have nothing copied; `Token.words`: text in a call; `Lined`: copied text is on one line; `embedded`: texts of a tree tagged as JSON | invariant of the formatter (good output, no handler of text) over the calls received from any code; induction on Rust values; negations |
| C103 | `Doc`, `Val`: the grammar of JSON; `NotNumber`: documents but numbers; `allJson`: all of the value is text said to be JSON; `OneDigit`: a number of one digit | the parser that is complete for the grammar needs no text to follow but for numbers, so two values at the start of a text are the same; C20 and C25; UTF-8 can be decoded; induction on values for the last character; negations |
| C104 | `Ty`: types and their values; `Ty.fine`: which types; `doc`, as for C68 | induction on the type: the documents of values of one type are the same only for the same value; C68 for the text; negations; `without`: values and types without skipped fields are streamed the same, so these are all that is lost (`C104_skip`) |
| C105 | `Ty`, as for C104; `Ty.kept`: which types; `skel`: what is left of a value without sizes, fragments and the names of fields | induction on the type: values of one type with the same `skel` are the same; buffers, `value_computed` and recursive streams keep it; C15, C32, C38; C39 for the indexes of variants; `Ty.keptSerde` for serde: the same for `svOf` of the value, with C79 and C86; `blank`: the value without skipped fields, `C105_exact`: with these, values make the same calls exactly if they are the same but for those, as for buffers, recursive streams and serde (`C105_*_exact`); negations |
| C106 | `Ty`, as for C104; `Ty.shown`: which types; `Word`, `Stops`: where words end; `Frame`: what is around the fields of a struct | induction on the type: of two values of it, whatever comes behind each, texts that are the same have the same value in front and the same behind (`Tells`); C26_exact, C27, C38; negations; `without`: values and types without skipped fields are streamed the same, so these are all that is lost (`C106_skip`) |
| C107 | `oneLine`, as for C102; `Token.printed`, `Token.said`: labels and fragments of a call; `Token.numeral`: tagged as a number; `Env.Ascii`, `Env.Controls`: what `ryu` and `core` are taken to do | invariant of the writer (good output, no number) over the calls received from any code, for any writer of tokens; negations |
| C69 | `flatMembers`: the members of each field in order, those of its own document for a flattened one; `flatNumbered`: elements of arrays under their numbers; `flatParts`: for structs without names; `flattenedDoc`: what an enum gets instead, and that values that are not collections get nothing | induction on fields, composed with C20, C29 and C40 |
| C43 | `Json/Norm`: formatter on what a buffer replays; `Json/Untag`: what the tags of labels change | congruence over the changes a buffer makes, composed with C15; lengths of the two texts for the exact condition on labels; negations |
| C57 | `Rust/Extracts`: `to_*` and `tag` of each impl, overridden, forwarded or default | induction on values, `_exact` theorems of C07 to C09; negations |
| C58 | `TokenBuf`, derived `==` of tokens | induction on the value's code; `plain` is what can be told apart; negations |
| C59 | attributes of an item, to derived types | exact relation to what is written; invariance under reordering; effects on the tree; negations |
| C60 | value trees, to calls of `TokenWrite` | induction on the tree for any overrides; iff for the values with right flags; refinement to the C26 model; invariant for decorations |
| C61 | `default_stream` over any set of methods an implementation has | induction on the tree and on what is handed over; fuel that always suffices |
| C62 | `ArrayVec`, with slots that are live, moved out of or not initialised | refinement to a bounded list by an invariant over all histories; permutation for who drops what |
| C63, C64 | `Json/Text`: the spelling of a value; `JsonStr` in place of any of its parts | the induction of C20, carrying the text; congruence of the spelling; negation |

## Trusted base

* The Lean 4.33.0 kernel; theorems use at most `propext`, `Classical.choice`, `Quot.sound`.
* The reading of `/repo`: each definition cites the lines it models. There is no link from the Rust
  sources to the model other than reading.

### What is modelled, by crate, and what is assumed

* **sval (`src`)**: every `Stream` method with its default body, the forwarding impls (`&mut S`,
  `Box`), `Computed`, `default_stream`, `Value` extractors, `Label`, `Tag`, `Index`. Pointer width of
  `Index` conversions is a parameter. Assumed: `value`/`value_computed` of a concrete stream are the
  defaults unless the file says otherwise (no concrete stream in the workspace overrides them except the
  ones modelled).
* **Values** are trees `V` when a property needs a well-behaved value. Arbitrary code that calls a
  stream is `Prog`; it stops at the first error (the `?` in every impl), or goes on: `Core/Guard`.
* **sval_buffer**: `FragmentBuf`, `TextBuf`, `BinaryBuf`, `ValueBuf`, `Value::collect`, replay. Parts are
  numbered and ranges are indexes into the part list as in the source. Without `alloc` there is room for
  one part and one open container. `ArrayVec` with its slots; `Clone` of the values may panic, `Drop` does not. `push_display`
  takes a `Display` that writes pieces, sees whether each write worked, and returns a result. Builds that panic for lack of
  `alloc` are in `Buffer/Debug`.
* **sval_json**: `Formatter` as a state machine over a writer that may fail at any write; `IoToFmt`
  against an arbitrary sequence of answers of an `io::Write`. Assumed: `itoa` prints decimal integers;
  `ryu` is a parameter, where needed with the hypothesis that finite floats print as JSON numbers. `TokenWrite`
  of the JSON crate writes each piece by `write_str`.
* **sval_fmt**: `Writer` over an arbitrary `TokenWrite`: `Fmt.Model` for those that override `write_token`/`write_str`,
  `Fmt.Token` for those that override any of the methods (`C60_token` and `C60_generic` tie the two together). The generic
  methods are given the text their argument displays. `Fmt.Formatter` is `stream_to_fmt` and `ToFmt` with the options of a
  `fmt::Formatter`; `Formatter::pad_integral` of `core` is modelled after its source, with a `write_char` as the `write_str` of
  the character. Float formatting (with options, for a `Formatter`), and the Unicode tables behind `char::escape_debug` are parameters.
* **sval_flatten**: `Flattener` for each of the five containers, `LabelBuf`, `IndexAllocator`. `isize` is 64
  bit. Overflow checks of the build are a parameter (`Cfg.checks`): an overflow is a panic or wraps around. The depth is
  an integer, `-1` standing for `usize::MAX`; nesting is assumed to be less than 2^64 deep. The target stream's methods are called as `Token`s. Without `alloc`, a label
  that would have to be copied is an error, as in a build with `sval_buffer/no_debug_assertions`;
  C76 is about that, the other theorems assume `alloc`.
* **sval_nested**: `FlatStream` and `FlatStreamEnum`, with the `alloc` feature (`Nested/Model`) and with the build as
  a parameter (`Nested/NoAlloc`): with and without `alloc`, and panicking or not for lack of it. A recursive stream is any state
  machine over its methods (`Cb`), which may fail or panic at any call; labels passed on are clones, as in the code (a clone of a label that owns its text has
  lost its tag); `nested` of an enum is its begin and its
  end, and is assumed to call its closure once. A state whose stream was taken is not modelled. An enum that
  ends without a variant recurses forever in the source: a panic in the model. `default_stream`, the provided methods,
  for any set of methods that an implementation has (`Impl`; borrowed and computed data are overridden together, `value`
  and `value_computed` of `Stream` never). Calls have a depth, below which they panic; theorems hold from some depth on.
  Not modelled: the methods for references apart from those for `Ref`; `Unsupported`, which cannot be constructed, so that
  its methods never run.
* **sval_serde**: `ToValue` for every method of `serde::Serializer`, twice: as the calls made for a tree of the
  data model, and as a serializer (`Serde/Through`), shown to agree (`C86_serializer`); and `ToSerialize` with and without the `alloc`
  feature. A serializer is any state machine over its methods and those of `SerializeSeq` and so on; an argument
  is given to it as what serializing the argument does. The state is also there after an error. A `Serialize`
  is a tree of the data model whose code stops at the first error. `ToSerialize` recurses on the stack of the
  machine; the model has a depth, theorems hold from some depth on. Not modelled: `i128` on serializers without
  it, `is_human_readable`, `Display` impls that fail, skipped fields (`skip_field` is not implemented by the
  crate).
* **Rust values**: `RV` is a Rust value of a type with a `Value` impl: primitives, text, bytes, options, slices,
  arrays, tuples, maps, smart pointers, and derived structs and enums, at any nesting. `items` is what the impl
  calls. Maps are lists of entries in their iteration order. `extracts` is what its conversions return.
* **sval_ref**: `ValueRef` for `&T`, `Box`, `Vec`, slices, arrays, tuples.
* **sval_derive**: an item with its attributes (`Derive/Attr`) is what `syn` parses: attributes are paths with lists of
  keys and expressions. What the macro reads from it is data (`Attrs`, `Field`, `Variant`, `EnumDef`), or a panic, which is
  an error of the compiler. `isize` is that of a 64 bit host. The generated code is what
  `items` does for a value of such a type. A constant path given for a label, tag or index is its value. With
  flattened fields (`Derive/Flatten`), the code is given by running it on any stream, where a flattened field runs on
  the model of the flattener.

* **experiments**: `JsonSlice`, which reads a `&str` of JSON. The source is the characters left instead of bytes and a
  position (the bytes looked at are ASCII). Overflow checks of the build are a parameter. `todo!()` is a panic.
* **examples**: the flat and the recursive example stream, and the one with a tag of its own (`Examples/Tags`). The standard output is a text that grows; `print!` does not
  fail. What `core` prints for floats, its tables of characters, and what `humantime` prints for a time, if anything, are parameters.
  The other examples only call what is modelled.
* **sval_test**: whether an assertion panics. Not modelled: what the message of a panic says, the second run under
  `cfg(test)`, which is for the tests of the crate itself.

Not modelled: memory safety of `unsafe` blocks other than those of `Label` and `ArrayVec`, and what those of `sval_buffer` rest
on (C88), allocation failure, real I/O, float formatting (`ryu`)
and integer formatting (`itoa`) internals (integers are printed by a model function), the proc-macro
token plumbing of the derive crate (only the logic of what it generates), Rust lifetimes (that text
reported as borrowed really lives as long is a typing matter where the compiler checks it; the model tracks which method
reported it, and C88 follows it through the buffers, where the compiler does not check).

## Reading the theorems

Each property `Cnn` has theorems named `Cnn_*` in `Verif/Props`. A property that is false of the code as
it is has a theorem `Cnn_fails*`: a concrete value and the wrong outcome. Then `Cnn_*_partial` states it
for all inputs with the hypothesis under which it holds, and often `Cnn_exact` says what happens for all
inputs. `seeded/LOG.jsonl` lists bugs put into the model on purpose, and the theorems that noticed.

## The project's tests, on the model

There is no way to run the Rust code here, so the model is checked against the expectations that the project
wrote down: `Verif/Suite` holds assertions of its tests as `example`s that are evaluated in the kernel. They are
tests of the model, not proofs of any property, and no property rests on them. A failing one would mean that the
model misreads the code.

* `Suite/Derive.lean`, `Suite/Flatten.lean`, `Suite/Values.lean` are written by `suite/gen.py`, a small translator
  of `assert_tokens` tests: `derive/test/lib.rs` with `derive/test/compile_fail`, `flatten/src/*.rs`,
  `test/src/lib.rs`, `ref/src/seq.rs`.
* `Suite/Json.lean`, `Suite/Fmt.lean`, `Suite/Core.lean`, `Suite/Buffer.lean`, `Suite/Serde.lean` and `Suite/Nested.lean`
  are written by hand from `json/test/lib.rs`, `fmt/test/lib.rs`, `src/data.rs` with `src/data/*.rs` and `src/stream.rs`,
  `buffer/src/value.rs` and `buffer/src/fragments.rs`, `serde/test/lib.rs`, `nested/src/lib.rs`.
* Not ported: tests that check types (`Send`, `Sync`), pointers, and error messages.
