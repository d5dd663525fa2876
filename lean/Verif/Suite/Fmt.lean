import Verif.Props.FmtToken
import Verif.Rust.Model

set_option autoImplicit false

/-!
# The tests of `sval_fmt`, on the model

`fmt/test/lib.rs` and the tests in `fmt/src/token_write.rs`. Where the test compares with a derived `Debug`, the text is what
that writes. `debug_retains_flags` is left out: options of the formatter are not modelled.
-/

namespace Sval.FmtSuite

open Nested (prog Item)
open Rust (RV)
open Fmt (Call Impl)
open Derive (Field Variant EnumDef)

def env : Fmt.Env :=
  { f32 := fun _ => [], f64 := fun _ => [], extended := fun c => c == '️', printable := fun _ => true }

/-- `format!("{:?}", ToFmt::new(v))` -/
def debug (q : List Item) : Option Text :=
  match Fmt.display Fmt.strWriter env (prog q) [] with
  | .done true o => some o
  | _ => none

/-- `assert_fmt` -/
def assertFmt (expected : Text) (x : RV) : Bool := debug (Rust.items x) == some expected

def num (n : Int) : RV := .int .i32 n
def emptyMap : RV := .map [] []
def emptySlice : RV := .boxed (.slice [])

def six : List Field :=
  [{ ident := some (t! "field_0") }, { ident := some (t! "field_1") }, { ident := some (t! "field_2") },
   { ident := some (t! "field_3") }, { ident := some (t! "field_4") }, { ident := some (t! "field_5") }]
def values (s : Text) : List RV := [num 42, .bool true, emptyMap, .str s, emptySlice, .int .u32 17]
def mapStruct (s : Text) : RV := .struct true (t! "MapStruct") {} six (values s)
def seqStruct : RV := .struct false (t! "SeqStruct") {} [{}, {}, {}, {}, {}, {}] (values (t! "Hello"))
def enumD : EnumDef :=
  { ident := t! "Enum",
    variants := [{ ident := t! "Constant", shape := .unit }, { ident := t! "Tagged", shape := .newtype },
      { ident := t! "MapStruct", shape := .named six }, { ident := t! "SeqStruct", shape := .unnamed [{}, {}, {}, {}, {}, {}] }] }
def number (s : Text) : RV := .newtype (t! "Number") { tag := some tags.NUMBER } false (.str s)

def hello : Text := t! "MapStruct { field_0: 42, field_1: true, field_2: {}, field_3: \"Hello\", field_4: [], field_5: 17 }"

/-- `debug_primitive`, `debug_option`, `debug_map_struct`, `debug_seq_struct`, `debug_tagged`, `fmt/test/lib.rs:78-112` -/
example : assertFmt (t! "42") (num 42) ∧ assertFmt (t! "true") (.bool true) ∧ assertFmt (t! "\"a string\"") (.str (t! "a string")) ∧
    assertFmt (t! "Some(42)") (.some (num 42)) ∧ assertFmt (t! "None") .none ∧ assertFmt hello (mapStruct (t! "Hello")) ∧
    assertFmt (t! "SeqStruct(42, true, {}, \"Hello\", [], 17)") seqStruct ∧
    assertFmt (t! "(42, true, \"Hello\")") (.tuple [num 42, .bool true, .str (t! "Hello")]) ∧
    assertFmt (t! "Tagged(42)") (.newtype (t! "Tagged") {} false (num 42)) := by decide +kernel

/-- `debug_enum`, `debug_unit`, `fmt/test/lib.rs:114-135` -/
example : assertFmt (t! "Constant") (.enum enumD 0 []) ∧ assertFmt hello (.enum enumD 2 (values (t! "Hello"))) ∧
    assertFmt (t! "SeqStruct(42, true, {}, \"Hello\", [], 17)") (.enum enumD 3 (values (t! "Hello"))) ∧
    assertFmt (t! "Tagged(42)") (.enum enumD 1 [num 42]) ∧ assertFmt (t! "()") .unit := by decide +kernel

def lab (t : Text) : Option Label := some (.new t)
def outer : Meta := { label := lab (t! "Outer") }
def inner : Meta := { label := lab (t! "Inner"), index := some { val := 1 } }
def variant : Meta := { label := lab (t! "Variant"), index := some { val := 0 } }

/-- `debug_exotic_record`, `debug_exotic_nested_enum`, `debug_exotic_empty_enum`, `debug_exotic_nested_enum_empty`,
`debug_exotic_unnamed_enum`, `fmt/test/lib.rs:137-303` -/
example : debug [.tok (.recordBegin {} (some 3)),
      .tok (.recordValueBegin none (.new (t! "field_0"))), .val (Rust.items (num 42)),
      .tok (.recordValueEnd none (.new (t! "field_0"))),
      .tok (.recordValueBegin none (.new (t! "field_1"))), .val (Rust.items (.bool true)),
      .tok (.recordValueEnd none (.new (t! "field_1"))),
      .tok (.recordValueBegin none (.new (t! "field_2"))), .val (Rust.items (.str (t! "Hello"))),
      .tok (.recordValueEnd none (.new (t! "field_2"))), .tok (.recordEnd {})] =
        some (t! "{ field_0: 42, field_1: true, field_2: \"Hello\" }") ∧
    debug [.tok (.enumBegin outer), .tok (.enumBegin inner), .tok (.tag variant), .tok (.enumEnd inner), .tok (.enumEnd outer)] =
      some (t! "Variant") ∧
    debug [.tok (.enumBegin { label := lab (t! "Enum") }), .tok (.enumEnd { label := lab (t! "Enum") })] = some (t! "Enum") ∧
    debug [.tok (.enumBegin outer), .tok (.enumBegin inner), .tok (.enumEnd inner), .tok (.enumEnd outer)] = some (t! "Inner") ∧
    debug [.tok (.enumBegin {}), .tok (.taggedBegin {}), .val (Rust.items (num 42)), .tok (.taggedEnd {}), .tok (.enumEnd {})] =
      some (t! "42") := by decide +kernel

/-- The `Writer` of `token_write`: which of `null`, `bool`, `text`, `number` were called? -/
def marks : Impl (List Call) where
  str := fun _ o => .ok o
  over
    | .null => some fun o => .ok (o ++ [.null])
    | .text _ => some fun o => .ok (o ++ [.text []])
    | .number _ => some fun o => .ok (o ++ [.number []])
    | .bool _ => some fun o => .ok (o ++ [.bool true])
    | _ => none

def marked (c : Call) (x : RV) : Bool :=
  match Fmt.toTokenWrite marks env (prog (Rust.items x)) [] with
  | .done true o => o.contains c
  | _ => false

/-- `token_write`, `fmt/test/lib.rs:305-362` -/
example : marked (.number []) (num 42) ∧ marked (.number []) (number (t! "436543.457656765")) ∧ marked (.bool true) (.bool true) ∧
    marked (.text []) (.str (t! "a string")) ∧ marked .null .unit := by decide +kernel

/-- The `Writer` of `stream_token_write_compact` -/
def compact : Impl Text where
  str := fun t o => .ok (o ++ t)
  over
    | .ws _ => some fun o => .ok o
    | _ => none

/-- The `Writer` of `stream_token_write_no_escaping` -/
def noEscaping : Impl Text where
  str := fun t o => .ok (o ++ t)
  over
    | .text t => some fun o => .ok (o ++ t)
    | .textQuote => some fun o => .ok o
    | _ => none

/-- The `Writer` of `stream_token_write_indented`: what is written, and `indent` -/
def indented : Impl (Text × Nat) where
  str := put
  over
    | .mapBegin => some (opened (t! "{"))
    | .mapKeyBegin first => some (next first)
    | .mapEnd empty => some (closed (t! "}") empty)
    | .seqBegin => some (opened (t! "["))
    | .seqValueBegin first => some (next first)
    | .seqEnd empty => some (closed (t! "]") empty)
    | .recordBegin => some (opened (t! "{"))
    | .recordValueBegin field first => some fun o => (next first o).bind (put (field ++ t! ": "))
    | .recordEnd empty => some (closed (t! "}") empty)
    | .tupleBegin => some (opened (t! "("))
    | .tupleValueBegin first => some (next first)
    | .tupleEnd empty => some (closed (t! ")") empty)
    | _ => none
where
  put (t : Text) (o : Text × Nat) : Res Unit (Text × Nat) := .ok (o.1 ++ t, o.2)
  opened (t : Text) (o : Text × Nat) := put t (o.1, o.2 + 4)
  next (first : Bool) (o : Text × Nat) := put ((if first then [] else [',']) ++ '\n' :: List.replicate o.2 ' ') o
  closed (t : Text) (empty : Bool) (o : Text × Nat) :=
    put ((if empty then [] else ',' :: '\n' :: List.replicate (o.2 - 4) ' ') ++ t) (o.1, o.2 - 4)

def quoted : RV := mapStruct (t! "text \"in quotes\"")

/-- `stream_token_write_compact`, `stream_token_write_no_escaping`, `stream_token_write_indented`, `fmt/test/lib.rs:364-604` -/
example : Fmt.toTokenWrite compact env (prog (Rust.items quoted)) [] =
      .done true (t! "MapStruct{field_0:42,field_1:true,field_2:{},field_3:\"text \\\"in quotes\\\"\",field_4:[],field_5:17}") ∧
    Fmt.toTokenWrite noEscaping env (prog (Rust.items quoted)) [] =
      .done true (t! "MapStruct { field_0: 42, field_1: true, field_2: {}, field_3: text \"in quotes\", field_4: [], field_5: 17 }") ∧
    Fmt.toTokenWrite indented env (prog (Rust.items quoted)) ([], 0) =
      .done true (t! "MapStruct {\n    field_0: 42,\n    field_1: true,\n    field_2: {},\n    field_3: \"text \\\"in quotes\\\"\",\n    field_4: [],\n    field_5: 17,\n}", 0) := by
  decide +kernel

/-- `failing_value_does_not_panic_to_string`, `fmt/test/lib.rs:609-639` -/
example : Fmt.display Fmt.strWriter env (.ret false) [] = .done true (t! "<an error occurred when formatting an argument>") ∧
    Fmt.display Fmt.strWriter env
      (.call (.recordTupleBegin { label := some ((Label.new (t! "NestedKaboom")).withTag tags.VALUE_IDENT) } (some 3)) fun _ =>
        .call (.recordTupleValueBegin none ((Label.new (t! "a")).withTag tags.VALUE_IDENT) { val := 0, tag := some tags.VALUE_OFFSET })
          fun _ => .value (prog (Rust.items (num 1))) fun _ =>
        .call (.recordTupleValueEnd none ((Label.new (t! "a")).withTag tags.VALUE_IDENT) { val := 0, tag := some tags.VALUE_OFFSET })
          fun _ =>
        .call (.recordTupleValueBegin none ((Label.new (t! "b")).withTag tags.VALUE_IDENT) { val := 1, tag := some tags.VALUE_OFFSET })
          fun _ => .value (.ret false) fun ok => .ret ok) [] =
      .done true (t! "NestedKaboom { a: 1, b: <an error occurred when formatting an argument>") := by decide +kernel

/-- A key and a value of the map in `stream_invalid`. -/
def kaboom (n : Int) (v k : Prog) : Prog :=
  .call .mapKeyBegin fun _ => .value (prog (Rust.items (num n))) fun _ => .call .mapKeyEnd fun _ =>
    .call .mapValueBegin fun _ => .value v fun ok => if ok then .call .mapValueEnd fun _ => k else .ret false

/-- `stream_invalid`: `test/src/lib.rs:1145-1187` -/
example : Fmt.display Fmt.strWriter env
      (.call (.mapBegin (some 4)) fun _ => kaboom 1 (.ofToks [.bool true]) (kaboom 2 (.ofToks [.bool true])
        (kaboom 3 (.ret false) (kaboom 4 (.ofToks [.bool true]) (.call .mapEnd fun ok => .ret ok))))) [] =
    .done true (t! "{ 1: true, 2: true, 3: <an error occurred when formatting an argument>") := by decide +kernel

/-- `escape_debug`, `fmt/src/token_write.rs:540-566` -/
example : ∀ a ∈ [(t! "hello", t! "hello"), (t! "\\", t! "\\\\"), (t! "\r", t! "\\r"), (t! "\n", t! "\\n"), (t! "\t", t! "\\t"),
      (t! "\"", t! "\\\""), (t! "'", t! "\\'"), (['⛰', '️'], t! "⛰\\u{fe0f}")],
    Fmt.writeText Fmt.strWriter env a.1 [] = .ok a.2 := by decide +kernel

end Sval.FmtSuite
