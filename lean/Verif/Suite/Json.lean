import Verif.Props.FlattenJson
import Verif.Reader.Model

set_option autoImplicit false

/-!
# The tests of `sval_json`, on the model

`json/test/lib.rs`. These are tests of the model: each is a test of the project with what it expects. Where the test
compares with `serde_json`, the text is what that crate writes.
-/

namespace Sval.JsonSuite

open Nested (prog Item)
open Rust (RV)
open Derive (Field Attrs Shape Variant EnumDef FV stream)

/-- What `ryu` writes for the floats of the tests. -/
def env : Json.Env :=
  { f32 := fun _ => t! "0.0",
    f64 := fun b => if b = 4608533498688228557 then t! "1.3" else if b = 4614253070214989087 then t! "3.14" else t! "0.0" }

def oneThree : RV := .f64 4608533498688228557
def threeFourteen : RV := .f64 4614253070214989087

/-- `stream_to_string` -/
def json (x : RV) : Option Text := Json.toString env (prog (Rust.items x))

/-- `JsonStr`, `json/src/value.rs` -/
def jsonStr (t : Text) : V := .tagged { tag := some tags.JSON_VALUE } (.text (some (utf8Len t)) [.borrowed t])

/-- `stream_to_string`, for calls made by hand -/
def calls (ts : List Token) : Option Text := Json.toString env (Prog.ofToks ts)

/-- `assert_stream` -/
def assertStream (expected : Text) (x : RV) : Bool :=
  json x == some expected && Json.toString env (valueOf (jsonStr expected)) == some expected

/-- `assert_valid` -/
def assertValid (p : Option Text) : Bool := (p.bind Json.parse).isSome

/-- `struct MapStruct<F0, F1> { field_0: F0, field_1: F1 }` -/
def mapStruct (a b : RV) : RV :=
  .struct true (t! "MapStruct") {} [{ ident := some (t! "field_0") }, { ident := some (t! "field_1") }] [a, b]
def seqStruct (a b : RV) : RV := .struct false (t! "SeqStruct") {} [{}, {}] [a, b]
def nestedMap (a : Int) (b : Bool) : RV :=
  .struct true (t! "NestedMap") {} [{ ident := some (t! "field_0") }, { ident := some (t! "field_1") }] [.int .i32 a, .bool b]
def emptyMap : RV := .struct true (t! "EmptyMap") {} [] []
def tagged (a : RV) : RV := .newtype (t! "Tagged") {} false a
def unitStruct : RV := .unitStruct (t! "UnitStruct") {}

/-- The variants of `Enum`, `UnlabeledEnum` and `UnlabeledUnindexedEnum`. -/
def variants : List Variant :=
  [{ ident := t! "Constant", shape := .unit },
   { ident := t! "Tagged", shape := .newtype },
   { ident := t! "MapStruct", shape := .named [{ ident := some (t! "field_0") }, { ident := some (t! "field_1") }] },
   { ident := t! "EmptyMapStruct", shape := .newtype },
   { ident := t! "SeqStruct", shape := .unnamed [{}, {}] },
   { ident := t! "EmptySeq", shape := .newtype },
   { ident := t! "Nested", shape := .newtype }]
def enumD : EnumDef := { ident := t! "Enum", variants }
def unlabeledD : EnumDef := { ident := t! "UnlabeledEnum", unlabeledVariants := true, variants }
def unindexedD : EnumDef :=
  { ident := t! "UnlabeledUnindexedEnum", unlabeledVariants := true, unindexedVariants := true, variants }
def dynamicD : EnumDef :=
  { ident := t! "DynamicEnum", dyn := true,
    variants := [{ ident := t! "Constant", shape := .unit }, { ident := t! "Null", shape := .newtype },
      { ident := t! "Text", shape := .newtype }, { ident := t! "Number", shape := .newtype },
      { ident := t! "Boolean", shape := .newtype }, { ident := t! "Array", shape := .newtype }] }

def number (x : RV) : RV := .newtype (t! "Number") { tag := some tags.NUMBER } false x
def jsonNumber (x : RV) : RV := .newtype (t! "JsonNumber") { tag := some tags.JSON_NUMBER } false x
def jsonText (x : RV) : RV := .newtype (t! "JsonText") { tag := some tags.JSON_TEXT } false x

def num (n : Int) : RV := .int .i32 n
def emptySlice : RV := .boxed (.slice [])

/-- `stream_primitive`, `json/test/lib.rs:116-123` -/
example : assertStream (t! "42") (num 42) ∧ assertStream (t! "true") (.bool true) ∧ assertStream (t! "false") (.bool false) ∧
    assertStream (t! "\"abc\"") (.str (t! "abc")) ∧ assertStream (t! "\"a\\nb\"") (.str (t! "a\nb")) := by decide +kernel

/-- `stream_native_number`, `json/test/lib.rs:125-151` -/
example : ∀ x ∈ [(t! "0", t! "0"), (t! "000", t! "0"), (t! "001", t! "1"), (t! "-1", t! "-1"), (t! "+1", t! "1"),
    (t! "1.234", t! "1.234"), (t! "1.200", t! "1.200"), (t! "123.456e789", t! "123.456e789"),
    (t! "-123.456e789", t! "-123.456e789"), (t! "-123.456e-789", t! "-123.456e-789"),
    (t! "+123.456e789", t! "123.456e789"), (t! "+123.456e+789", t! "123.456e+789"),
    (t! "+00123.456e+789", t! "123.456e+789"),
    (t! "84621599231797873982892348534.48343235787975583989258932",
      t! "84621599231797873982892348534.48343235787975583989258932")],
    assertStream x.2 (number (.str x.1)) ∧ assertStream x.1 (jsonNumber (number (.str x.1))) ∧
    assertStream x.1 (number (jsonNumber (.str x.1))) ∧ assertStream x.1 (jsonNumber (.str x.1)) := by decide +kernel

/-- `stream_native_text`, `json/test/lib.rs:153-160` -/
example : assertStream (t! "\"abc\"") (jsonText (.str (t! "abc"))) ∧ assertStream (t! "\"a\nb\"") (jsonText (.str (t! "a\nb"))) := by
  decide +kernel

/-- `stream_native_text_nested`, `stream_native_number_nested`, `json/test/lib.rs:162-182` -/
example : assertStream (t! "{\"text\":\"a\nb\"}") (.struct true (t! "MapStruct") {}
      [{ ident := some (t! "text"), dataTag := some tags.JSON_TEXT }] [.str (t! "a\nb")]) ∧
    assertStream (t! "{\"number\":123.456}") (.struct true (t! "MapStruct") {}
      [{ ident := some (t! "number"), dataTag := some tags.JSON_NUMBER }] [.str (t! "123.456")]) := by decide +kernel

/-- `stream_option`, `stream_unit`, `stream_unit_struct`, `json/test/lib.rs:184-200` -/
example : assertStream (t! "42") (.some (num 42)) ∧ assertStream (t! "null") .none ∧ assertStream (t! "null") .unit ∧
    assertStream (t! "\"UnitStruct\"") unitStruct := by decide +kernel

/-- `stream_json_str`, `json/test/lib.rs:202-214` -/
example : Json.toString env (valueOf (jsonStr (t! "{\"a\":[1,true,4.3]}"))) = some (t! "{\"a\":[1,true,4.3]}") := by decide +kernel

/-- `stream_map_struct`, `json/test/lib.rs:216-248` -/
example : assertStream (t! "{\"field_0\":42,\"field_1\":true}") (mapStruct (num 42) (.bool true)) ∧
    assertStream (t! "{\"field_0\":\"Hello\",\"field_1\":1.3}") (mapStruct (.str (t! "Hello")) oneThree) ∧
    assertStream (t! "{\"field_0\":{},\"field_1\":{}}") (mapStruct emptyMap emptyMap) ∧
    assertStream (t! "{\"field_0\":[],\"field_1\":[]}") (mapStruct emptySlice emptySlice) ∧
    assertStream (t! "{\"field_0\":{\"field_0\":42,\"field_1\":true},\"field_1\":{\"field_0\":43,\"field_1\":false}}")
      (mapStruct (nestedMap 42 true) (nestedMap 43 false)) := by decide +kernel

/-- `stream_seq_struct`, `json/test/lib.rs:250-276` -/
example : assertStream (t! "[42,true]") (seqStruct (num 42) (.bool true)) ∧
    assertStream (t! "[\"Hello\",1.3]") (seqStruct (.str (t! "Hello")) oneThree) ∧
    assertStream (t! "[42,true]") (.tuple [num 42, .bool true]) ∧
    assertStream (t! "[{\"field_0\":42,\"field_1\":true},{\"field_0\":43,\"field_1\":false}]")
      (.tuple [nestedMap 42 true, nestedMap 43 false]) ∧
    assertStream (t! "[{},{}]") (.tuple [emptyMap, emptyMap]) ∧
    assertStream (t! "[[],[]]") (.tuple [emptySlice, emptySlice]) := by decide +kernel

/-- `stream_tagged`, `json/test/lib.rs:278-281` -/
example : assertStream (t! "42") (tagged (num 42)) := by decide +kernel

/-- `stream_enum`, `json/test/lib.rs:283-304` -/
example : (∀ x ∈ [(t! "\"Constant\"", RV.enum enumD 0 []),
    (t! "{\"MapStruct\":{\"field_0\":42,\"field_1\":true}}", .enum enumD 2 [num 42, .bool true]),
    (t! "{\"EmptyMapStruct\":{}}", .enum enumD 3 [emptyMap]),
    (t! "{\"SeqStruct\":[42,true]}", .enum enumD 4 [num 42, .bool true]),
    (t! "{\"EmptySeq\":[]}", .enum enumD 5 [emptySlice]),
    (t! "{\"Tagged\":42}", .enum enumD 1 [num 42])],
    assertStream x.1 x.2 ∧ assertStream (t! "{\"Nested\":" ++ x.1 ++ ['}']) (.enum enumD 6 [.boxed x.2]) ∧
      assertStream (t! "{\"Nested\":{\"Nested\":" ++ x.1 ++ t! "}}")
        (.enum enumD 6 [.boxed (.enum enumD 6 [.boxed x.2])])) := by decide +kernel

/-- `stream_dynamic_enum`, `json/test/lib.rs:306-336` -/
example : json (.enum dynamicD 0 []) = some (t! "\"Constant\"") ∧
    json (.enum dynamicD 2 [.str (t! "Some text")]) = some (t! "\"Some text\"") ∧
    json (.enum dynamicD 3 [threeFourteen]) = some (t! "3.14") ∧
    json (.enum dynamicD 4 [.bool true]) = some (t! "true") ∧
    json (.enum dynamicD 1 [.null]) = some (t! "null") ∧
    json (.enum dynamicD 5 [.boxed (.slice [.enum dynamicD 4 [.bool true], .enum dynamicD 4 [.bool false]])]) =
      some (t! "[true,false]") := by decide +kernel

/-- `stream_unlabeled_enum`, `json/test/lib.rs:338-379` -/
example : json (.enum unlabeledD 0 []) = some (t! "0") ∧
    json (.enum unlabeledD 1 [num 4]) = some (t! "{\"1\":4}") ∧
    json (.enum unlabeledD 3 [emptyMap]) = some (t! "{\"3\":{}}") ∧
    json (.enum unlabeledD 5 [emptySlice]) = some (t! "{\"5\":[]}") ∧
    json (.enum unlabeledD 2 [num 1, .bool true]) = some (t! "{\"2\":{\"field_0\":1,\"field_1\":true}}") ∧
    json (.enum unlabeledD 4 [num 1, .bool true]) = some (t! "{\"4\":[1,true]}") ∧
    json (.enum unlabeledD 6 [.boxed (.enum unlabeledD 2 [num 1, .bool true])]) =
      some (t! "{\"6\":{\"2\":{\"field_0\":1,\"field_1\":true}}}") := by decide +kernel

/-- `stream_unlabeled_unindexed_enum`, `json/test/lib.rs:381-425` -/
example : json (.enum unindexedD 0 []) = some (t! "null") ∧
    json (.enum unindexedD 1 [num 4]) = some (t! "4") ∧
    json (.enum unindexedD 3 [emptyMap]) = some (t! "{}") ∧
    json (.enum unindexedD 5 [emptySlice]) = some (t! "[]") ∧
    json (.enum unindexedD 2 [num 1, .bool true]) = some (t! "{\"field_0\":1,\"field_1\":true}") ∧
    json (.enum unindexedD 4 [num 1, .bool true]) = some (t! "[1,true]") ∧
    json (.enum unindexedD 6 [.boxed (.enum unindexedD 2 [num 1, .bool true])]) =
      some (t! "{\"field_0\":1,\"field_1\":true}") := by decide +kernel

/-- `stream_externally_tagged_enum`, `json/test/lib.rs:427-444` -/
example : jsonOf env (stream true (fun _ => []) (.struct true (t! "Container") {}
      [{ ident := some (t! "internally_tagged") }, { ident := some (t! "externally_tagged"), flatten := true }]
      [.plain (.enum enumD 1 [.bool true]), .plain (.enum enumD 1 [.bool true])])) =
    some (t! "{\"internally_tagged\":{\"Tagged\":true},\"Tagged\":true}") := by decide +kernel

def lab (t : Text) : Option Label := some (.new t)
def ix (i : Int) : Option Index := some { val := i }

/-- `stream_empty_enum` to `stream_unlabeled_unindexed_tag`, `json/test/lib.rs:446-578` -/
example : calls [.enumBegin { label := lab (t! "Enum") }, .enumEnd { label := lab (t! "Enum") }] = some (t! "\"Enum\"") ∧
    calls [.enumBegin { index := ix 1 }, .enumEnd { index := ix 1 }] = some (t! "1") ∧
    calls [.enumBegin {}, .enumEnd {}] = some (t! "null") ∧
    calls [.taggedBegin { label := lab (t! "Tagged") }, .taggedEnd { label := lab (t! "Tagged") }] = some (t! "\"Tagged\"") ∧
    calls [.taggedBegin { index := ix 1 }, .taggedEnd { index := ix 1 }] = some (t! "1") ∧
    calls [.taggedBegin {}, .taggedEnd {}] = some (t! "null") ∧
    calls [.tag { index := ix 1 }] = some (t! "1") ∧
    calls [.tag {}] = some (t! "null") := by decide +kernel

/-- `UnnamedRecord`, `json/test/lib.rs:583-587` -/
def unnamedRecord : List Item :=
  [.tok (.recordBegin {} (some 3)),
   .tok (.recordValueBegin none (.new (t! "field_0"))), .val (Rust.items (num 42)),
   .tok (.recordValueEnd none (.new (t! "field_0"))),
   .tok (.recordValueBegin none (.new (t! "field_1"))), .val (Rust.items (.bool true)),
   .tok (.recordValueEnd none (.new (t! "field_1"))),
   .tok (.recordValueBegin none (.new (t! "field_2"))), .val (Rust.items (.str (t! "Hello"))),
   .tok (.recordValueEnd none (.new (t! "field_2"))), .tok (.recordEnd {})]

/-- `MapStruct` of values that are streamed by hand -/
def mapItems (a b : List Item) : List Item :=
  Derive.structItems true {} (Derive.structMeta (t! "MapStruct") {})
    [{ ident := some (t! "field_0") }, { ident := some (t! "field_1") }] [a, b]
def seqItems (a b : List Item) : List Item :=
  Derive.structItems false {} (Derive.structMeta (t! "SeqStruct") {}) [{}, {}] [a, b]

def jsonItems (q : List Item) : Option Text := Json.toString env (prog q)

/-- `stream_exotic_record`, `json/test/lib.rs:580-663` -/
example : jsonItems unnamedRecord = some (t! "{\"field_0\":42,\"field_1\":true,\"field_2\":\"Hello\"}") ∧
    jsonItems (mapItems unnamedRecord unnamedRecord) = some (t! "{\"field_0\":{\"field_0\":42,\"field_1\":true,\"field_2\":\"Hello\"},\"field_1\":{\"field_0\":42,\"field_1\":true,\"field_2\":\"Hello\"}}") ∧
    assertValid (jsonItems (mapItems unnamedRecord unnamedRecord)) ∧
    assertValid (jsonItems (seqItems unnamedRecord unnamedRecord)) := by decide +kernel

def outer : Meta := { label := lab (t! "Outer") }
def inner : Meta := { label := lab (t! "Inner"), index := ix 1 }
def variant : Meta := { label := lab (t! "Variant"), index := ix 0 }

/-- A test of an enum in an enum. -/
def exotic (expected : Text) (ts : List Token) : Bool :=
  calls ts == some expected && assertValid (jsonItems (mapItems (ts.map .tok) (ts.map .tok))) &&
    assertValid (jsonItems (seqItems (ts.map .tok) (ts.map .tok)))

/-- `stream_exotic_nested_enum_tag`, `stream_exotic_nested_enum_empty`, `stream_exotic_nested_enum_record`,
`json/test/lib.rs:665-809` -/
example : exotic (t! "{\"Inner\":\"Variant\"}") [.enumBegin outer, .enumBegin inner, .tag variant, .enumEnd inner, .enumEnd outer] ∧
    exotic (t! "{\"Inner\":\"Inner\"}") [.enumBegin outer, .enumBegin inner, .enumEnd inner, .enumEnd outer] ∧
    exotic (t! "{\"Inner\":{\"Variant\":{\"a\":42}}}") [.enumBegin outer, .enumBegin inner, .recordBegin variant none,
      .recordValueBegin none (.new (t! "a")), .int .i32 42, .recordValueEnd none (.new (t! "a")), .recordEnd variant,
      .enumEnd inner, .enumEnd outer] := by decide +kernel

/-- `UntaggedEnum`, `json/test/lib.rs:814-817` -/
def untagged (x : RV) : List Item :=
  [.tok (.enumBegin {}), .tok (.taggedBegin {}), .val (Rust.items x), .tok (.taggedEnd {}), .tok (.enumEnd {})]

/-- `stream_exotic_unnamed_enum`, `stream_exotic_unnamed_nested_enum_record`, `json/test/lib.rs:811-895` -/
example : jsonItems (untagged (num 42)) = some (t! "42") ∧
    assertValid (jsonItems (mapItems (untagged (num 42)) (untagged (.bool true)))) ∧
    assertValid (jsonItems (seqItems (untagged (num 42)) (untagged (.bool true)))) ∧
    exotic (t! "{\"a\":42}") [.enumBegin {}, .enumBegin {}, .recordBegin {} none, .recordValueBegin none (.new (t! "a")),
      .int .i32 42, .recordValueEnd none (.new (t! "a")), .recordEnd {}, .enumEnd {}, .enumEnd {}] := by decide +kernel

/-- `json_slice_roundtrip`, `experiments/src/json.rs:17-30` -/
example : ∀ checks, (match json (.struct true (t! "MapStruct") {} [{ ident := some (t! "field_0") },
        { ident := some (t! "field_1") }, { ident := some (t! "field_2") }] [num 42, .bool true, .str (t! "abc")]) with
    | some t => decide (calls (Reader.read checks t).calls = some t)
    | none => false) = true := by decide +kernel

end Sval.JsonSuite
