import Verif.Nested.Model
import Verif.Suite.Tokens

set_option autoImplicit false

/-!
# The tests of `sval_nested`, on the model

Written by hand from `nested/src/lib.rs`. These are tests of the model, not proofs: each is an assertion of the project,
on the model of the code that it tests. The tests build trees with a stream of their own; here trees are written as the
calls that describe them.
-/

namespace Sval.NestedSuite

open Suite (label index names rust)
open Nested (Cb Arg)
open Rust (RV)

/-- A text, and bytes, as one piece. -/
def text (borrowed : Bool) (s : Text) : List Token :=
  [.textBegin none, if borrowed then .textFragment s else .textFragmentComputed s, .textEnd]
def binary (borrowed : Bool) (s : Bytes) : List Token :=
  [.binaryBegin none, if borrowed then .binaryFragment s else .binaryFragmentComputed s, .binaryEnd]

/-- Without tags of labels and indexes, and without lengths, which the tests do not look at. -/
def tag (m : Meta) : Meta :=
  { tag := m.tag, label := m.label.map fun l => { text := l.text }, index := m.index.map fun i => { val := i.val } }

/-- Does the stream of the tests implement the method? Other numbers go to the defaults, `nested/src/lib.rs:969-1050`. -/
def scalar : Token → Option (List Token)
  | .null => some [.null]
  | .bool b => some [.bool b]
  | .f64 b => some [.f64 b]
  | .int t v => if t = .i64 ∨ t = .i32 then some [.int .i64 v] else none
  | _ => none

/-- `ToValue` and what it makes: `nested/src/lib.rs:2015-2465`; it writes down the tree that it makes. `n` bounds how
deep values are. -/
def toValue : Nat → Cb → List Token → Res Unit (List Token)
  | 0, _, _ => .panic
  | n + 1, c, s =>
    let into (a : Arg) (s : List Token) : Res Unit (List Token) :=
      match Nested.stream (toValue n) (!a.borrowed) a.prog s with
      | .done true s => .ok s
      | .done false s => .err () s
      | .panicked => .panic
    match c with
    | .scalar t =>
      match scalar t with
      | some ts => .ok (s ++ ts)
      | none => .err () s
    | .text b v => .ok (s ++ text b v)
    | .binary b v => .ok (s ++ binary b v)
    | .tag m => .ok (s ++ [.tag (tag m)])
    | .value a => into a s
    | .tagged m a => into a (s ++ [.taggedBegin (tag m)])
    | .seqBegin _ => .ok (s ++ [.seqBegin none])
    | .seqValue a => into a s
    | .seqEnd => .ok (s ++ [.seqEnd])
    | .mapBegin _ => .ok (s ++ [.mapBegin none])
    | .mapKey a => into a s
    | .mapValue a => into a s
    | .mapEnd => .ok (s ++ [.mapEnd])
    | .tupleBegin m _ => .ok (s ++ [.tupleBegin (tag m) none])
    | .tupleValue _ i a => into a (s ++ [.tupleValueBegin none { val := i.val }])
    | .tupleEnd => .ok (s ++ [.tupleEnd {}])
    | .recordBegin m _ => .ok (s ++ [.recordBegin (tag m) none])
    | .recordValue _ l a => into a (s ++ [.recordValueBegin none { text := l.text }])
    | .recordEnd => .ok (s ++ [.recordEnd {}])
    | .enumBegin m => .ok (s ++ [.enumBegin (tag m)])
    | .variantTag m => .ok (s ++ [.tag (tag m)])
    | .variantTagged m a => into a (s ++ [.taggedBegin (tag m)])
    | .variantTupleBegin m _ => .ok (s ++ [.tupleBegin (tag m) none])
    | .variantRecordBegin m _ => .ok (s ++ [.recordBegin (tag m) none])
    | .nestedBegin m => .ok (s ++ [.enumBegin (tag m)])
    | .nestedEnd m => .ok (s ++ [.enumEnd (tag m)])

/-- `assert_eq!(.., ToValue::default().value_ref(&x).unwrap())` -/
def asserts (p : Prog) (ts : List Token) : Bool :=
  match Nested.stream (toValue 5) false p [] with
  | .done true s => s = ts
  | _ => false
def assertValue (x : RV) (ts : List Token) : Bool := asserts (Nested.prog (Rust.items x)) ts
def assertCalls (cs : List Token) (ts : List Token) : Bool := asserts (Nested.prog (cs.map .tok)) ts

def named (s : Text) : Meta := { label := some (label s) }
def namedAt (s : Text) (i : Nat) : Meta := { label := some (label s), index := some (index i) }
def key (s : Text) : Token := .recordValueBegin none (label s)
def pos (i : Nat) : Token := .tupleValueBegin none (index i)

/-- `stream_derive`: `nested/src/lib.rs:1314-1397` -/
example : assertValue
    (rust names { ident := t! "DeriveRecord", attrs := [], data := .struct (.named [(t! "a", []), (t! "b", [])]) } 0
      [.int .i32 1,
       rust names { ident := t! "DeriveTuple", attrs := [], data := .struct (.unnamed [[], []]) } 0
         [.int .i32 2,
          rust names
            { ident := t! "DeriveEnum", attrs := [],
              data := .enum [{ ident := t! "Record", attrs := [], discr := none,
                               fields := .named [(t! "a", []), (t! "b", [])] }] } 0
            [.int .i32 3,
             rust names { ident := t! "DeriveTagged", attrs := [], data := .struct (.unnamed [[]]) } 0 [.bool true]]]])
    [.recordBegin (named (t! "DeriveRecord")) none, key (t! "a"), .int .i64 1, key (t! "b"),
     .tupleBegin (named (t! "DeriveTuple")) none, pos 0, .int .i64 2, pos 1, .enumBegin (named (t! "DeriveEnum")),
     .recordBegin (namedAt (t! "Record") 0) none, key (t! "a"), .int .i64 3, key (t! "b"),
     .taggedBegin (named (t! "DeriveTagged")), .bool true, .recordEnd {}, .tupleEnd {}, .recordEnd {}] = true := by
  decide +kernel

/-- `stream_primitive`: `nested/src/lib.rs:1399-1417` -/
example : assertValue .null [.null] ∧ assertValue (.int .i64 42) [.int .i64 42] ∧
    assertValue (.f64 4631118669584007987) [.f64 4631118669584007987] ∧ assertValue (.bool true) [.bool true] := by
  decide +kernel

/-- `stream_option`: `nested/src/lib.rs:1419-1459` -/
example : assertValue .none [.tag { namedAt (t! "None") 0 with tag := some tags.RUST_OPTION_NONE }] ∧
    assertValue
      (.some (rust names { ident := t! "Inner", attrs := [], data := .struct (.named [(t! "a", []), (t! "b", [])]) } 0
        [.int .i32 42, .bool true]))
      [.taggedBegin { namedAt (t! "Some") 1 with tag := some tags.RUST_OPTION_SOME },
       .recordBegin (named (t! "Inner")) none, key (t! "a"), .int .i64 42, key (t! "b"), .bool true, .recordEnd {}] := by
  decide +kernel

/-- `stream_text_borrowed`: `nested/src/lib.rs:1461-1467` -/
example : assertValue (.str (t! "borrowed")) (text true (t! "borrowed")) = true := by decide +kernel

/-- `stream_binary_borrowed`: `nested/src/lib.rs:1469-1477` -/
example : assertValue (.bytes (utf8 (t! "borrowed"))) (binary true (utf8 (t! "borrowed"))) = true := by decide +kernel

/-- `stream_array`: `nested/src/lib.rs:1479-1490` -/
example : assertValue (.array [.int .i32 1, .int .i32 2, .int .i32 3])
    [.taggedBegin { tag := some tags.CONSTANT_SIZE }, .seqBegin none, .int .i64 1, .int .i64 2, .int .i64 3, .seqEnd] =
      true := by decide +kernel

/-- `stream_seq`: `nested/src/lib.rs:1492-1500` -/
example : assertValue (.slice [.int .i32 1, .int .i32 2, .int .i32 3])
    [.seqBegin none, .int .i64 1, .int .i64 2, .int .i64 3, .seqEnd] = true := by decide +kernel

/-- `stream_map`: `nested/src/lib.rs:1502-1516` -/
example : assertValue
    (.map [.boxed (.str (t! "a")), .boxed (.str (t! "b")), .boxed (.str (t! "c"))]
      [.int .i32 1, .int .i32 2, .int .i32 3])
    ([.mapBegin none] ++ text true (t! "a") ++ [.int .i64 1] ++ text true (t! "b") ++ [.int .i64 2] ++
      text true (t! "c") ++ [.int .i64 3, .mapEnd]) = true := by decide +kernel

/-- The body of the tuples and records below. -/
def tuple (m : Meta) : List Token :=
  [.tupleBegin m none, .tupleValueBegin none (index 0), .int .i64 1, .tupleValueEnd none (index 0),
   .tupleValueBegin none (index 1), .bool true, .tupleValueEnd none (index 1), .tupleEnd m]
def record (m : Meta) : List Token :=
  [.recordBegin m none, .recordValueBegin none (label (t! "a")), .int .i64 1, .recordValueEnd none (label (t! "a")),
   .recordValueBegin none (label (t! "b")), .bool true, .recordValueEnd none (label (t! "b")), .recordEnd m]

/-- `stream_tuple`: `nested/src/lib.rs:1518-1560` -/
example : assertCalls (tuple (named (t! "Tuple")))
    [.tupleBegin (named (t! "Tuple")) none, pos 0, .int .i64 1, pos 1, .bool true, .tupleEnd {}] = true := by
  decide +kernel

/-- `stream_enum_tuple_variant`: `nested/src/lib.rs:1562-1620` -/
example : assertCalls ([.enumBegin (named (t! "Enum"))] ++ tuple (namedAt (t! "Tuple") 0) ++ [.enumEnd (named (t! "Enum"))])
    [.enumBegin (named (t! "Enum")), .tupleBegin (namedAt (t! "Tuple") 0) none, pos 0, .int .i64 1, pos 1, .bool true,
     .tupleEnd {}] = true := by decide +kernel

/-- `stream_record`: `nested/src/lib.rs:1622-1664` -/
example : assertCalls (record (named (t! "Record")))
    [.recordBegin (named (t! "Record")) none, key (t! "a"), .int .i64 1, key (t! "b"), .bool true, .recordEnd {}] =
      true := by decide +kernel

/-- `stream_enum_record_variant`: `nested/src/lib.rs:1666-1724` -/
example : assertCalls
    ([.enumBegin (named (t! "Enum"))] ++ record (namedAt (t! "Record") 0) ++ [.enumEnd (named (t! "Enum"))])
    [.enumBegin (named (t! "Enum")), .recordBegin (namedAt (t! "Record") 0) none, key (t! "a"), .int .i64 1, key (t! "b"),
     .bool true, .recordEnd {}] = true := by decide +kernel

/-- `stream_text_owned`: `nested/src/lib.rs:1726-1753` -/
example : assertCalls [.textBegin none, .textFragment (t! "ow"), .textFragment (t! "ned"), .textEnd]
    (text false (t! "owned")) = true := by decide +kernel

/-- `stream_binary_owned`: `nested/src/lib.rs:1755-1782` -/
example : assertCalls
    [.binaryBegin none, .binaryFragment (utf8 (t! "ow")), .binaryFragment (utf8 (t! "ned")), .binaryEnd]
    (binary false (utf8 (t! "owned"))) = true := by decide +kernel

/-- `stream_number`: `nested/src/lib.rs:1784-1805` -/
example : assertValue (.number [t! "42"]) ([.taggedBegin { tag := some tags.NUMBER }] ++ text false (t! "42")) = true := by
  decide +kernel

/-- `stream_enum_nested_value`: `nested/src/lib.rs:1807-1851` -/
example : asserts
    (Nested.prog [.tok (.enumBegin (named (t! "Layer1"))),
      .val [.tok (.enumBegin (named (t! "Layer2"))), .tok (.taggedBegin (named (t! "Value"))), .tok (.int .i64 42),
        .tok (.taggedEnd (named (t! "Value"))), .tok (.enumEnd (named (t! "Layer2")))],
      .tok (.enumEnd (named (t! "Layer1")))])
    [.enumBegin (named (t! "Layer1")), .enumBegin (named (t! "Layer2")), .taggedBegin (named (t! "Value")), .int .i64 42,
     .enumEnd (named (t! "Layer2"))] = true := by decide +kernel

/-- `Layer1` to `Layer7` -/
def layers : List Meta := [t! "Layer1", t! "Layer2", t! "Layer3", t! "Layer4", t! "Layer5", t! "Layer6", t! "Layer7"].map named

/-- `stream_deeply_nested_enum`: `nested/src/lib.rs:1853-1919` -/
example : assertCalls
    (layers.map .enumBegin ++ [.taggedBegin (named (t! "Value")), .int .i64 42, .taggedEnd (named (t! "Value"))] ++
      layers.reverse.map .enumEnd)
    (layers.map .enumBegin ++ [.taggedBegin (named (t! "Value")), .int .i64 42] ++ layers.tail.reverse.map .enumEnd) =
      true := by decide +kernel

end Sval.NestedSuite
