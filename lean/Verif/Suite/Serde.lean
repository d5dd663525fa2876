import Verif.Serde.Spec
import Verif.Suite.Tokens

set_option autoImplicit false

/-!
# The tests of `sval_serde`, on the model

Written by hand from `serde/test/lib.rs`. These are tests of the model, not proofs: each is an assertion of the project,
on the model of the code that it tests. The assertion on `dyn Value` is left out.
-/

namespace Sval.SerdeSuite

open Suite (label index names rust)
open Suite.Tok
open Rust (RV)
open Serde (SV SCall)

/-- `serde_test::Token` -/
inductive ST where
  | unit
  | none
  | some_
  | bool (b : _root_.Bool)
  | i32 (v : Int)
  | int (t : IntTy) (v : Int)
  | str (s : Text)
  | unitVariant (name variant : Text)
  | newtypeStruct (name : Text)
  | newtypeVariant (name variant : Text)
  | seq (n : Option Nat)
  | seqEnd
  | tuple (n : Nat)
  | tupleEnd
  | tupleStruct (name : Text) (n : Nat)
  | tupleStructEnd
  | tupleVariant (name variant : Text) (n : Nat)
  | tupleVariantEnd
  | map (n : Option Nat)
  | mapEnd
  | struct (name : Text) (n : Nat)
  | structEnd
  | structVariant (name variant : Text) (n : Nat)
  | structVariantEnd
deriving DecidableEq

/-- The serializer of `serde_test`, as far as the tests go; it is not part of the project. -/
def record : SCall Unit (List ST) → List ST → Res Unit (List ST)
  | .unit, s => .ok (s ++ [.unit])
  | .none, s => .ok (s ++ [.none])
  | .some a, s => a (s ++ [.some_])
  | .bool b, s => .ok (s ++ [.bool b])
  | .int .i32 v, s => .ok (s ++ [.i32 v])
  | .int t v, s => .ok (s ++ [.int t v])
  | .str v, s => .ok (s ++ [.str v])
  | .collectStr vs, s => .ok (s ++ [.str vs.flatten])
  | .unitVariant name _ variant, s => .ok (s ++ [.unitVariant name variant])
  | .newtypeStruct name a, s => a (s ++ [.newtypeStruct name])
  | .newtypeVariant name _ variant a, s => a (s ++ [.newtypeVariant name variant])
  | .seq n, s => .ok (s ++ [.seq n])
  | .seqElement a, s => a s
  | .seqEnd, s => .ok (s ++ [.seqEnd])
  | .tuple n, s => .ok (s ++ [.tuple n])
  | .tupleElement a, s => a s
  | .tupleEnd, s => .ok (s ++ [.tupleEnd])
  | .tupleStruct name n, s => .ok (s ++ [.tupleStruct name n])
  | .tupleStructField a, s => a s
  | .tupleStructEnd, s => .ok (s ++ [.tupleStructEnd])
  | .tupleVariant name _ variant n, s => .ok (s ++ [.tupleVariant name variant n])
  | .tupleVariantField a, s => a s
  | .tupleVariantEnd, s => .ok (s ++ [.tupleVariantEnd])
  | .map n, s => .ok (s ++ [.map n])
  | .mapKey a, s => a s
  | .mapValue a, s => a s
  | .mapEnd, s => .ok (s ++ [.mapEnd])
  | .struct name n, s => .ok (s ++ [.struct name n])
  | .structField key a, s => a (s ++ [.str key])
  | .structEnd, s => .ok (s ++ [.structEnd])
  | .structVariant name _ variant n, s => .ok (s ++ [.structVariant name variant n])
  | .structVariantField key a, s => a (s ++ [.str key])
  | .structVariantEnd, s => .ok (s ++ [.structVariantEnd])
  | _, _ => .err () []

def recorded : Res Unit (List ST) → List ST → Bool
  | .ok s, ts => s = ts
  | _, _ => false

/-- A value that is being serialized: the containers that are open with what they have so far, and the results. -/
structure Build where
  opened : List ((List (Text × SV) → SV) × List (Text × SV)) := []
  out : List SV := []

def Build.done (b : Build) (v : SV) : Res Unit Build := .ok { b with out := b.out ++ [v] }
def Build.begin (b : Build) (f : List (Text × SV) → SV) : Res Unit Build := .ok { b with opened := (f, []) :: b.opened }
def Build.with (b : Build) (a : Build → Res Unit Build) (k : SV → Res Unit Build) : Res Unit Build :=
  match a {} with
  | .ok { out := [v], .. } => k v
  | _ => .err () b
def Build.add (b : Build) (key : Text) (a : Build → Res Unit Build) : Res Unit Build :=
  b.with a fun v =>
    match b.opened with
    | (f, xs) :: r => .ok { b with opened := (f, xs ++ [(key, v)]) :: r }
    | [] => .err () b
def Build.end (b : Build) : Res Unit Build :=
  match b.opened with
  | (f, xs) :: r => .ok { opened := r, out := b.out ++ [f xs] }
  | [] => .err () b

/-- Keys and values by turns. -/
def pairs : List (Text × SV) → List (SV × SV)
  | (_, k) :: (_, v) :: r => (k, v) :: pairs r
  | _ => []

/-- A serializer that rebuilds the value. -/
def build : SCall Unit Build → Build → Res Unit Build
  | .unit, b => b.done .unit
  | .none, b => b.done .none
  | .some a, b => b.with a fun v => b.done (.some v)
  | .bool x, b => b.done (.bool x)
  | .int t v, b => b.done (.int t v)
  | .str v, b => b.done (.str v)
  | .collectStr v, b => b.done (.collectStr v)
  | .unitVariant name i variant, b => b.done (.unitVariant name i variant)
  | .newtypeStruct name a, b => b.with a fun v => b.done (.newtypeStruct name v)
  | .newtypeVariant name i variant a, b => b.with a fun v => b.done (.newtypeVariant name i variant v)
  | .seq n, b => b.begin fun xs => .seq n (xs.map (·.2))
  | .seqElement a, b => b.add [] a
  | .seqEnd, b => b.end
  | .tuple n, b => b.begin fun xs => .tuple n (xs.map (·.2))
  | .tupleElement a, b => b.add [] a
  | .tupleEnd, b => b.end
  | .tupleStruct name n, b => b.begin fun xs => .tupleStruct name n (xs.map (·.2))
  | .tupleStructField a, b => b.add [] a
  | .tupleStructEnd, b => b.end
  | .tupleVariant name i variant n, b => b.begin fun xs => .tupleVariant name i variant n (xs.map (·.2))
  | .tupleVariantField a, b => b.add [] a
  | .tupleVariantEnd, b => b.end
  | .map n, b => b.begin fun xs => .map n (pairs xs)
  | .mapKey a, b => b.add [] a
  | .mapValue a, b => b.add [] a
  | .mapEnd, b => b.end
  | .struct name n, b => b.begin fun xs => .struct name n xs
  | .structField key a, b => b.add key a
  | .structEnd, b => b.end
  | .structVariant name i variant n, b => b.begin fun xs => .structVariant name i variant n xs
  | .structVariantField key a, b => b.add key a
  | .structVariantEnd, b => b.end
  | _, b => .err () b

/-- `assert_ser_tokens(&ToSerialize::new(..), serde)` -/
def assertSer (p : Prog) (serde : List ST) : Bool := recorded (Serde.serialize () record 5 p []) serde

/-- `assert_tokens(&ToValue::new(..), sval)` -/
def assertTokens (v : SV) (sval : List Token) : Bool := Test.assertTokens (Nested.prog (Serde.toValue v)) sval

/-- `ToValue::new(ToSerialize::new(&v))` -/
def assertBoth (x : RV) (sval : List Token) : Bool :=
  match Serde.serialize () build 5 (Nested.prog (Rust.items x)) {} with
  | .ok { out := [v], opened := [] } => assertTokens v sval
  | _ => false

/-- `test_case`: `serde/test/lib.rs:49-75`; `x` is the value as its `Value` impl streams it, `v` as its `Serialize` impl
serializes it. -/
def testCase (x : RV) (v : SV) (serde : List ST) (sval : List Token) : Bool :=
  assertSer (Nested.prog (Rust.items x)) serde &&
  (match Buf.collect true false (Nested.prog (Rust.items x)) with
    | .ok s => assertSer (Nested.prog (Nested.regroup (Buf.replay s.parts).toks)) serde
    | _ => false) &&
  recorded (Serde.ser record v []) serde &&
  assertTokens v sval &&
  assertSer (Nested.prog (Serde.toValue v)) serde &&
  assertBoth x sval

/-! ## Values -/

def fields : List RV := [.int .i32 1, .bool true, .boxed (.str (t! "a"))]
def unnamed : List SV := [.int .i32 1, .bool true, .str (t! "a")]
def named : List (Text × SV) :=
  [(t! "field_0", .int .i32 1), (t! "field_1", .bool true), (t! "field_2", .str (t! "a"))]
def names3 : Derive.Fields := .named [(t! "field_0", []), (t! "field_1", []), (t! "field_2", [])]

/-- `MapStruct`: `serde/test/lib.rs:18-23` -/
def mapStruct : Nat → List RV → RV := rust names { ident := t! "MapStruct", attrs := [], data := .struct names3 }
/-- `EmptyMapStruct`: `serde/test/lib.rs:25-26` -/
def emptyMapStruct : RV := rust names { ident := t! "EmptyMapStruct", attrs := [], data := .struct (.named []) } 0 []
/-- `SeqStruct`: `serde/test/lib.rs:28-29` -/
def seqStruct : Nat → List RV → RV :=
  rust names { ident := t! "SeqStruct", attrs := [], data := .struct (.unnamed [[], [], []]) }
/-- `EmptySeqStruct`: `serde/test/lib.rs:31-32` -/
def emptySeqStruct : RV := rust names { ident := t! "EmptySeqStruct", attrs := [], data := .struct (.unnamed []) } 0 []
/-- `Tagged`: `serde/test/lib.rs:34-35` -/
def tagged : Nat → List RV → RV := rust names { ident := t! "Tagged", attrs := [], data := .struct (.unnamed [[]]) }
/-- `Enum`: `serde/test/lib.rs:37-47` -/
def enum : Nat → List RV → RV :=
  rust names
    { ident := t! "Enum", attrs := [],
      data := .enum
        [{ ident := t! "Constant", attrs := [], discr := none, fields := .unit },
         { ident := t! "Tagged", attrs := [], discr := none, fields := .unnamed [[]] },
         { ident := t! "MapStruct", attrs := [], discr := none, fields := names3 },
         { ident := t! "SeqStruct", attrs := [], discr := none, fields := .unnamed [[], [], []] }] }

/-! ## Tests -/

/-- `unit_to_serialize`: `serde/test/lib.rs:77-92` -/
example : testCase .unit .unit
    [.unit]
    [Suite.Tok.Tag (some tags.RUST_UNIT) none none] = true := by decide +kernel

/-- `option_some_to_serialize`: `serde/test/lib.rs:94-121` -/
example : testCase (.some (.int .i32 1)) (.some (.int .i32 1))
    [.some_, .i32 1]
    [TaggedBegin (some tags.RUST_OPTION_SOME) (some (label (t! "Some"))) (some (index 1)), I32 1,
     TaggedEnd (some tags.RUST_OPTION_SOME) (some (label (t! "Some"))) (some (index 1))] = true := by decide +kernel

/-- `option_none_to_serialize`: `serde/test/lib.rs:123-142` -/
example : testCase .none .none
    [.none]
    [Suite.Tok.Tag (some tags.RUST_OPTION_NONE) (some (label (t! "None"))) (some (index 0))] = true := by decide +kernel

/-- `map_to_serialize`: `serde/test/lib.rs:164-214` -/
example : testCase (.map [.boxed (.str (t! "a")), .boxed (.str (t! "b"))] [.int .i32 1, .int .i32 2]) (.map (some 2) [(.str (t! "a"), .int .i32 1), (.str (t! "b"), .int .i32 2)])
    [.map (some 2), .str (t! "a"), .i32 1, .str (t! "b"), .i32 2, .mapEnd]
    [MapBegin (some 2), MapKeyBegin, TextBegin (some 1), TextFragmentComputed (t! "a"), TextEnd, MapKeyEnd,
     MapValueBegin, I32 1, MapValueEnd, MapKeyBegin, TextBegin (some 1), TextFragmentComputed (t! "b"), TextEnd,
     MapKeyEnd, MapValueBegin, I32 2, MapValueEnd, MapEnd] = true := by decide +kernel

/-- `seq_to_serialize`: `serde/test/lib.rs:216-254` -/
example : testCase (.boxed (.slice [.int .i32 1, .int .i32 2])) (.seq (some 2) [.int .i32 1, .int .i32 2])
    [.seq (some 2), .i32 1, .i32 2, .seqEnd]
    [SeqBegin (some 2), SeqValueBegin, I32 1, SeqValueEnd, SeqValueBegin, I32 2, SeqValueEnd, SeqEnd] = true := by decide +kernel

/-- `map_struct_to_serialize`: `serde/test/lib.rs:256-301` -/
example : testCase (mapStruct 0 fields) (.struct (t! "MapStruct") 3 named)
    [.struct (t! "MapStruct") 3, .str (t! "field_0"), .i32 1, .str (t! "field_1"), .bool true, .str (t! "field_2"),
     .str (t! "a"), .structEnd]
    [RecordBegin none (some (label (t! "MapStruct"))) none (some 3), RecordValueBegin none (label (t! "field_0")),
     I32 1, RecordValueEnd none (label (t! "field_0")), RecordValueBegin none (label (t! "field_1")), Suite.Tok.Bool true,
     RecordValueEnd none (label (t! "field_1")), RecordValueBegin none (label (t! "field_2")), TextBegin (some 1),
     TextFragmentComputed (t! "a"), TextEnd, RecordValueEnd none (label (t! "field_2")),
     RecordEnd none (some (label (t! "MapStruct"))) none] = true := by decide +kernel

/-- `empty_map_struct_to_serialize`: `serde/test/lib.rs:303-332` -/
example : testCase emptyMapStruct (.struct (t! "EmptyMapStruct") 0 [])
    [.struct (t! "EmptyMapStruct") 0, .structEnd]
    [RecordBegin none (some (label (t! "EmptyMapStruct"))) none (some 0),
     RecordEnd none (some (label (t! "EmptyMapStruct"))) none] = true := by decide +kernel

/-- `seq_struct_named_to_serialize`: `serde/test/lib.rs:334-372` -/
example : testCase (seqStruct 0 fields) (.tupleStruct (t! "SeqStruct") 3 unnamed)
    [.tupleStruct (t! "SeqStruct") 3, .i32 1, .bool true, .str (t! "a"), .tupleStructEnd]
    [TupleBegin none (some (label (t! "SeqStruct"))) none (some 3), TupleValueBegin none (index 0), I32 1,
     TupleValueEnd none (index 0), TupleValueBegin none (index 1), Suite.Tok.Bool true, TupleValueEnd none (index 1),
     TupleValueBegin none (index 2), TextBegin (some 1), TextFragmentComputed (t! "a"), TextEnd,
     TupleValueEnd none (index 2), TupleEnd none (some (label (t! "SeqStruct"))) none] = true := by decide +kernel

/-- `empty_seq_struct_named_to_serialize`: `serde/test/lib.rs:374-403` -/
example : testCase emptySeqStruct (.tupleStruct (t! "EmptySeqStruct") 0 [])
    [.tupleStruct (t! "EmptySeqStruct") 0, .tupleStructEnd]
    [TupleBegin none (some (label (t! "EmptySeqStruct"))) none (some 0),
     TupleEnd none (some (label (t! "EmptySeqStruct"))) none] = true := by decide +kernel

/-- `seq_struct_unnamed_to_serialize`: `serde/test/lib.rs:405-434` -/
example : testCase (.tuple fields) (.tuple 3 unnamed)
    [.tuple 3, .i32 1, .bool true, .str (t! "a"), .tupleEnd]
    [TupleBegin none none none (some 3), TupleValueBegin none (index 0), I32 1, TupleValueEnd none (index 0),
     TupleValueBegin none (index 1), Suite.Tok.Bool true, TupleValueEnd none (index 1), TupleValueBegin none (index 2),
     TextBegin (some 1), TextFragmentComputed (t! "a"), TextEnd, TupleValueEnd none (index 2),
     TupleEnd none none none] = true := by decide +kernel

/-- `tagged_struct_to_serialize`: `serde/test/lib.rs:436-455` -/
example : testCase (tagged 0 [.int .i32 1]) (.newtypeStruct (t! "Tagged") (.int .i32 1))
    [.newtypeStruct (t! "Tagged"), .i32 1]
    [TaggedBegin none (some (label (t! "Tagged"))) none, I32 1, TaggedEnd none (some (label (t! "Tagged"))) none] = true := by decide +kernel

/-- `enum_tag_to_serialize`: `serde/test/lib.rs:457-483` -/
example : testCase (enum 0 []) (.unitVariant (t! "Enum") 0 (t! "Constant"))
    [.unitVariant (t! "Enum") (t! "Constant")]
    [EnumBegin none (some (label (t! "Enum"))) none, Suite.Tok.Tag none (some (label (t! "Constant"))) (some (index 0)),
     EnumEnd none (some (label (t! "Enum"))) none] = true := by decide +kernel

/-- `enum_tagged_to_serialize`: `serde/test/lib.rs:485-520` -/
example : testCase (enum 1 [.int .i32 1]) (.newtypeVariant (t! "Enum") 1 (t! "Tagged") (.int .i32 1))
    [.newtypeVariant (t! "Enum") (t! "Tagged"), .i32 1]
    [EnumBegin none (some (label (t! "Enum"))) none, TaggedBegin none (some (label (t! "Tagged"))) (some (index 1)),
     I32 1, TaggedEnd none (some (label (t! "Tagged"))) (some (index 1)),
     EnumEnd none (some (label (t! "Enum"))) none] = true := by decide +kernel

/-- `enum_record_to_serialize`: `serde/test/lib.rs:522-579` -/
example : testCase (enum 2 fields) (.structVariant (t! "Enum") 2 (t! "MapStruct") 3 named)
    [.structVariant (t! "Enum") (t! "MapStruct") 3, .str (t! "field_0"), .i32 1, .str (t! "field_1"), .bool true,
     .str (t! "field_2"), .str (t! "a"), .structVariantEnd]
    [EnumBegin none (some (label (t! "Enum"))) none,
     RecordBegin none (some (label (t! "MapStruct"))) (some (index 2)) (some 3),
     RecordValueBegin none (label (t! "field_0")), I32 1, RecordValueEnd none (label (t! "field_0")),
     RecordValueBegin none (label (t! "field_1")), Suite.Tok.Bool true, RecordValueEnd none (label (t! "field_1")),
     RecordValueBegin none (label (t! "field_2")), TextBegin (some 1), TextFragmentComputed (t! "a"), TextEnd,
     RecordValueEnd none (label (t! "field_2")), RecordEnd none (some (label (t! "MapStruct"))) (some (index 2)),
     EnumEnd none (some (label (t! "Enum"))) none] = true := by decide +kernel

/-- `enum_tuple_to_serialize`: `serde/test/lib.rs:581-631` -/
example : testCase (enum 3 fields) (.tupleVariant (t! "Enum") 3 (t! "SeqStruct") 3 unnamed)
    [.tupleVariant (t! "Enum") (t! "SeqStruct") 3, .i32 1, .bool true, .str (t! "a"), .tupleVariantEnd]
    [EnumBegin none (some (label (t! "Enum"))) none,
     TupleBegin none (some (label (t! "SeqStruct"))) (some (index 3)) (some 3), TupleValueBegin none (index 0),
     I32 1, TupleValueEnd none (index 0), TupleValueBegin none (index 1), Suite.Tok.Bool true,
     TupleValueEnd none (index 1), TupleValueBegin none (index 2), TextBegin (some 1), TextFragmentComputed (t! "a"),
     TextEnd, TupleValueEnd none (index 2), TupleEnd none (some (label (t! "SeqStruct"))) (some (index 3)),
     EnumEnd none (some (label (t! "Enum"))) none] = true := by decide +kernel

/-- `u128_to_serialize`: `serde/test/lib.rs:144-162` -/
example : assertTokens (.int .u128 42) [U128 42] ∧ assertBoth (.int .u128 42) [U128 42] := by decide +kernel

/-- `text_fragments`: `serde/test/lib.rs:637-664` -/
example : assertSer
    (Nested.prog [.tok (.textBegin none), .tok (.textFragment (t! "a")), .tok (.textFragment (t! "bcd")),
      .tok (.textFragment (t! "e")), .tok .textEnd])
    [.str (t! "abcde")] = true := by decide +kernel

end Sval.SerdeSuite
