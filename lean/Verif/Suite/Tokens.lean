import Verif.Derive.Attr
import Verif.Derive.Flatten
import Verif.Test.Model

set_option autoImplicit false

/-!
# Assertions of the tests of the project

What the modules that `suite/gen.py` writes use: tokens as the tests write them, `assert_tokens`, and values of the types
that tests define.
-/

namespace Sval.Suite

open Derive (Names Item' Def FV Streamer andThen flattenWith)
open Rust (RV)

/-! ## Tokens: `test/src/lib.rs:74-326` -/

def label (s : Text) : Label := { text := s }
def index (i : Int) : Index := .ofInt i
def indexTag (i : Int) (t : Tag) : Index := (Index.ofInt i).withTag t
def tag (s : Text) : Tag := { name := s }

namespace Tok
section
variable (t : Option Sval.Tag) (l : Option Label) (i : Option Index) (n : Option Nat) (k : Label) (j : Index)

def U8 (v : Int) : Token := .int .u8 v
def U16 (v : Int) : Token := .int .u16 v
def U32 (v : Int) : Token := .int .u32 v
def U64 (v : Int) : Token := .int .u64 v
def U128 (v : Int) : Token := .int .u128 v
def I8 (v : Int) : Token := .int .i8 v
def I16 (v : Int) : Token := .int .i16 v
def I32 (v : Int) : Token := .int .i32 v
def I64 (v : Int) : Token := .int .i64 v
def I128 (v : Int) : Token := .int .i128 v
def F32 (b : UInt32) : Token := .f32 b
def F64 (b : UInt64) : Token := .f64 b
def Bool (b : _root_.Bool) : Token := .bool b
def Null : Token := .null
def Tag : Token := .tag { tag := t, label := l, index := i }
def TextBegin : Token := .textBegin n
def TextFragment (s : Text) : Token := .textFragment s
def TextFragmentComputed (s : Text) : Token := .textFragmentComputed s
def TextEnd : Token := .textEnd
def BinaryBegin : Token := .binaryBegin n
def BinaryFragment (s : Bytes) : Token := .binaryFragment s
def BinaryEnd : Token := .binaryEnd
def MapBegin : Token := .mapBegin n
def MapKeyBegin : Token := .mapKeyBegin
def MapKeyEnd : Token := .mapKeyEnd
def MapValueBegin : Token := .mapValueBegin
def MapValueEnd : Token := .mapValueEnd
def MapEnd : Token := .mapEnd
def SeqBegin : Token := .seqBegin n
def SeqValueBegin : Token := .seqValueBegin
def SeqValueEnd : Token := .seqValueEnd
def SeqEnd : Token := .seqEnd
def EnumBegin : Token := .enumBegin { tag := t, label := l, index := i }
def EnumEnd : Token := .enumEnd { tag := t, label := l, index := i }
def TaggedBegin : Token := .taggedBegin { tag := t, label := l, index := i }
def TaggedEnd : Token := .taggedEnd { tag := t, label := l, index := i }
def RecordBegin : Token := .recordBegin { tag := t, label := l, index := i } n
def RecordValueBegin : Token := .recordValueBegin t k
def RecordValueEnd : Token := .recordValueEnd t k
def RecordEnd : Token := .recordEnd { tag := t, label := l, index := i }
def TupleBegin : Token := .tupleBegin { tag := t, label := l, index := i } n
def TupleValueBegin : Token := .tupleValueBegin t j
def TupleValueEnd : Token := .tupleValueEnd t j
def TupleEnd : Token := .tupleEnd { tag := t, label := l, index := i }
def RecordTupleBegin : Token := .recordTupleBegin { tag := t, label := l, index := i } n
def RecordTupleValueBegin : Token := .recordTupleValueBegin t k j
def RecordTupleValueEnd : Token := .recordTupleValueEnd t k j
def RecordTupleEnd : Token := .recordTupleEnd { tag := t, label := l, index := i }
end
end Tok

/-! ## Derived types -/

/-- The paths that the tests use. -/
def names : Names :=
  { isPath := fun _ => true,
    tag := fun p => if p = t! "sval::tags::NUMBER" then tags.NUMBER else tag p,
    label := fun p => label p,
    index := fun _ => index 0 }

/-- `#[sval(...)]` -/
def sval (items : List (Text × Option Derive.Expr)) : Derive.Attribute := { path := t! "sval", items }

/-- A value of a derived type: variant `i`, with these fields. -/
def rust (N : Names) (x : Item') (i : Nat) (vs : List RV) : RV :=
  match Derive.derive N true x, vs with
  | some (.unitStruct ident at'), _ => .unitStruct ident at'
  | some (.newtype ident at' transparent), [v] => .newtype ident at' transparent v
  | some (.struct named ident at' fs), vs => .struct named ident at' fs vs
  | some (.enum d), vs => .enum d i vs
  | _, _ => .str (t! "not a value")

/-- The same, where some fields are flattened. -/
def flat (N : Names) (x : Item') (i : Nat) (vs : List FV) : FV :=
  match Derive.derive N true x with
  | some (.struct named ident at' fs) => .struct named ident at' fs vs
  | some (.enum d) => .enum d i vs
  | _ => .plain (.str (t! "not a value"))

/-! ## Assertions -/

/-- What `ryu` writes for keys that are floats. -/
def ryu : UInt64 → Text := fun _ => t! "3.14"

/-- `assert_tokens` -/
def assertTokens (x : RV) (ts : List Token) : Bool := Test.assertTokens (Nested.prog (Rust.items x)) ts

/-- `assert_tokens`, of code that runs on any stream. -/
def asserts (x : Streamer) (ts : List Token) : Bool :=
  match x (List Token) (fun t s => .ok (Test.push t s).1) [] with
  | .done true s => Test.eqTokens ts s
  | _ => false

/-- `assert_tokens` -/
def assertFlat (x : FV) (ts : List Token) : Bool := asserts (Derive.stream true ryu x) ts

/-! ## The types that flatten a field -/

def streamed (x : RV) : Streamer := Derive.run (Rust.items x)
def calls (ts : List Token) : Streamer := Derive.run (ts.map .tok)

/-- `Label::new("Outer")` -/
def outerMeta : Meta := { label := some (label (t! "Outer")) }

/-- A field: `flatten/src/record_tuple.rs:88-99`, `flatten/src/tuple.rs:78-87`, `flatten/src/map.rs:383-390`,
`flatten/src/seq.rs:67-69` -/
def field (k : Flatten.Kind) (l : Text) (i : Int) (v : Int) : List Token :=
  match k with
  | .recordTuple => [.recordTupleValueBegin none (label l) (indexTag i tags.VALUE_OFFSET), .int .i32 v,
      .recordTupleValueEnd none (label l) (indexTag i tags.VALUE_OFFSET)]
  | .record => [.recordValueBegin none (label l), .int .i32 v, .recordValueEnd none (label l)]
  | .tuple => [.tupleValueBegin none (indexTag i tags.VALUE_OFFSET), .int .i32 v,
      .tupleValueEnd none (indexTag i tags.VALUE_OFFSET)]
  | .map => [.mapKeyBegin, .textBegin (some (utf8Len l)), .textFragment l, .textEnd, .mapKeyEnd, .mapValueBegin,
      .int .i32 v, .mapValueEnd]
  | .seq => [.seqValueBegin, .int .i32 v, .seqValueEnd]

def first : Flatten.Kind → Token
  | .recordTuple => .recordTupleBegin outerMeta none
  | .record => .recordBegin outerMeta none
  | .tuple => .tupleBegin outerMeta none
  | .map => .mapBegin none
  | .seq => .seqBegin none

def last : Flatten.Kind → Token
  | .recordTuple => .recordTupleEnd outerMeta
  | .record => .recordEnd outerMeta
  | .tuple => .tupleEnd outerMeta
  | .map => .mapEnd
  | .seq => .seqEnd

/-- `Outer { a: 1, i: x, d: 4 }`: `flatten/src/record_tuple.rs:82-119`, `flatten/src/tuple.rs:72-105`,
`flatten/src/map.rs:377-408`, `flatten/src/seq.rs:63-79` -/
def outer (k : Flatten.Kind) (x : Streamer) : Streamer := fun σ S s =>
  andThen (calls (first k :: field k (t! "a") 0 1) σ S s) id fun s =>
    andThen (flattenWith true ryu k S x (if k = .seq then 0 else 1) s) (·.1) fun r =>
      calls (field k (t! "d") r.2 4 ++ [last k]) σ S r.1

/-- `AllFlattened { a, b, c }`: `flatten/src/record_tuple.rs:127-142` -/
def all (k : Flatten.Kind) (x y z : Streamer) : Streamer := fun σ S s =>
  andThen (calls [first k] σ S s) id fun s =>
    andThen (flattenWith true ryu k S x 0 s) (·.1) fun r =>
      andThen (flattenWith true ryu k S y r.2 r.1) (·.1) fun r =>
        andThen (flattenWith true ryu k S z r.2 r.1) (·.1) fun r => calls [last k] σ S r.1

/-- `stream_tag_hints`: `test/src/lib.rs:1118-1143` -/
example : Test.assertTokens (Nested.prog [.tok (.tagHint (⟨t! "test"⟩)), .val (Rust.items (.int .i32 42)),
      .tok (.tagHint (⟨t! "test"⟩))])
    [.tagHint (⟨t! "test"⟩), .int .i32 42, .tagHint (⟨t! "test"⟩)] = true := by decide +kernel

end Sval.Suite
