import Verif.Buffer.ArrayVecUnwind
import Verif.Buffer.AsValue
import Verif.Buffer.Collect
import Verif.Buffer.Display
import Verif.Suite.Tokens

set_option autoImplicit false

/-!
# The tests of `sval_buffer`, on the model

Written by hand from `buffer/src/value.rs` and `buffer/src/fragments.rs`. These are tests of the model, not proofs: each
is an assertion of the project, on the model of the code that it tests. Tests that need no allocator are run with and
without one.
-/

namespace Sval.BufferSuite

open Suite (label index tag names)
open Derive (Item')
open Rust (RV)

/-- A label or an index as `==` sees it: `src/data.rs:174-179`, `src/data.rs:514-519`. -/
def eqLabel (l : Label) : Label := { text := l.text }
def eqIndex (i : Index) : Index := { val := i.val }
def eqMeta (m : Meta) : Meta := { m with label := m.label.map eqLabel, index := m.index.map eqIndex }

/-- A part as the derived `==` of `ValuePart` sees it, `buffer/src/value.rs:825-828`: two `Cow`s are equal when their
contents are. -/
def eqPart : Buf.Part → Buf.Part
  | .text c => .text (.owned c.content)
  | .binary c => .binary (.owned c.content)
  | .tag m => .tag (eqMeta m)
  | .opened (.enum m) n => .opened (.enum (eqMeta m)) n
  | .opened (.tagged m) n => .opened (.tagged (eqMeta m)) n
  | .opened (.record m k) n => .opened (.record (eqMeta m) k) n
  | .opened (.recordValue t l) n => .opened (.recordValue t (eqLabel l)) n
  | .opened (.tuple m k) n => .opened (.tuple (eqMeta m) k) n
  | .opened (.tupleValue t i) n => .opened (.tupleValue t (eqIndex i)) n
  | .opened (.recordTuple m k) n => .opened (.recordTuple (eqMeta m) k) n
  | .opened (.recordTupleValue t l i) n => .opened (.recordTupleValue t (eqLabel l) (eqIndex i)) n
  | p => p

/-- Calls on a buffer, each unwrapped. -/
def calls (alloc : Bool) (s : Buf.St) : List Token → Option Buf.St
  | [] => some s
  | t :: ts =>
    match Buf.step alloc t s with
    | .ok s => calls alloc s ts
    | _ => none

/-- `assert_eq!(expected, &*value.parts)` after these calls. -/
def holds (alloc : Bool) (ts : List Token) (parts : List Buf.Part) : Bool :=
  (calls alloc {} ts).map (·.parts.map eqPart) = some (parts.map eqPart)

/-- `ValueBuf::collect(&x).unwrap()` -/
def collect (alloc : Bool) (x : RV) : Option Buf.St :=
  match Buf.collect alloc false (Nested.prog (Rust.items x)) with
  | .ok s => some s
  | _ => none

def collects (alloc : Bool) (x : RV) (parts : List Buf.Part) : Bool :=
  (collect alloc x).map (·.parts.map eqPart) = some (parts.map eqPart)

/-! ## `ValueBuf` -/

/-- `empty_is_complete`: `buffer/src/value.rs:1516-1519` -/
example : Buf.isComplete {} = false := by decide +kernel

/-- `primitive_is_complete`: `buffer/src/value.rs:1521-1524` -/
example : ∀ alloc, (collect alloc (.int .i32 42)).map Buf.isComplete = some true := by decide +kernel

/-- `text_is_complete`, `binary_is_complete`, `map_is_complete`, `seq_is_complete`: `buffer/src/value.rs:1526-1576` -/
example : ∀ alloc, ∀ p ∈ [(Token.textBegin none, Token.textEnd), (.binaryBegin none, .binaryEnd),
      (.mapBegin none, .mapEnd), (.seqBegin none, .seqEnd)],
    (calls alloc {} [p.1]).map Buf.isComplete = some false ∧
      (calls alloc {} [p.1, p.2]).map Buf.isComplete = some true := by decide +kernel

/-- `empty`: `buffer/src/value.rs:1578-1583` -/
example : Buf.replay [] = { toks := [.null] } := by decide +kernel

/-- `buffer_primitive`: `buffer/src/value.rs:1585-1699` -/
example : ∀ alloc, collects alloc (.bool true) [.bool true] ∧
    ([(IntTy.i8, 1), (.i16, 2), (.i32, 3), (.i64, 4), (.i128, 5), (.u8, 1), (.u16, 2), (.u32, 3), (.u64, 4),
      (.u128, 5)].all fun x => collects alloc (.int x.1 x.2) [.int x.1 x.2]) ∧
    collects alloc (.f32 1078523331) [.f32 1078523331] ∧
    collects alloc (.f64 4614256447914709615) [.f64 4614256447914709615] ∧
    collects alloc (.str (t! "abc")) [.text (.borrowed (t! "abc"))] ∧
    collects alloc (.bytes [97, 98, 99]) [.binary (.borrowed [97, 98, 99])] ∧
    collects alloc (.map [] []) [.opened (.map (some 0)) 0] ∧
    collects alloc (.slice []) [.opened (.seq (some 0)) 0] := by decide +kernel

/-- `buffer_empty_enum`: `buffer/src/value.rs:1701-1721` -/
example : ∀ alloc, holds alloc [.enumBegin { label := some (label (t! "Enum")) }, .enumEnd { label := some (label (t! "Enum")) }]
    [.opened (.enum { label := some (label (t! "Enum")) }) 0] := by decide +kernel

/-- `buffer_empty_record`: `buffer/src/value.rs:1723-1744` -/
example : ∀ alloc, holds alloc
    [.recordBegin { label := some (label (t! "Record")) } (some 0), .recordEnd { label := some (label (t! "Record")) }]
    [.opened (.record { label := some (label (t! "Record")) } (some 0)) 0] := by decide +kernel

/-- `buffer_empty_tuple`: `buffer/src/value.rs:1746-1767` -/
example : ∀ alloc, holds alloc
    [.tupleBegin { label := some (label (t! "Tuple")) } (some 0), .tupleEnd { label := some (label (t! "Tuple")) }]
    [.opened (.tuple { label := some (label (t! "Tuple")) } (some 0)) 0] := by decide +kernel

/-- `buffer_reuse`: `buffer/src/value.rs:1769-1788` -/
example : ∀ alloc, collects alloc (.int .i32 42) (((calls alloc {} [.int .i32 42]).map (·.parts)).getD []) ∧
    ((calls alloc {} [.int .i32 42]).bind fun s => calls alloc (Buf.clear s) [.bool true]).map (·.parts) =
      (collect alloc (.bool true)).map (·.parts) := by decide +kernel

/-- `buffer_invalid`: `buffer/src/value.rs:1790-1806` -/
example : ∀ alloc, Buf.collect alloc false (.ret false) = .err .valueFailed ∧
    Buf.collect alloc true (.ret false) = .err .valueFailed := by decide +kernel

/-- `collect_owned`: `buffer/src/value.rs:287-298` -/
example : Buf.collect true true (Nested.prog (Rust.items (.boxed (.str (t! "abc"))))) =
    .ok { parts := [.text (.owned (t! "abc"))] } := by decide +kernel

/-- `into_owned`: `buffer/src/value.rs:214-253` -/
example : (collect true (.boxed (.str (t! "abc")))).map Buf.intoOwned = some { parts := [.text (.owned (t! "abc"))] } := by
  decide +kernel

/-- `buffer_option`: `buffer/src/value.rs:1857-1884` -/
example : collects true .none
      [.tag { tag := some tags.RUST_OPTION_NONE, label := some (label (t! "None")), index := some (index 0) }] ∧
    collects true (.some (.int .i32 42))
      [.opened (.tagged { tag := some tags.RUST_OPTION_SOME, label := some (label (t! "Some")), index := some (index 1) }) 1,
       .int .i32 42] := by decide +kernel

/-- `buffer_map`: `buffer/src/value.rs:1886-1944` -/
example : holds true
    [.mapBegin (some 2), .mapKeyBegin, .int .i32 0, .mapKeyEnd, .mapValueBegin, .bool false, .mapValueEnd, .mapKeyBegin,
     .int .i32 1, .mapKeyEnd, .mapValueBegin, .bool true, .mapValueEnd, .mapEnd]
    [.opened (.map (some 2)) 8, .opened .mapKey 1, .int .i32 0, .opened .mapValue 1, .bool false, .opened .mapKey 1,
     .int .i32 1, .opened .mapValue 1, .bool true] := by decide +kernel

/-- `buffer_seq`: `buffer/src/value.rs:1946-1984` -/
example : holds true
    [.seqBegin (some 2), .seqValueBegin, .bool false, .seqValueEnd, .seqValueBegin, .bool true, .seqValueEnd, .seqEnd]
    [.opened (.seq (some 2)) 4, .opened .seqValue 1, .bool false, .opened .seqValue 1, .bool true] := by decide +kernel

/-- The arguments of the tests that follow. -/
def A : Meta := { tag := some (tag (t! "test")), label := some (label (t! "A")), index := some (index 1) }

/-- `buffer_record`: `buffer/src/value.rs:1986-2056` -/
example : holds true
    [.recordBegin A (some 2), .recordValueBegin none (label (t! "a")), .bool false, .recordValueEnd none (label (t! "a")),
     .recordValueBegin none (label (t! "b")), .bool true, .recordValueEnd none (label (t! "b")), .recordEnd A]
    [.opened (.record A (some 2)) 4, .opened (.recordValue none (label (t! "a"))) 1, .bool false,
     .opened (.recordValue none (label (t! "b"))) 1, .bool true] := by decide +kernel

/-- `buffer_tuple`: `buffer/src/value.rs:2058-2120` -/
example : holds true
    [.tupleBegin A (some 2), .tupleValueBegin none (index 0), .bool false, .tupleValueEnd none (index 0),
     .tupleValueBegin none (index 1), .bool true, .tupleValueEnd none (index 1), .tupleEnd A]
    [.opened (.tuple A (some 2)) 4, .opened (.tupleValue none (index 0)) 1, .bool false,
     .opened (.tupleValue none (index 1)) 1, .bool true] := by decide +kernel

/-- `buffer_record_tuple`: `buffer/src/value.rs:2122-2194` -/
example : holds true
    [.recordTupleBegin A (some 2), .recordTupleValueBegin none (label (t! "a")) (index 0), .bool false,
     .recordTupleValueEnd none (label (t! "a")) (index 0), .recordTupleValueBegin none (label (t! "b")) (index 1),
     .bool true, .recordTupleValueEnd none (label (t! "b")) (index 1), .recordTupleEnd A]
    [.opened (.recordTuple A (some 2)) 4, .opened (.recordTupleValue none (label (t! "a")) (index 0)) 1, .bool false,
     .opened (.recordTupleValue none (label (t! "b")) (index 1)) 1, .bool true] := by decide +kernel

/-- `buffer_enum`: `buffer/src/value.rs:2196-2243` -/
example : holds true [.enumBegin A, .tag { label := some (label (t! "B")), index := some (index 0) }, .enumEnd A]
    [.opened (.enum A) 1, .tag { label := some (label (t! "B")), index := some (index 0) }] := by decide +kernel

/-- `buffer_tag_hints`: `buffer/src/value.rs:2245-2303` -/
example : holds true
    [.tagHint (tag (t! "test")), .seqBegin (some 2), .seqValueBegin, .tagHint (tag (t! "test")), .bool false,
     .seqValueEnd, .seqValueBegin, .bool true, .seqValueEnd, .seqEnd, .tagHint (tag (t! "test"))]
    [.tagHint (tag (t! "test")), .opened (.seq (some 2)) 5, .opened .seqValue 2, .tagHint (tag (t! "test")), .bool false,
     .opened .seqValue 1, .bool true, .tagHint (tag (t! "test"))] := by decide +kernel

/-- `buffer_roundtrip`: `buffer/src/value.rs:2305-2346` -/
def ints (xs : List Int) : RV := .boxed (.slice (xs.map (.int .i32 ·)))
def vec (xs : List RV) : RV := .boxed (.slice xs)
def record : RV :=
  Suite.rust names { ident := t! "Record", attrs := [], data := .struct (.named [(t! "a", []), (t! "b", [])]) } 0
    [.int .i32 42, .bool true]
def tuple : RV :=
  Suite.rust names { ident := t! "Tuple", attrs := [], data := .struct (.unnamed [[], []]) } 0 [.int .i32 42, .bool true]
def enum : RV :=
  Suite.rust names
    { ident := t! "Enum", attrs := [], data := .enum [{ ident := t! "A", attrs := [], discr := none, fields := .unit }] } 0 []

/-- `buffer_roundtrip`: `buffer/src/value.rs:2305-2346` -/
example : ([.int .i32 42, vec [vec [], vec [ints [1, 2, 3], ints [4]], vec [ints [5, 6], ints [7, 8, 9]]], record, tuple,
      enum].all fun x =>
    match collect true x with
    | some s =>
      let r := Buf.replay s.parts
      match r.panic, Buf.collect true false (Nested.prog (Nested.regroup r.toks)) with
      | false, .ok s' => s'.parts.map eqPart = s.parts.map eqPart
      | _, _ => false
    | none => false) := by decide +kernel

/-! ## `TextBuf` and `BinaryBuf` -/

/-- Pushes, each unwrapped; `true` is computed. -/
def pushes {α : Type} (alloc : Bool) (c : Buf.Cow α) : List (Bool × List α) → Option (Buf.Cow α)
  | [] => some c
  | (computed, f) :: fs =>
    match if computed then c.pushComputed alloc f else c.push alloc f with
    | .ok c => pushes alloc c fs
    | .error _ => none

def abc : Bytes := [97, 98, 99]
def de : Bytes := [100, 101, 102]

/-- `text_buf_empty`, `binary_buf_empty`: `buffer/src/fragments.rs:698-706` -/
example : (Buf.Cow.new (α := Char)).asBorrowed = some [] ∧ (Buf.Cow.new (α := UInt8)).asBorrowed = some [] := by
  decide +kernel

/-- `text_fragment_replace`: `buffer/src/fragments.rs:708-719` -/
example : ∀ alloc, (pushes alloc .new [(false, t! "abc")]).map (fun c => (c.content, c.asBorrowed)) =
    some (t! "abc", some (t! "abc")) := by decide +kernel

/-- `binary_fragment_replace`: `buffer/src/fragments.rs:731-742` -/
example : ∀ alloc, (pushes alloc .new [(false, abc)]).map (fun c => (c.content, c.asBorrowed)) =
    some (abc, some abc) := by decide +kernel

/-- `text_fragment_computed`: `buffer/src/fragments.rs:178-180` -/
example : (pushes true .new [(true, t! "abc")]).map (fun c => (c.content, c.asBorrowed)) = some (t! "abc", none) := by
  decide +kernel

/-- `binary_fragment_computed`: `buffer/src/fragments.rs:392-394` -/
example : (pushes true .new [(true, abc)]).map (fun c => (c.content, c.asBorrowed)) = some (abc, none) := by
  decide +kernel

/-- `text_fragment_extend`: `buffer/src/fragments.rs:776-786` -/
example : (pushes true .new [(false, t! "abc"), (false, t! "def")]).map (fun c => (c.content, c.asBorrowed)) =
    some (t! "abcdef", none) := by decide +kernel

/-- `binary_fragment_extend`: `buffer/src/fragments.rs:788-798` -/
example : (pushes true .new [(false, abc), (false, de)]).map (fun c => (c.content, c.asBorrowed)) =
    some (abc ++ de, none) := by decide +kernel

/-- What a value is as text, or as bytes. -/
def textOf (x : RV) : Buf.Gathered Char := Buf.collectText true (Nested.prog (Rust.items x))
def binaryOf (x : RV) : Buf.Gathered UInt8 := Buf.collectBinary true (Nested.prog (Rust.items x))

/-- `collect_text_buf`: `buffer/src/fragments.rs:800-806` -/
example : textOf (.str (t! "a string")) = .ok (.borrowed (t! "a string")) := by decide +kernel

/-- `collect_binary_buf`: `buffer/src/fragments.rs:808-814` -/
example : binaryOf (.bytes (utf8 (t! "a string"))) = .ok (.borrowed (utf8 (t! "a string"))) := by decide +kernel

/-- `collect_binary_buf_seq`: `buffer/src/fragments.rs:816-822` -/
example : (match binaryOf (.array ((utf8 (t! "a string")).map fun b => .int .u8 b.toNat)) with
    | .ok c => decide (c.content = utf8 (t! "a string"))
    | _ => false) = true := by decide +kernel

/-- `stream_text_buf`, `stream_ref_text_buf_borrowed`: `buffer/src/fragments.rs:824-871` -/
example : ∀ alloc, (pushes alloc .new [(false, t! "abc")]).map Buf.Cow.textToks =
    some [.textBegin (some 3), .textFragment (t! "abc"), .textEnd] := by decide +kernel

/-- `stream_ref_text_buf_computed`: `buffer/src/fragments.rs:836-856` -/
example : (pushes true .new [(false, t! "123"), (false, t! "()"), (false, t! "data")]).map Buf.Cow.textToks =
    some [.textBegin (some 9), .textFragmentComputed (t! "123()data"), .textEnd] := by decide +kernel

/-- `stream_ref_binary_buf_borrowed`: `buffer/src/fragments.rs:908-921` -/
example : ∀ alloc, (pushes alloc .new [(false, abc)]).map Buf.Cow.binaryToks =
    some [.binaryBegin (some 3), .binaryFragment abc, .binaryEnd] := by decide +kernel

/-- `stream_ref_binary_buf_computed`: `buffer/src/fragments.rs:923-942` -/
example : (pushes true .new [(false, abc), (true, de)]).map Buf.Cow.binaryToks =
    some [.binaryBegin (some 6), .binaryFragmentComputed (abc ++ de), .binaryEnd] := by decide +kernel

/-- `text_fragment_clear`, `binary_fragment_clear`: `buffer/src/fragments.rs:720-728`, `buffer/src/fragments.rs:743-751` -/
example : ∀ alloc, (pushes alloc .new [(false, t! "abc")]).map (fun c => c.clear.content) = some [] ∧
    (pushes alloc .new [(false, abc)]).map (fun c => c.clear.content) = some [] := by decide +kernel

/-- `bool` as `Display`. -/
def shown (b : Bool) : Buf.Disp := .write (if b then t! "true" else t! "false") fun ok => .ret ok

/-- `collect_text_buf_display`: `buffer/src/fragments.rs:873-880` -/
example : (match Buf.collectDisplay true (shown true) with
    | .ok c => decide (c.content = t! "true" ∧ c.asBorrowed = none)
    | _ => false) = true := by decide +kernel

/-- `stream_text_buf_display`: `buffer/src/fragments.rs:882-892` -/
example : (match Buf.pushDisplay true .new (shown true) with
    | (c, .ok ()) =>
      match Buf.pushDisplay true c (shown false) with
      | (c, .ok ()) => decide (c.content = t! "truefalse" ∧ c.asBorrowed = none)
      | _ => false
    | _ => false) = true := by decide +kernel

/-- `stream_binary_buf_computed`: `buffer/src/fragments.rs:894-906` -/
example : (pushes true .new [(false, abc), (true, de)]).map (fun c => Test.assertTokens (Nested.prog c.binaryItems)
    [.binaryBegin (some 6), .binaryFragment (abc ++ de), .binaryEnd]) = some true := by decide +kernel

/-- `push_pop`: `buffer/src/value.rs:1460-1480` -/
example : (ArrayVec.run (.default 2) {} [.pop, .push 1, .push 2, .push 3, .pop, .pop, .pop, .push 1, .pop, .pop]).map (·.1) =
    some [.popped none, .pushed true, .pushed true, .pushed false, .popped (some 2), .popped (some 1), .popped none,
      .pushed true, .popped (some 1), .popped none] := by decide +kernel

/-- `destructors`: `buffer/src/value.rs:1482-1499` -/
example : ((ArrayVec.run (.default 5) {} [.push 1, .push 2]).bind fun r => r.2.1.drop r.2.2).map (·.dropped) =
    some [1, 2] := by decide +kernel

end Sval.BufferSuite
