import Verif.Core.Prog
import Verif.Core.Data

set_option autoImplicit false

/-!
# `sval_buffer`: fragments and buffered values

`buffer/src/fragments.rs` and `buffer/src/value.rs`. `alloc` says whether the `alloc` feature is on;
without it buffers hold one part and errors that would allocate are returned (the debug-build panic of
`Error::no_alloc`, `buffer/src/error.rs:61-80`, is not modelled).
-/

namespace Sval.Buf

/-- `Cow<'sval, str>` or `Cow<'sval, [u8]>`, `buffer/src/fragments.rs` `FragmentBuf`. -/
inductive Cow (α : Type) where
  | borrowed (s : List α)
  | owned (s : List α)
deriving DecidableEq, Repr

/-- `ErrorKind`, `buffer/src/error.rs:10-25`, as far as `ValueBuf` produces it. -/
inductive Err where
  | outsideContainer
  | unbalanced
  | cantEnd
  | noAlloc
  | valueFailed
  | unsupported
deriving DecidableEq, Repr

namespace Cow
variable {α : Type}

/-- `as_inner`: `as_str`, `as_slice`. -/
def content : Cow α → List α
  | borrowed s => s
  | owned s => s

/-- `as_borrowed_inner`: `as_borrowed_str`, `as_borrowed_slice`. -/
def asBorrowed : Cow α → Option (List α)
  | borrowed s => some s
  | owned _ => none

/-- `TextBuf::new`, `BinaryBuf::new`: `FragmentBuf::new("")`. -/
def new : Cow α := .borrowed []

/-- `FragmentBuf::push_computed`: `Fragment::extend`, through `Cow::to_mut`. -/
def pushComputed (alloc : Bool) (c : Cow α) (f : List α) : Except Err (Cow α) :=
  if alloc then .ok (.owned (c.content ++ f)) else .error .noAlloc

/-- `FragmentBuf::push`: replace an empty buffer, otherwise append. -/
def push (alloc : Bool) (c : Cow α) (f : List α) : Except Err (Cow α) :=
  if c.content.length = 0 then .ok (.borrowed f) else c.pushComputed alloc f

/-- `Fragment::into_owned_in_place`. -/
def intoOwned : Cow α → Cow α
  | borrowed s => owned s
  | owned s => owned s

end Cow

/-- The kinds of `ValueKind` (`buffer/src/value.rs:831-922`) that have a `len`, without it. -/
inductive Opener where
  | map (n : Option Nat)
  | mapKey
  | mapValue
  | seq (n : Option Nat)
  | seqValue
  | enum (m : Meta)
  | tagged (m : Meta)
  | record (m : Meta) (n : Option Nat)
  | recordValue (t : Option Tag) (l : Label)
  | tuple (m : Meta) (n : Option Nat)
  | tupleValue (t : Option Tag) (i : Index)
  | recordTuple (m : Meta) (n : Option Nat)
  | recordTupleValue (t : Option Tag) (l : Label) (i : Index)
deriving DecidableEq, Repr

/-- `ValuePart`/`ValueKind`, `buffer/src/value.rs:826-922`. -/
inductive Part where
  | null
  | bool (b : Bool)
  | int (t : IntTy) (v : Int)
  | f32 (bits : UInt32)
  | f64 (bits : UInt64)
  | text (b : Cow Char)
  | binary (b : Cow UInt8)
  | tag (m : Meta)
  | tagHint (t : Tag)
  | opened (o : Opener) (len : Nat)
deriving DecidableEq, Repr

/-- `ValueBuf`, `buffer/src/value.rs:109-115`; the head of `stack` is its top. -/
structure St where
  parts : List Part := []
  stack : List Nat := []
  inText : Bool := false
  err : Option Err := none
deriving DecidableEq, Repr

/-- `try_catch`/`fail`, `buffer/src/value.rs:255-268`: on failure the state `s` reached is kept and the
error recorded. -/
def fail (e : Err) (s : St) : Res Err St := .err e { s with err := some e }

/-- `push_kind`, `buffer/src/value.rs:925-927`, through `BufMut::push`, 42-54, and without `alloc`
`ArrayVec::push`, 1427-1436. -/
def pushKind (alloc : Bool) (k : Part) (s : St) : Res Err St :=
  if alloc || s.parts.length < 1 then .ok { s with parts := s.parts ++ [k] } else fail .noAlloc s

/-- `push_begin`, `buffer/src/value.rs:929-932`. -/
def pushBegin (alloc : Bool) (o : Opener) (s : St) : Res Err St :=
  if alloc || s.stack.length < 1 then
    pushKind alloc (.opened o 0) { s with stack := s.parts.length :: s.stack }
  else fail .noAlloc s

/-- `push_end`, `buffer/src/value.rs:934-977`. -/
def pushEnd (s : St) : Res Err St :=
  match s.stack with
  | [] => fail .unbalanced s
  | index :: stack =>
    let s : St := { s with stack := stack }
    if s.parts.length < index + 1 then .panic
    else
      match s.parts[index]? with
      | none => .panic
      | some (.opened o _) => .ok { s with parts := s.parts.set index (.opened o (s.parts.length - index - 1)) }
      | some _ => fail .cantEnd s

/-- The last part, `current_mut`, `buffer/src/value.rs:979-981`, replaced. -/
def setLast (s : St) (k : Part) : St := { s with parts := s.parts.set (s.parts.length - 1) k }

/-- `try_to_owned` on an optional label, as in `buffer/src/value.rs:563-571`. -/
def ownLabel (alloc : Bool) (l : Label) : Option Label := if alloc then some l.toOwned else l.tryToOwnedNoAlloc

/-- The same for the tag, label and index of a container, as in `buffer/src/value.rs:555-576`. -/
def ownMeta (alloc : Bool) (m : Meta) : Option Meta :=
  match m.label with
  | none => some m
  | some l => (ownLabel alloc l).map fun l => { m with label := some l }

/-- `text_fragment`, `text_fragment_computed`, `buffer/src/value.rs:410-422`. -/
def textPush (f : Cow Char → Except Err (Cow Char)) (s : St) : Res Err St :=
  match s.parts.getLast? with
  | none => .panic
  | some (.text c) =>
    match f c with
    | .ok c => .ok (setLast s (.text c))
    | .error e => fail e s
  | some _ => fail .outsideContainer s

/-- `binary_fragment`, `binary_fragment_computed`, `buffer/src/value.rs:437-449`. -/
def binaryPush (f : Cow UInt8 → Except Err (Cow UInt8)) (s : St) : Res Err St :=
  match s.parts.getLast? with
  | none => .panic
  | some (.binary c) =>
    match f c with
    | .ok c => .ok (setLast s (.binary c))
    | .error e => fail e s
  | some _ => fail .outsideContainer s

/-- A `begin` that owns its label first. -/
def beginMeta (alloc : Bool) (m : Meta) (o : Meta → Opener) (s : St) : Res Err St :=
  match ownMeta alloc m with
  | some m => pushBegin alloc (o m) s
  | none => fail .noAlloc s

/-- The same for the label of a field, as in `buffer/src/value.rs:673-683`. -/
def beginLabel (alloc : Bool) (l : Label) (o : Label → Opener) (s : St) : Res Err St :=
  match ownLabel alloc l with
  | some l => pushBegin alloc (o l) s
  | none => fail .noAlloc s

/-- `impl Stream for ValueBuf`, `buffer/src/value.rs:392-804`. -/
def step (alloc : Bool) : Token → St → Res Err St
  | .null, s => pushKind alloc .null s
  | .bool b, s => pushKind alloc (.bool b) s
  | .int t v, s => pushKind alloc (.int t v) s
  | .f32 b, s => pushKind alloc (.f32 b) s
  | .f64 b, s => pushKind alloc (.f64 b) s
  | .textBegin _, s => pushKind alloc (.text .new) { s with inText := true }
  | .textFragment f, s => textPush (fun c => c.push alloc f) s
  | .textFragmentComputed f, s => textPush (fun c => c.pushComputed alloc f) s
  | .textEnd, s => .ok { s with inText := false }
  | .binaryBegin _, s => pushKind alloc (.binary .new) { s with inText := true }
  | .binaryFragment f, s => binaryPush (fun c => c.push alloc f) s
  | .binaryFragmentComputed f, s => binaryPush (fun c => c.pushComputed alloc f) s
  | .binaryEnd, s => .ok { s with inText := false }
  | .mapBegin n, s => pushBegin alloc (.map n) s
  | .mapKeyBegin, s => pushBegin alloc .mapKey s
  | .mapKeyEnd, s => pushEnd s
  | .mapValueBegin, s => pushBegin alloc .mapValue s
  | .mapValueEnd, s => pushEnd s
  | .mapEnd, s => pushEnd s
  | .seqBegin n, s => pushBegin alloc (.seq n) s
  | .seqValueBegin, s => pushBegin alloc .seqValue s
  | .seqValueEnd, s => pushEnd s
  | .seqEnd, s => pushEnd s
  | .enumBegin m, s => beginMeta alloc m .enum s
  | .enumEnd _, s => pushEnd s
  | .taggedBegin m, s => beginMeta alloc m .tagged s
  | .taggedEnd _, s => pushEnd s
  | .tag m, s =>
    match ownMeta alloc m with
    | some m => pushKind alloc (.tag m) s
    | none => fail .noAlloc s
  | .tagHint t, s => pushKind alloc (.tagHint t) s
  | .recordBegin m n, s => beginMeta alloc m (.record · n) s
  | .recordValueBegin t l, s => beginLabel alloc l (.recordValue t ·) s
  | .recordValueEnd _ _, s => pushEnd s
  | .recordEnd _, s => pushEnd s
  | .tupleBegin m n, s => beginMeta alloc m (.tuple · n) s
  | .tupleValueBegin t i, s => pushBegin alloc (.tupleValue t i) s
  | .tupleValueEnd _ _, s => pushEnd s
  | .tupleEnd _, s => pushEnd s
  | .recordTupleBegin m n, s => beginMeta alloc m (.recordTuple · n) s
  | .recordTupleValueBegin t l i, s => beginLabel alloc l (.recordTupleValue t · i) s
  | .recordTupleValueEnd _ _ _, s => pushEnd s
  | .recordTupleEnd _, s => pushEnd s

/-- `is_complete`, `buffer/src/value.rs:167-169`. -/
def isComplete (s : St) : Bool := s.stack.length == 0 && decide (s.parts.length > 0) && !s.inText

/-- `clear`, `buffer/src/value.rs:174-187`. -/
def clear (s : St) : St := { s with parts := [], stack := [], inText := false, err := none }

/-- The calls around the body of a part: `buffer/src/value.rs:1149-1349`. -/
def Opener.begin : Opener → Token
  | .map n => .mapBegin n
  | .mapKey => .mapKeyBegin
  | .mapValue => .mapValueBegin
  | .seq n => .seqBegin n
  | .seqValue => .seqValueBegin
  | .enum m => .enumBegin m
  | .tagged m => .taggedBegin m
  | .record m n => .recordBegin m n
  | .recordValue t l => .recordValueBegin t l
  | .tuple m n => .tupleBegin m n
  | .tupleValue t i => .tupleValueBegin t i
  | .recordTuple m n => .recordTupleBegin m n
  | .recordTupleValue t l i => .recordTupleValueBegin t l i

/-- The call behind the body of a part: `buffer/src/value.rs:1149-1349`. -/
def Opener.end : Opener → Token
  | .map _ => .mapEnd
  | .mapKey => .mapKeyEnd
  | .mapValue => .mapValueEnd
  | .seq _ => .seqEnd
  | .seqValue => .seqValueEnd
  | .enum m => .enumEnd m
  | .tagged m => .taggedEnd m
  | .record m _ => .recordEnd m
  | .recordValue t l => .recordValueEnd t l
  | .tuple m _ => .tupleEnd m
  | .tupleValue t i => .tupleValueEnd t i
  | .recordTuple m _ => .recordTupleEnd m
  | .recordTupleValue t l i => .recordTupleValueEnd t l i

/-- `impl ValueRef for TextBuf`, `buffer/src/fragments.rs` (`stream.value(v)` on a `str`, or the three
calls written out). -/
def Cow.textToks (c : Cow Char) : List Token :=
  [.textBegin (some (utf8Len c.content)),
   match c with | .borrowed s => .textFragment s | .owned s => .textFragmentComputed s,
   .textEnd]

/-- `impl ValueRef for BinaryBuf`: `BinarySlice` through `value` or `value_computed`. -/
def Cow.binaryToks (c : Cow UInt8) : List Token :=
  [.binaryBegin (some c.content.length),
   match c with | .borrowed s => .binaryFragment s | .owned s => .binaryFragmentComputed s,
   .binaryEnd]

/-- Calls made, and whether they ended in a panic. -/
structure Out where
  toks : List Token
  panic : Bool := false
deriving DecidableEq, Repr

/-- Do `a`, and unless it panics, `b`. -/
def Out.then (a b : Out) : Out := if a.panic then a else { toks := a.toks ++ b.toks, panic := b.panic }

/-- `impl ValueRef for ValueSlice`, `buffer/src/value.rs:1148-1350`: the loop over `i`, with the part at
`i` first in the list. A slice out of range panics (993-1003) before anything is streamed. `fuel` is
the number of parts. -/
def replayN : Nat → List Part → Out
  | 0, _ => { toks := [] }
  | _, [] => { toks := [] }
  | fuel + 1, p :: rest =>
    match p with
    | .null => Out.then { toks := [.null] } (replayN fuel rest)
    | .bool b => Out.then { toks := [.bool b] } (replayN fuel rest)
    | .int t v => Out.then { toks := [.int t v] } (replayN fuel rest)
    | .f32 b => Out.then { toks := [.f32 b] } (replayN fuel rest)
    | .f64 b => Out.then { toks := [.f64 b] } (replayN fuel rest)
    | .text c => Out.then { toks := c.textToks } (replayN fuel rest)
    | .binary c => Out.then { toks := c.binaryToks } (replayN fuel rest)
    | .tag m => Out.then { toks := [.tag m] } (replayN fuel rest)
    | .tagHint t => Out.then { toks := [.tagHint t] } (replayN fuel rest)
    | .opened o len =>
      if rest.length < len then { toks := [], panic := true }
      else
        ((Out.then { toks := [o.begin] } (replayN fuel (rest.take len))).then { toks := [o.end] }).then
          (replayN fuel (rest.drop len))

/-- `stream_ref`, `buffer/src/value.rs:380-390`. -/
def replay (parts : List Part) : Out :=
  if parts.length = 0 then { toks := [.null] } else replayN parts.length parts

/-- `ValuePart::into_owned_in_place`, `buffer/src/value.rs:1008-1139`: labels are already owned. -/
def Part.intoOwned : Part → Part
  | .text c => .text c.intoOwned
  | .binary c => .binary c.intoOwned
  | p => p

/-- `ValueBuf::into_owned`, `buffer/src/value.rs:214-253`. -/
def intoOwned (s : St) : St := { s with parts := s.parts.map Part.intoOwned }

/-- A stream that fails, as seen by the value. -/
def stepB (alloc : Bool) (t : Token) (s : St × Bool) : (St × Bool) × Bool :=
  if s.2 then (s, false)
  else match step alloc t s.1 with
    | .ok s' => ((s', false), true)
    | .err _ s' => ((s', false), false)
    | .panic => ((s.1, true), false)

/-- How `collect` ends: `buffer/src/value.rs:153-162`. -/
inductive Collected where
  | ok (s : St)
  | err (e : Err)
  | panic
deriving DecidableEq, Repr

/-- `ValueBuf::collect`, `buffer/src/value.rs:153-162` (`computed = false`), and `collect_owned`,
287-298 (`computed = true`), of any value. -/
def collect (alloc computed : Bool) (p : Prog) : Collected :=
  let r := exec (stepB alloc) p (if computed then .computed .base else .base) ({}, false)
  if r.1.2 then .panic
  else if r.2 then .ok r.1.1
  else match r.1.1.err with
    | some e => .err e
    | none => .err .valueFailed

end Sval.Buf
