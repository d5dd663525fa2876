import Verif.Reader.Stack
import Verif.Core.Prog
import Verif.Core.Decimal
import Verif.Core.Guard

set_option autoImplicit false

/-!
# The JSON reader

`experiments/src/json/from_slice.rs`: a `&str` of JSON as a `Value`.

The source is kept as the characters that are left instead of bytes and a position. The bytes the reader looks at are
all ASCII, and a byte of a longer character is never one of them, so the slices it takes are whole characters and
`from_utf8` does not fail (`Verif/Reader/Bytes.lean`, C87). An unfinished string moves `head` behind the end; here nothing is left then too.

Every call to the stream is followed by `?`, and nothing else of the stream is looked at, so code that reads is given
as the calls it makes if they all succeed and how it ends then.
-/

namespace Sval.Reader

/-- How code ends. -/
inductive End (α : Type) where
  | ok (a : α)
  | err
  | panic
deriving DecidableEq, Repr

/-- The calls made, and how the code ends if they succeed. -/
structure Act (α : Type) where
  calls : List Token
  res : End α

namespace Act
variable {α β : Type}

/-- Make one call. -/
def call (t : Token) : Act Unit := ⟨[t], .ok ()⟩
/-- Do nothing. -/
def pure (a : α) : Act α := ⟨[], .ok a⟩
/-- `return Err(..)` -/
def fail : Act α := ⟨[], .err⟩
/-- `todo!()`, or an index out of bounds. -/
def panic : Act α := ⟨[], .panic⟩

/-- `?`, and what comes after it. -/
def bind (x : Act α) (f : α → Act β) : Act β :=
  match x.res with
  | .ok a => ⟨x.calls ++ (f a).calls, (f a).res⟩
  | .err => ⟨x.calls, .err⟩
  | .panic => ⟨x.calls, .panic⟩

instance : Monad Act where
  pure := pure
  bind := bind

/-- An operation on the stack. -/
def ofRes (r : Res Unit Stack) : Act Stack :=
  match r with
  | .ok s => .pure s
  | .err _ _ => .fail
  | .panic => .panic

end Act

/-- `JsonSliceReader`, `experiments/src/json/from_slice.rs:26-32`; `rest` is `src` from `head` on. -/
structure St where
  rest : Text
  inStr : Bool
  stack : Stack
  position : Position
deriving DecidableEq, Repr

/-- `JsonSliceReader::new`, `experiments/src/json/from_slice.rs:35-43` -/
def St.new (src : Text) : St := { rest := src, inStr := false, stack := .new, position := .root }

section
variable (checks : Bool)

/-- The start of a value that is a map or a sequence, `experiments/src/json/from_slice.rs:46-51`, `91-96` -/
def nestedBegin (s : St) : Act Unit :=
  match s.position with
  | .seqEmpty | .seqElem => .call .seqValueBegin
  | .mapValue => .call .mapValueBegin
  | .root => .pure ()
  | _ => .panic

/-- `map_begin`, `experiments/src/json/from_slice.rs:45-57` -/
def mapBegin (s : St) : Act St := do
  nestedBegin s
  let st ← .ofRes (s.stack.pushMap checks)
  .call (.mapBegin none)
  return { s with stack := st, position := .mapEmpty }

/-- `map_key_end`, `experiments/src/json/from_slice.rs:59-67` -/
def mapKeyEnd (s : St) : Act St :=
  match s.position with
  | .mapKey => do
    .call .mapKeyEnd
    return { s with position := .mapValue }
  | _ => .panic

/-- The end of the last entry of a map, `experiments/src/json/from_slice.rs:73-79` -/
def lastEntry (s : St) : Act Unit :=
  match s.position with
  | .mapEmpty => .pure ()
  | .mapValue => .call .mapValueEnd
  | _ => .panic

/-- `map_end`, `experiments/src/json/from_slice.rs:69-85` -/
def mapEnd (s : St) : Act St := do
  lastEntry s
  let st ← .ofRes (s.stack.popMap checks)
  .call .mapEnd
  return { s with stack := st, position := st.position }

/-- `seq_begin`, `experiments/src/json/from_slice.rs:87-102` -/
def seqBegin (s : St) : Act St := do
  nestedBegin s
  let st ← .ofRes (s.stack.pushSeq checks)
  .call (.seqBegin none)
  return { s with stack := st, position := .seqEmpty }

/-- The end of the last element of a sequence, `experiments/src/json/from_slice.rs:108-114` -/
def lastElem (s : St) : Act Unit :=
  match s.position with
  | .seqEmpty => .pure ()
  | .seqElem => .call .seqValueEnd
  | _ => .panic

/-- `seq_end`, `experiments/src/json/from_slice.rs:104-120` -/
def seqEnd (s : St) : Act St := do
  lastElem s
  let st ← .ofRes (s.stack.popSeq checks)
  .call .seqEnd
  return { s with stack := st, position := st.position }

/-- `map_value_seq_value_end`, `experiments/src/json/from_slice.rs:122-132` -/
def valueEnd (s : St) : Act St :=
  match s.position with
  | .seqElem => do
    .call .seqValueEnd
    return s
  | .mapValue => do
    .call .mapValueEnd
    return { s with position := .mapKey }
  | _ => .panic

/-- `str_begin`, `experiments/src/json/from_slice.rs:134-150` -/
def strBegin (s : St) : Act St :=
  match s.position with
  | .seqEmpty | .seqElem => do
    .call .seqValueBegin
    return { s with position := .seqElem }
  | .mapEmpty => do
    .call .mapKeyBegin
    return { s with position := .mapKey }
  | .mapKey => do
    .call .mapKeyBegin
    return s
  | .mapValue => do
    .call .mapValueBegin
    return s
  | .root => return s

/-- `value_begin`, `experiments/src/json/from_slice.rs:152-163` -/
def valueBegin (s : St) : Act St :=
  match s.position with
  | .seqEmpty | .seqElem => do
    .call .seqValueBegin
    return { s with position := .seqElem }
  | .mapValue => do
    .call .mapValueBegin
    return s
  | .root => return s
  | _ => .panic

/-- `maybe_done`, `experiments/src/json/from_slice.rs:165-173` -/
def maybeDone (s : St) : Act (Bool × St) :=
  if s.rest ≠ [] then return (true, s)
  else if s.stack.finish then return (false, s)
  else .fail

/-- The characters of a number, `experiments/src/json/from_slice.rs:434-441` -/
def isNumberChar (c : Char) : Bool :=
  isDigit c || c == '-' || c == '+' || c == '.' || c == 'e'

/-- Characters without meaning in a string, `experiments/src/json/from_slice.rs:465-476` -/
def isPlain (c : Char) : Bool := c != '\\' && c != '"'

/-- `str_fragment`, `experiments/src/json/from_slice.rs:448-481`: the fragment, whether the string goes on after it,
and what is left. -/
def strFragment (src : Text) : Act (Text × Bool × Text) :=
  match src with
  | [] => .panic
  | '\\' :: r =>
    match r with
    | 'n' :: r => return (['\n'], true, r)
    | 'r' :: r => return (['\r'], true, r)
    | '"' :: r => return (['"'], true, r)
    | '\\' :: r => return (['\\'], true, r)
    | _ => .panic
  | src =>
    let f := src.takeWhile isPlain
    match src.dropWhile isPlain with
    | '\\' :: r => return (f, true, '\\' :: r)
    | _ :: r => return (f, false, r)
    | [] => return (f, false, [])

/-- A string that was begun, `experiments/src/json/from_slice.rs:182-199` -/
def resumeStr (s : St) : Act (Bool × St) := do
  let (f, more, r) ← strFragment s.rest
  .call (.textFragment f)
  if !more then
    .call .textEnd
    maybeDone { s with rest := r, inStr := false }
  else return (true, { s with rest := r })

/-- `b'"'`, `experiments/src/json/from_slice.rs:204-231`; `s.rest` is what follows. -/
def beginStr (s : St) : Act (Bool × St) := do
  let s ← strBegin s
  let (f, more, r) ← strFragment s.rest
  let s := { s with rest := r }
  .call (.textBegin none)
  .call (.textFragment f)
  if !more then
    .call .textEnd
    maybeDone s
  else return (true, { s with inStr := true })

/-- One of the words `true`, `false` and `null`, `experiments/src/json/from_slice.rs:281-321`. -/
def word (w : Text) (t : Token) (s : St) : Act (Bool × St) :=
  if w.isPrefixOf s.rest then do
    let s ← valueBegin { s with rest := s.rest.drop w.length }
    .call t
    maybeDone s
  else .panic

/-- A number, `experiments/src/json/from_slice.rs:327-343` -/
def number (s : St) : Act (Bool × St) := do
  let n := s.rest.takeWhile isNumberChar
  let s ← valueBegin { s with rest := s.rest.dropWhile isNumberChar }
  .call (.taggedBegin { tag := some tags.JSON_NUMBER })
  .call (.taggedBegin { tag := some tags.NUMBER })
  .call (.textBegin (some (utf8Len n)))
  .call (.textFragment n)
  .call .textEnd
  .call (.taggedEnd { tag := some tags.NUMBER })
  .call (.taggedEnd { tag := some tags.JSON_NUMBER })
  maybeDone s

/-- A step that does not end the source. -/
def goOn (x : Act St) : Act (Bool × St) := do return (true, ← x)

/-- The loop of `stream_resume`, `experiments/src/json/from_slice.rs:201-348`. -/
def scan (s : St) : Text → Act (Bool × St)
  | [] => maybeDone { s with rest := [] }
  | c :: r =>
    let here : St := { s with rest := c :: r }
    let after : St := { s with rest := r }
    match c with
    | '"' => beginStr after
    | '{' => goOn (mapBegin checks after)
    | '}' => do maybeDone (← mapEnd checks after)
    | '[' => goOn (seqBegin checks after)
    | ']' => do maybeDone (← seqEnd checks after)
    | ':' => goOn (mapKeyEnd after)
    | ',' => goOn (valueEnd after)
    | 't' => word (t! "true") (.bool true) here
    | 'f' => word (t! "false") (.bool false) here
    | 'n' => word (t! "null") .null here
    | ' ' => scan s r
    | '\t' => scan s r
    | '\r' => scan s r
    | '\n' => scan s r
    | '-' => number here
    | c => if isDigit c then number here else .panic

/-- `stream_resume`, `experiments/src/json/from_slice.rs:175-349` -/
def resume (s : St) : Act (Bool × St) := if s.inStr then resumeStr s else scan checks s s.rest

/-- `while reader.stream_resume(&mut *stream)? {}`, `experiments/src/json/from_slice.rs:20`, for at most this many
rounds; nothing if that is not enough. -/
def loop : Nat → St → Option (Act Unit)
  | 0, _ => none
  | n + 1, s =>
    let x := resume checks s
    match x.res with
    | .ok (true, s') => (loop n s').map fun y => x.bind fun _ => y
    | .ok (false, _) => some (x.bind fun _ => .pure ())
    | .err => some ⟨x.calls, .err⟩
    | .panic => some ⟨x.calls, .panic⟩

/-- `<JsonSlice as Value>::stream`, `experiments/src/json/from_slice.rs:16-24`; `loop` ends, see `C54`. -/
def read (src : Text) : Act Unit := (loop checks (src.length + 1) (St.new src)).getD .panic

/-- The same on a stream. -/
def stream {σ : Type} (S : Token → σ → Res Unit σ) (src : Text) (s : σ) : Outcome σ :=
  let x := read checks src
  match run S x.calls s with
  | .ok s' =>
    match x.res with
    | .ok _ => .done true s'
    | .err => .done false s'
    | .panic => .panicked
  | .err _ s' => .done false s'
  | .panic => .panicked

end

end Sval.Reader
