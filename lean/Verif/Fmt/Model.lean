import Verif.Core.Tree
import Verif.Core.Decimal
import Verif.Core.Data
import Verif.Core.Lower
import Verif.Core.Guard

set_option autoImplicit false

/-!
# `sval_fmt`: the writer of `fmt/src/writer.rs`

The writer is generic in the `TokenWrite` it writes to. The model covers every `TokenWrite` that
overrides at most `write_token` and writes whole tokens: a writer is given the kind and the text of
each token, and may fail or panic at any of them. `GenericWriter` ignores the kind.

`itoa` is modelled by `intDec`; `ryu::Buffer::format` is a parameter, and so are the two Unicode
tables behind `char::escape_debug` (`Env`).
-/

namespace Sval.Fmt

/-- The tag a token is written with: `fmt/src/tags.rs`. -/
inductive Kind where
  | number | atom | ident | punct | ws | text
deriving DecidableEq, Repr

/-- `TokenWrite::write_token`, on the text the token displays: `fmt/src/token_write.rs:19-22`. -/
abbrev Writer (ω : Type) := Kind → Text → ω → Res Unit ω

/-- `GenericWriter<&mut String>`: `fmt/src/writer.rs:60-73`. -/
def strWriter : Writer Text := fun _ t o => .ok (o ++ t)

/-- What the model takes from outside the repository. -/
structure Env where
  /-- `ryu::Buffer::format` -/
  f32 : UInt32 → Text
  f64 : UInt64 → Text
  /-- `char::is_grapheme_extended` of `core` -/
  extended : Char → Bool
  /-- `core::unicode::printable::is_printable` -/
  printable : Char → Bool

/-! ## Escaping -/

/-- A lower case hexadecimal digit. -/
def hexDigit (i : Nat) : Char := (t! "0123456789abcdef").getD i 'x'

/-- Hexadecimal digits without leading zeros. -/
def natHex (n : Nat) : Text :=
  if n < 16 then [hexDigit n] else natHex (n / 16) ++ [hexDigit (n % 16)]
termination_by n
decreasing_by omega

/-- `char::escape_unicode` of `core`. -/
def escapeUnicode (c : Char) : Text := '\\' :: 'u' :: '{' :: (natHex c.toNat ++ ['}'])

/-- `char::escape_debug` of `core`. -/
def escapeDebug (env : Env) (c : Char) : Text :=
  if c = '\x00' then ['\\', '0']
  else if c = '\t' then ['\\', 't']
  else if c = '\r' then ['\\', 'r']
  else if c = '\n' then ['\\', 'n']
  else if c = '\\' ∨ c = '"' ∨ c = '\'' then ['\\', c]
  else if env.extended c then escapeUnicode c
  else if env.printable c then [c]
  else escapeUnicode c

section
variable {ω : Type} (w : Writer ω) (env : Env)

/-- The inner loop of `write_escape_debug`: `fmt/src/token_write.rs:354-357`. -/
def writeChars : List Char → ω → Res Unit ω
  | [], o => .ok o
  | c :: cs, o => (w .text [c] o).bind fun o => writeChars cs o

/-- `if flush.len() > 0 { output(flush) }`: `fmt/src/token_write.rs:349-352,364-369` -/
def flush (p : Text) (o : ω) : Res Unit ω := if p = [] then .ok o else w .text p o

/-- The loop of `write_escape_debug`: `fmt/src/token_write.rs:339-370`. `p` is `input[from..i]`. -/
def escapeLoop : Text → Text → ω → Res Unit ω
  | p, [], o => flush w p o
  | p, c :: cs, o =>
    if (escapeDebug env c).length > 1 then
      (flush w p o).bind fun o =>
      (writeChars w (escapeDebug env c) o).bind fun o =>
      escapeLoop [] cs o
    else escapeLoop (p ++ [c]) cs o

/-- `TokenWrite::write_text`: `fmt/src/token_write.rs:183-185` -/
def writeText (t : Text) (o : ω) : Res Unit ω := escapeLoop w env [] t o

/-! ## The other provided methods of `TokenWrite` -/

/-- `write_map_key_begin`: `fmt/src/token_write.rs:197-203` -/
def writeMapKeyBegin (first : Bool) (o : ω) : Res Unit ω :=
  (if first then .ok o else w .punct (t! ",") o).bind fun o => w .ws (t! " ") o

/-- `write_map_value_begin`: `fmt/src/token_write.rs:208-213` -/
def writeMapValueBegin (o : ω) : Res Unit ω :=
  (w .punct (t! ":") o).bind fun o => w .ws (t! " ") o

/-- `write_map_end`, `write_record_end`: `fmt/src/token_write.rs:218-224,260-266` -/
def writeMapEnd (empty : Bool) (o : ω) : Res Unit ω :=
  (if empty then .ok o else w .ws (t! " ") o).bind fun o => w .punct (t! "}") o

/-- `write_record_type`: `fmt/src/token_write.rs:229-232` -/
def writeRecordType (l : Text) (o : ω) : Res Unit ω :=
  (w .ident l o).bind fun o => w .ws (t! " ") o

/-- `write_record_value_begin`: `fmt/src/token_write.rs:244-255` -/
def writeRecordValueBegin (field : Text) (first : Bool) (o : ω) : Res Unit ω :=
  (if first then .ok o else w .punct (t! ",") o).bind fun o =>
  (w .ws (t! " ") o).bind fun o =>
  (w .ident field o).bind fun o =>
  (w .punct (t! ":") o).bind fun o =>
  w .ws (t! " ") o

/-- `write_seq_value_begin`, `write_tuple_value_begin`: `fmt/src/token_write.rs:278-285,313-320` -/
def writeSeqValueBegin (first : Bool) (o : ω) : Res Unit ω :=
  if first then .ok o else (w .punct (t! ",") o).bind fun o => w .ws (t! " ") o

/-- The label of a tuple, `write_tuple_type`, if there is one. -/
def writeTupleType (l : Option Label) (o : ω) : Res Unit ω :=
  match l with
  | some l => w .ident l.text o
  | none => .ok o

end

/-! ## The writer -/

/-- `Writer`: `fmt/src/writer.rs:4-8`. -/
structure St (ω : Type) where
  empty : Bool := true
  number : Bool := false
  out : ω

/-- `Writer::new`: `fmt/src/writer.rs:126-134`. -/
def St.new {ω : Type} (o : ω) : St ω := { out := o }

section
variable {ω : Type} (w : Writer ω) (env : Env)

/-- Write, then put the new output back. -/
def put (f : ω → Res Unit ω) (s : St ω) : Res Unit (St ω) :=
  match f s.out with
  | .ok o => .ok { s with out := o }
  | .err e o => .err e { s with out := o }
  | .panic => .panic

/-- `seq_value_begin` … `seq_value_end` around each byte: `fmt/src/writer.rs:181-189`. -/
def binaryBytes : Bytes → St ω → Res Unit (St ω)
  | [], s => .ok s
  | b :: bs, s =>
    (put (writeSeqValueBegin w s.empty) s).bind fun s =>
    (put (w .number (intDec b.toNat)) s).bind fun s =>
    binaryBytes bs { s with empty := false }

/-- `tag`: `fmt/src/writer.rs:408-425`. -/
def tag (m : Meta) (s : St ω) : Res Unit (St ω) :=
  let s := { s with empty := false }
  match m.label with
  | some l => put (w .ident l.text) s
  | none => put (w .atom (t! "()")) s

/-- `impl Stream for Writer`: `fmt/src/writer.rs:136-526`. The calls that are not overridden go
through the defaults and never reach this function (`fmtCaps`). -/
def step : Token → St ω → Res Unit (St ω)
  | .null, s => put (w .atom (t! "()")) s
  | .bool b, s => put (w .atom (if b then t! "true" else t! "false")) s
  | .int _ v, s => put (w .number (intDec v)) s
  | .f32 b, s => put (w .number (env.f32 b)) s
  | .f64 b, s => put (w .number (env.f64 b)) s
  | .textBegin _, s => if s.number then .ok s else put (w .text (t! "\"")) s
  | .textFragmentComputed t, s =>
    if s.number then put (w .number t) s else put (writeText w env t) s
  | .textEnd, s => if s.number then .ok s else put (w .text (t! "\"")) s
  | .binaryBegin _, s => put (w .punct (t! "[")) { s with number := false, empty := true }
  | .binaryFragmentComputed b, s => binaryBytes w b s
  | .binaryEnd, s => put (w .punct (t! "]")) s
  | .mapBegin _, s => put (w .punct (t! "{")) { s with number := false, empty := true }
  | .mapKeyBegin, s => put (writeMapKeyBegin w s.empty) s
  | .mapKeyEnd, s => put (writeMapValueBegin w) s
  | .mapValueBegin, s => .ok s
  | .mapValueEnd, s => .ok { s with empty := false }
  | .mapEnd, s => put (writeMapEnd w s.empty) s
  | .seqBegin _, s => put (w .punct (t! "[")) { s with number := false, empty := true }
  | .seqValueBegin, s => put (writeSeqValueBegin w s.empty) s
  | .seqValueEnd, s => .ok { s with empty := false }
  | .seqEnd, s => put (w .punct (t! "]")) s
  | .enumBegin _, s => .ok { s with empty := true }
  | .enumEnd m, s => if s.empty then tag w m s else .ok s
  | .taggedBegin m, s =>
    let s := { s with empty := false, number := s.number || decide (m.tag = some tags.NUMBER) }
    match m.label with
    | some l => put (fun o => (w .ident l.text o).bind fun o => w .punct (t! "(") o) s
    | none => .ok s
  | .taggedEnd m, s =>
    let s := { s with number := s.number && !decide (m.tag = some tags.NUMBER) }
    match m.label with
    | some _ => put (w .punct (t! ")")) s
    | none => .ok s
  | .tag m, s => tag w m s
  | .recordBegin m _, s =>
    put (fun o =>
      (match m.label with
        | some l => writeRecordType w l.text o
        | none => .ok o).bind fun o => w .punct (t! "{") o)
      { s with number := false, empty := true }
  | .recordValueBegin _ l, s => put (writeRecordValueBegin w l.text s.empty) s
  | .recordValueEnd _ _, s => .ok { s with empty := false }
  | .recordEnd _, s => put (writeMapEnd w s.empty) s
  | .tupleBegin m _, s =>
    put (fun o => (writeTupleType w m.label o).bind fun o => w .punct (t! "(") o)
      { s with number := false, empty := true }
  | .tupleValueBegin _ _, s => put (writeSeqValueBegin w s.empty) s
  | .tupleValueEnd _ _, s => .ok { s with empty := false }
  | .tupleEnd _, s => put (w .punct (t! ")")) s
  | _, _ => .panic

/-- The methods `Writer` overrides: `fmt/src/writer.rs:136-526`. -/
def fmtCaps : Caps where
  u8 := true
  u16 := true
  u32 := true
  u64 := true
  u128 := true
  i8 := true
  i16 := true
  i32 := true
  i128 := true
  f32 := true
  textFragment := false
  binary := true
  binaryFragment := false
  map := true
  enum := true
  tagged := true
  tag := true
  tagHint := false
  record := true
  tuple := true
  recordTuple := false

/-- A call to the writer: the methods it does not override fall back on those it does. -/
def call (t : Token) (s : St ω) : Res Unit (St ω) := run (step w env) (Low.tok fmtCaps t) s

/-- `stream_to_write`, `stream_to_token_write`: `fmt/src/to_write.rs:12-25`. Does it report success,
and what is in the writer? -/
def toWrite (p : Prog) (o : ω) : Outcome ω :=
  match drive (call w env) p (St.new o) with
  | .done ok s => .done ok s.out
  | .panicked => .panicked

/-- `Display for ToFmt`: `fmt/src/to_fmt.rs:43-53`, for a formatter with default options that writes
numbers as `env` says. -/
def display (p : Prog) (o : ω) : Outcome ω :=
  match toWrite w env p o with
  | .done true o => .done true o
  | .done false o =>
    match (w .text (t! "<") o).bind fun o =>
        (w .text (t! "an error occurred when formatting an argument") o).bind fun o => w .text (t! ">") o with
    | .ok o => .done true o
    | .err _ o => .done false o
    | .panic => .panicked
  | .panicked => .panicked

end

/-- `stream_to_string`: `fmt/src/to_string.rs:8-12`. `none` is a panic: of the value, or of `expect`. -/
def toString (env : Env) (p : Prog) : Option Text :=
  match toWrite strWriter env p [] with
  | .done true o => some o
  | _ => none

end Sval.Fmt
