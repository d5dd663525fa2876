import Verif.Core.Tree
import Verif.Core.Decimal
import Verif.Core.Float
import Verif.Core.Data
import Verif.Core.Lower
import Verif.Core.Prog

set_option autoImplicit false

/-!
# `sval_json`: the formatter of `json/src/to_fmt.rs`

The formatter is generic in the `core::fmt::Write` it writes to, and so is the model: a `Writer` may
fail at any write, and may panic. `write_char` of `fmt::Write` is `write_str` of that character.

`itoa` is modelled by `intDec`; `ryu` is a parameter (`Env`).
-/

namespace Sval.Json

/-- `core::fmt::Write::write_str`. -/
abbrev Writer (ω : Type) := Text → ω → Res Unit ω

/-- `String`: writing never fails. -/
def strWriter : Writer Text := fun t o => .ok (o ++ t)

/-- `ryu::Buffer::format_finite`, on finite bit patterns. -/
structure Env where
  f32 : UInt32 → Text
  f64 : UInt64 → Text

/-! ## Escaping -/

section
/-- The constants of `json/src/to_fmt.rs:711-718`. -/
def BB : UInt8 := 98
def TT : UInt8 := 116
def NN : UInt8 := 110
def FF : UInt8 := 102
def RR : UInt8 := 114
def QU : UInt8 := 34
def BS : UInt8 := 92
def U : UInt8 := 117

/-- `json/src/to_fmt.rs:723-741`; rows 8 to F are all zero. -/
def ESCAPE : List UInt8 :=
  [U,  U,  U,  U,  U,  U,  U,  U, BB, TT, NN,  U, FF, RR,  U,  U, -- 0
   U,  U,  U,  U,  U,  U,  U,  U,  U,  U,  U,  U,  U,  U,  U,  U, -- 1
   0,  0, QU,  0,  0,  0,  0,  0,  0,  0,  0,  0,  0,  0,  0,  0, -- 2
   0,  0,  0,  0,  0,  0,  0,  0,  0,  0,  0,  0,  0,  0,  0,  0, -- 3
   0,  0,  0,  0,  0,  0,  0,  0,  0,  0,  0,  0,  0,  0,  0,  0, -- 4
   0,  0,  0,  0,  0,  0,  0,  0,  0,  0,  0,  0, BS,  0,  0,  0, -- 5
   0,  0,  0,  0,  0,  0,  0,  0,  0,  0,  0,  0,  0,  0,  0,  0, -- 6
   0,  0,  0,  0,  0,  0,  0,  0,  0,  0,  0,  0,  0,  0,  0,  0] -- 7
  ++ List.replicate 128 0
end

/-- `HEX_DIGITS[i] as char`. -/
def hexDigit (i : Nat) : Char := (t! "0123456789abcdef").getD i 'x'

/-- `ESCAPE[byte]` for the bytes of a character: one byte if it is ASCII; all bytes of others are at
least 128, for which the table is zero. -/
def escapeOf (c : Char) : UInt8 := if c.toNat < 128 then ESCAPE.getD c.toNat 0 else 0

section
variable {ω : Type} (w : Writer ω)

/-- The `match escape`: `json/src/to_fmt.rs:684-699`. -/
def escapeOne (e : UInt8) (byte : Nat) (o : ω) : Res Unit ω :=
  if e = BB then w (t! "\\b") o
  else if e = TT then w (t! "\\t") o
  else if e = NN then w (t! "\\n") o
  else if e = FF then w (t! "\\f") o
  else if e = RR then w (t! "\\r") o
  else if e = QU then w (t! "\\\"") o
  else if e = BS then w (t! "\\\\") o
  else if e = U then
    (w (t! "\\u00") o).bind fun o =>
    (w [hexDigit (byte >>> 4)] o).bind fun o =>
    w [hexDigit (byte &&& 0xF)] o
  else .panic

/-- The loop of `escape_str`, `json/src/to_fmt.rs:670-709`, by characters; `p` is
`value[start..i]`. -/
def escapeLoop : Text → Text → ω → Res Unit ω
  | p, [], o => if p ≠ [] then w p o else .ok o
  | p, c :: cs, o =>
    if escapeOf c = 0 then escapeLoop (p ++ [c]) cs o
    else
      (if p ≠ [] then w p o else .ok o).bind fun o =>
      (escapeOne w (escapeOf c) c.toNat o).bind fun o =>
      escapeLoop [] cs o

/-- `escape_str`, `json/src/to_fmt.rs:669-709`. -/
def escapeStr (v : Text) (o : ω) : Res Unit ω := escapeLoop w [] v o
end

/-! ## Numbers in text -/

/-- `NumberTextHandler`, `json/src/to_fmt.rs:556-561`, without `leading_zeroes`, which is only ever
incremented. -/
structure NumSt where
  atStart : Bool := true
  neg : Bool := false
  nan : Bool := false
deriving DecidableEq, Repr

/-- `&v[n..]` by bytes; `none` is a panic. -/
def dropBytes : Text → Nat → Option Text
  | t, 0 => some t
  | [], _ + 1 => none
  | c :: t, n + 1 => if c.utf8Size ≤ n + 1 then dropBytes t (n + 1 - c.utf8Size) else none

/-- `&v[..n]` by bytes; `none` is a panic. -/
def takeBytes : Text → Nat → Option Text
  | _, 0 => some []
  | [], _ + 1 => none
  | c :: t, n + 1 => if c.utf8Size ≤ n + 1 then (takeBytes t (n + 1 - c.utf8Size)).map (c :: ·) else none

/-- `&v[a..b]`. -/
def sliceBytes (v : Text) (a b : Nat) : Option Text :=
  if a ≤ b then (dropBytes v a).bind fun t => takeBytes t (b - a) else none

/-- The variables of the loop in `text_fragment`. -/
structure NumRun (ω : Type) where
  st : NumSt
  start : Nat := 0
  stop : Nat := 0
  out : ω

section
variable {ω : Type} (w : Writer ω)

/-- `out.write_str(..)?` in the loop: `json/src/to_fmt.rs:590-647` -/
def NumRun.write (t : Text) (r : NumRun ω) : Res Unit (NumRun ω) :=
  match w t r.out with
  | .ok o => .ok { r with out := o }
  | .err _ o => .err () { r with out := o }
  | .panic => .panic

/-- The loop of `NumberTextHandler::text_fragment`, `json/src/to_fmt.rs:590-647`. The bytes of a
character that is not ASCII all take the last arm. -/
def numLoop : Text → NumRun ω → Res Unit (NumRun ω)
  | [], r => .ok r
  | c :: cs, r =>
    if c = '0' ∧ r.st.atStart = true then numLoop cs { r with start := r.start + 1, stop := r.stop + 1 }
    else if isDigit c then
      (if r.st.atStart && r.st.neg then r.write w ['-'] else .ok r).bind fun r =>
      numLoop cs { r with st := { r.st with atStart := false }, stop := r.stop + 1 }
    else if c = '.' then
      (if r.st.atStart then
        (if r.st.neg then r.write w ['-'] else .ok r).bind fun r => r.write w ['0']
       else .ok r).bind fun r =>
      numLoop cs { r with st := { r.st with atStart := false }, stop := r.stop + 1 }
    else if c = '-' ∧ r.st.atStart = true then
      numLoop cs { r with st := { r.st with neg := true }, start := r.start + 1, stop := r.stop + 1 }
    else if c = '+' ∧ r.st.atStart = true then
      numLoop cs { r with start := r.start + 1, stop := r.stop + 1 }
    else if c ∈ t! "sniSNI" then
      (NumRun.write w (t! "null") { r with st := { r.st with nan := true, atStart := false } }).bind fun r =>
      .ok { r with start := 0, stop := 0 }
    else numLoop cs { r with stop := r.stop + c.utf8Size }

/-- `NumberTextHandler::text_fragment`, `json/src/to_fmt.rs:586-653`. -/
def numFragment (v : Text) (r : NumSt × ω) : Res Unit (NumSt × ω) :=
  if r.1.nan then .ok r
  else
    match numLoop w v { st := r.1, out := r.2 } with
    | .ok r =>
      match sliceBytes v r.start r.stop with
      | none => .panic
      | some t =>
        match w t r.out with
        | .ok o => .ok (r.st, o)
        | .err _ o => .err () (r.st, o)
        | .panic => .panic
    | .err _ r => .err () (r.st, r.out)
    | .panic => .panic

/-- `NumberTextHandler::end`, `json/src/to_fmt.rs:655-661`. -/
def numEnd (n : NumSt) (o : ω) : Res Unit ω := if n.atStart then w ['0'] o else .ok o
end

/-! ## The formatter -/

/-- `TextHandler`, `json/src/to_fmt.rs:551-554`. -/
inductive Handler where
  | native
  | number (n : NumSt)
deriving DecidableEq, Repr

/-- `Formatter`, `json/src/to_fmt.rs:37-44`; `badKey` is `err.is_some()`, the only error it records
being `invalid_key`. -/
structure St (ω : Type) where
  tagged : Bool := false
  empty : Bool := true
  quoted : Bool := true
  handler : Option Handler := none
  badKey : Bool := false
  out : ω
deriving DecidableEq, Repr

/-- `index.to_i64()` of an optional index. -/
def ixI64 (i : Option Index) : Option Int := i.bind (Index.toTy 64 .i64)

section
variable {ω : Type} (w : Writer ω)

/-- `_try!(self.out.write_str(..))`, `_try!(self.out.write_char(..))`. -/
def wr (f : ω → Res Unit ω) (s : St ω) : Res Unit (St ω) :=
  match f s.out with
  | .ok o => .ok { s with out := o }
  | .err _ o => .err () { s with out := o }
  | .panic => .panic

/-- `null`, `bool`, the integers, `json/src/to_fmt.rs:80-197`. -/
def scalar (t : Text) (s : St ω) : Res Unit (St ω) := wr (w t) { s with empty := false }

/-- `text_begin`, `json/src/to_fmt.rs:92-100`. -/
def textBegin (s : St ω) : Res Unit (St ω) :=
  if s.quoted then wr (w ['"']) { s with empty := false } else .ok { s with empty := false }

/-- `text_fragment_computed`, `json/src/to_fmt.rs:102-109`. -/
def textFragment (v : Text) (s : St ω) : Res Unit (St ω) :=
  match s.handler with
  | none => wr (escapeStr w v) s
  | some .native => wr (w v) s
  | some (.number n) =>
    match numFragment w v (n, s.out) with
    | .ok (n, o) => .ok { s with handler := some (.number n), out := o }
    | .err _ (n, o) => .err () { s with handler := some (.number n), out := o }
    | .panic => .panic

/-- `text_end`, `json/src/to_fmt.rs:111-117`. -/
def textEnd (s : St ω) : Res Unit (St ω) := if s.quoted then wr (w ['"']) s else .ok s

/-- `map_begin`, `json/src/to_fmt.rs:223-233`. -/
def mapBegin (s : St ω) : Res Unit (St ω) :=
  if !s.quoted then .err () { s with badKey := true } else wr (w ['{']) { s with empty := true }

/-- `map_key_begin`, `json/src/to_fmt.rs:235-246`. -/
def mapKeyBegin (s : St ω) : Res Unit (St ω) :=
  let s := { s with quoted := false, tagged := false }
  if !s.empty then wr (w (t! ",\"")) s else wr (w ['"']) s

/-- `map_key_end`, `json/src/to_fmt.rs:248-254`. -/
def mapKeyEnd (s : St ω) : Res Unit (St ω) := (wr (w (t! "\":")) s).bind fun s => .ok { s with quoted := true }

/-- `map_end`, `json/src/to_fmt.rs:264-269`. -/
def mapEnd (s : St ω) : Res Unit (St ω) := wr (w ['}']) { s with empty := false }

/-- `seq_begin`, `json/src/to_fmt.rs:271-281`. -/
def seqBegin (s : St ω) : Res Unit (St ω) :=
  if !s.quoted then .err () { s with badKey := true } else wr (w ['[']) { s with empty := true }

/-- `seq_value_begin`, `json/src/to_fmt.rs:283-291`. -/
def seqValueBegin (s : St ω) : Res Unit (St ω) :=
  let s := { s with tagged := false }
  if !s.empty then wr (w [',']) s else .ok s

/-- `seq_end`, `json/src/to_fmt.rs:297-302`. -/
def seqEnd (s : St ω) : Res Unit (St ω) := wr (w [']']) { s with empty := false }

/-- `internally_tagged_map_begin_label`, `json/src/to_fmt.rs:525-533`. -/
def tagMapBeginLabel (l : Text) (s : St ω) : Res Unit (St ω) :=
  (mapBegin w s).bind fun s => (mapKeyBegin w s).bind fun s => (wr (escapeStr w l) s).bind fun s => mapKeyEnd w s

/-- `internally_tagged_map_begin_index`, `json/src/to_fmt.rs:535-543`. -/
def tagMapBeginIndex (i : Int) (s : St ω) : Res Unit (St ω) :=
  (mapBegin w s).bind fun s => (mapKeyBegin w s).bind fun s => (scalar w (intDec i) s).bind fun s => mapKeyEnd w s

/-- `internally_tagged_begin`, `json/src/to_fmt.rs:495-512`. -/
def tagBegin (m : Meta) (s : St ω) : Res Unit (St ω) :=
  if s.tagged then
    let s := { s with tagged := false }
    match m.label with
    | some l => tagMapBeginLabel w l.text s
    | none =>
      match ixI64 m.index with
      | some i => tagMapBeginIndex w i s
      | none => .ok s
  else .ok s

/-- `internally_tagged_end`, `json/src/to_fmt.rs:514-523`. -/
def tagEnd (m : Meta) (s : St ω) : Res Unit (St ω) :=
  .ok { s with tagged := m.label.isSome || (ixI64 m.index).isSome }

/-- `internally_tagged_map_end`, `json/src/to_fmt.rs:545-548`. -/
def tagMapEnd (s : St ω) : Res Unit (St ω) := mapEnd w s

/-- `tag`, `json/src/to_fmt.rs:404-425`; `self.value(label)` is `impl Value for str`,
`src/data/text.rs:103-108`, whose `text_fragment` is `text_fragment_computed` by default. -/
def tagStep (m : Meta) (s : St ω) : Res Unit (St ω) :=
  let s := { s with tagged := false, empty := false }
  if m.tag = some tags.RUST_OPTION_NONE then scalar w (t! "null") s
  else
    match m.label with
    | some l => (textBegin w s).bind fun s => (textFragment w l.text s).bind fun s => textEnd w s
    | none =>
      match ixI64 m.index with
      | some i => scalar w (intDec i) s
      | none => scalar w (t! "null") s

/-- `tagged_begin`, `json/src/to_fmt.rs:335-367`. -/
def taggedBegin (m : Meta) (s : St ω) : Res Unit (St ω) :=
  let s :=
    if m.tag = some tags.JSON_TEXT then { s with handler := some .native }
    else if m.tag = some tags.JSON_VALUE then { s with quoted := false, handler := some .native }
    else if m.tag = some tags.NUMBER then
      { s with quoted := false, handler := if s.handler.isNone then some (.number {}) else s.handler }
    else if m.tag = some tags.JSON_NUMBER then { s with quoted := false, handler := some .native }
    else s
  (tagBegin w m s).bind fun s => .ok { s with empty := true }

/-- `tagged_end`, `json/src/to_fmt.rs:369-402`. -/
def taggedEnd (m : Meta) (s : St ω) : Res Unit (St ω) :=
  (if m.tag = some tags.JSON_TEXT then .ok { s with handler := none }
   else if m.tag = some tags.JSON_VALUE then .ok { s with quoted := true, handler := none }
   else if m.tag = some tags.NUMBER then
     match s.handler with
     | some (.number n) => wr (numEnd w n) { s with quoted := true, handler := none }
     | _ => .ok { s with quoted := true, handler := none }
   else if m.tag = some tags.JSON_NUMBER then .ok { s with quoted := true, handler := none }
   else .ok s : Res Unit (St ω)).bind fun s =>
  (if s.empty then tagStep w m s else .ok s).bind fun s =>
  tagEnd m s

/-- `enum_begin`, `json/src/to_fmt.rs:304-316`. -/
def enumBegin (m : Meta) (s : St ω) : Res Unit (St ω) :=
  (tagBegin w m s).bind fun s => .ok { s with tagged := true, empty := true }

/-- `enum_end`, `json/src/to_fmt.rs:318-333`. -/
def enumEnd (m : Meta) (s : St ω) : Res Unit (St ω) :=
  (if s.empty then tagStep w m s else .ok s).bind fun s =>
  if s.tagged then tagMapEnd w s else tagEnd m s

/-- `record_value_begin`, `json/src/to_fmt.rs:438-457`. -/
def recordValueBegin (l : Label) (s : St ω) : Res Unit (St ω) :=
  let s := { s with tagged := false }
  (if !s.empty then wr (w (t! ",\"")) s else wr (w ['"']) s).bind fun s =>
  (if l.tag = some tags.VALUE_IDENT then wr (w l.text) s else wr (escapeStr w l.text) s).bind fun s =>
  wr (w (t! "\":")) s

/-- The methods `Formatter` implements, `json/src/to_fmt.rs:76-489`. `tuple_value_begin`,
`tuple_value_end` and `record_value_end` are defaults (`src/stream.rs:1519-1542`, `1476-1485`), written
out here because `Caps` treats each kind of container as a whole. The calls not listed do not arrive:
`jsonCaps` lowers them first. -/
def step (env : Env) : Token → St ω → Res Unit (St ω)
  | .null, s => scalar w (t! "null") s
  | .bool b, s => scalar w (if b then t! "true" else t! "false") s
  | .int _ v, s => scalar w (intDec v) s
  | .f32 b, s => scalar w (if f32Finite b then env.f32 b else t! "null") s
  | .f64 b, s => scalar w (if f64Finite b then env.f64 b else t! "null") s
  | .textBegin _, s => textBegin w s
  | .textFragmentComputed v, s => textFragment w v s
  | .textEnd, s => textEnd w s
  | .mapBegin _, s => mapBegin w s
  | .mapKeyBegin, s => mapKeyBegin w s
  | .mapKeyEnd, s => mapKeyEnd w s
  | .mapValueBegin, s => .ok s
  | .mapValueEnd, s => .ok s
  | .mapEnd, s => mapEnd w s
  | .seqBegin _, s => seqBegin w s
  | .seqValueBegin, s => seqValueBegin w s
  | .seqValueEnd, s => .ok s
  | .seqEnd, s => seqEnd w s
  | .enumBegin m, s => enumBegin w m s
  | .enumEnd m, s => enumEnd w m s
  | .taggedBegin m, s => taggedBegin w m s
  | .taggedEnd m, s => taggedEnd w m s
  | .tag m, s => tagStep w m s
  | .recordBegin m _, s => (tagBegin w m s).bind fun s => mapBegin w s
  | .recordValueBegin _ l, s => recordValueBegin w l s
  | .recordValueEnd _ _, s => .ok s
  | .recordEnd m, s => (mapEnd w s).bind fun s => tagEnd m s
  | .tupleBegin m _, s => (tagBegin w m s).bind fun s => seqBegin w s
  | .tupleValueBegin _ _, s => seqValueBegin w s
  | .tupleValueEnd _ _, s => .ok s
  | .tupleEnd m, s => (seqEnd w s).bind fun s => tagEnd m s
  | _, s => .err () s
end

/-- What `Formatter` overrides. -/
def jsonCaps : Caps :=
  { u8 := true, u16 := true, u32 := true, u64 := true, u128 := true, i8 := true, i16 := true,
    i32 := true, i128 := true, f32 := true, textFragment := false, binary := false,
    binaryFragment := false, map := true, enum := true, tagged := true, tag := true,
    tagHint := false, record := true, tuple := true, recordTuple := false }

/-- A call on the formatter: lowered by the default methods, then the implemented ones. -/
def call {ω : Type} (w : Writer ω) (env : Env) (t : Token) (s : St ω) : Res Unit (St ω) :=
  run (step w env) (Low.tok jsonCaps t) s

/-- The formatter seen by arbitrary code. A panic unwinds through that code; what it did before stays
in the writer. -/
def stepP {ω : Type} (w : Writer ω) (env : Env) (t : Token) (s : St ω × Bool) : (St ω × Bool) × Bool :=
  if s.2 then (s, false)
  else match call w env t s.1 with
    | .ok s' => ((s', false), true)
    | .err _ s' => ((s', false), false)
    | .panic => ((s.1, true), false)

/-- How a call of `stream_to_fmt_write` ends. -/
inductive Ended where
  | ok
  | invalidKey
  | generic
  | panic
deriving DecidableEq, Repr

/-- `stream_to_fmt_write`, `json/src/to_fmt.rs:28-35`, for any value: the result and the writer. -/
def toFmt {ω : Type} (w : Writer ω) (env : Env) (p : Prog) (o : ω) : Ended × ω :=
  let r := exec (stepP w env) p .base ({ out := o }, false)
  if r.1.2 then (.panic, r.1.1.out)
  else if r.2 then (.ok, r.1.1.out)
  else (if r.1.1.badKey then .invalidKey else .generic, r.1.1.out)

/-- `stream_to_string`, `json/src/to_string.rs:10-15`. -/
def toString (env : Env) (p : Prog) : Option Text :=
  match toFmt strWriter env p [] with
  | (.ok, o) => some o
  | _ => none

end Sval.Json
