import Verif.Core.Tree
import Verif.Core.Decimal
import Verif.Core.Float

set_option autoImplicit false

/-!
# `default_stream`: how optional `Stream` methods fall back on others

A `Stream` implements the required methods (`null`, `bool`, `text_begin`, `text_fragment_computed`,
`text_end`, `i64`, `f64`, `seq_begin`, `seq_value_begin`, `seq_value_end`, `seq_end`) and overrides
some of the others. `Caps` says which; methods that open, fill and close one kind of container are
overridden together. `Low.x caps args` is the list of calls that finally reach implemented methods
when the method `x` is called: either the call itself or the body of `default_stream::x`.
-/

namespace Sval

/-- Which optional methods a stream overrides. -/
structure Caps where
  u8 : Bool
  u16 : Bool
  u32 : Bool
  u64 : Bool
  u128 : Bool
  i8 : Bool
  i16 : Bool
  i32 : Bool
  i128 : Bool
  f32 : Bool
  textFragment : Bool
  /-- `binary_begin`, `binary_fragment_computed`, `binary_end` -/
  binary : Bool
  binaryFragment : Bool
  /-- `map_begin`, `map_key_begin`, `map_key_end`, `map_value_begin`, `map_value_end`, `map_end` -/
  map : Bool
  enum : Bool
  tagged : Bool
  tag : Bool
  tagHint : Bool
  record : Bool
  tuple : Bool
  recordTuple : Bool
deriving DecidableEq, Repr

/-- The fragments an integer's `Display` writes. -/
def intDecFrags (v : Int) : List Text :=
  if v < 0 then [['-'], natDec v.natAbs] else [natDec v.natAbs]

namespace Low
variable (c : Caps)

/-- `src/stream.rs:1152-1157` -/
def textFragment (s : Text) : List Token :=
  if c.textFragment then [.textFragment s] else [.textFragmentComputed s]

/-- `impl Value for str`, `src/data/text.rs:103-108`, reached through `stream.value(label)`. -/
def textValue (s : Text) : List Token :=
  [.textBegin (some (utf8Len s))] ++ textFragment c s ++ [.textEnd]

/-- The same through `stream.value_computed(..)`: `Computed::text_fragment`,
`src/stream.rs:808-811`. -/
def textValueComputed (s : Text) : List Token :=
  [.textBegin (some (utf8Len s)), .textFragmentComputed s, .textEnd]

/-- A label streamed as text: `src/stream.rs:1408-1412` and `1462-1466`. Static labels go through
`value`, others through `value_computed`. -/
def labelValue (l : Label) : List Token :=
  match l.backing with
  | .static => textValue c l.text
  | _ => textValueComputed l.text

/-- `src/stream.rs:1358-1370` -/
def taggedBegin (m : Meta) : List Token := if c.tagged then [.taggedBegin m] else []
/-- `src/stream.rs:1375-1387` -/
def taggedEnd (m : Meta) : List Token := if c.tagged then [.taggedEnd m] else []

/-- `stream_number`, `src/data/number.rs:59-66`, of an integer's `Display`
(`Display::stream`, `src/data/text.rs:45-51`). Integer `Display` goes through
`Formatter::pad_integral`, which writes the sign and the digits as separate fragments. -/
def number (v : Int) : List Token :=
  taggedBegin c { tag := some tags.NUMBER } ++
    ([.textBegin none] ++ (intDecFrags v).map .textFragmentComputed ++ [.textEnd]) ++
    taggedEnd c { tag := some tags.NUMBER }

/-- `src/stream.rs:1233-1239` -/
def u128 (v : Int) : List Token :=
  if c.u128 then [.int .u128 v]
  else if IntTy.i64.fits v then [.int .i64 v] else number c v
/-- `src/stream.rs:1226-1228` -/
def u64 (v : Int) : List Token := if c.u64 then [.int .u64 v] else u128 c v
/-- `src/stream.rs:1219-1221` -/
def u32 (v : Int) : List Token := if c.u32 then [.int .u32 v] else u64 c v
/-- `src/stream.rs:1212-1214` -/
def u16 (v : Int) : List Token := if c.u16 then [.int .u16 v] else u32 c v
/-- `src/stream.rs:1205-1207` -/
def u8 (v : Int) : List Token := if c.u8 then [.int .u8 v] else u16 c v
/-- `i64` is a required method. -/
def i64 (v : Int) : List Token := [.int .i64 v]
/-- `src/stream.rs:1258-1260` -/
def i32 (v : Int) : List Token := if c.i32 then [.int .i32 v] else i64 v
/-- `src/stream.rs:1251-1253` -/
def i16 (v : Int) : List Token := if c.i16 then [.int .i16 v] else i32 c v
/-- `src/stream.rs:1244-1246` -/
def i8 (v : Int) : List Token := if c.i8 then [.int .i8 v] else i16 c v
/-- `src/stream.rs:1265-1271` -/
def i128 (v : Int) : List Token :=
  if c.i128 then [.int .i128 v]
  else if IntTy.i64.fits v then [.int .i64 v] else number c v

/-- Dispatch on the width a number was streamed at. -/
def int : IntTy → Int → List Token
  | .u8 => u8 c | .u16 => u16 c | .u32 => u32 c | .u64 => u64 c | .u128 => u128 c
  | .i8 => i8 c | .i16 => i16 c | .i32 => i32 c | .i64 => i64 | .i128 => i128 c

/-- `src/stream.rs:1276-1278` -/
def f32 (b : UInt32) : List Token := if c.f32 then [.f32 b] else [.f64 (widen b)]

/-- `src/stream.rs:1162-1167` -/
def binaryBegin (n : Option Nat) : List Token := if c.binary then [.binaryBegin n] else [.seqBegin n]
/-- `src/stream.rs:1182-1193`: byte by byte -/
def binaryFragmentComputed (s : Bytes) : List Token :=
  if c.binary then [.binaryFragmentComputed s]
  else s.flatMap fun b => [.seqValueBegin] ++ u8 c b.toNat ++ [.seqValueEnd]
/-- `src/stream.rs:1172-1177` -/
def binaryFragment (s : Bytes) : List Token :=
  if c.binary && c.binaryFragment then [.binaryFragment s] else binaryFragmentComputed c s
/-- `src/stream.rs:1198-1200` -/
def binaryEnd : List Token := if c.binary then [.binaryEnd] else [.seqEnd]

/-- `src/stream.rs:1505-1514` -/
def tupleBegin (m : Meta) (n : Option Nat) : List Token :=
  if c.tuple then [.tupleBegin m n] else taggedBegin c m ++ [.seqBegin n]
/-- `src/stream.rs:1519-1528` -/
def tupleValueBegin (t : Option Tag) (i : Index) : List Token :=
  if c.tuple then [.tupleValueBegin t i] else [.seqValueBegin]
/-- `src/stream.rs:1533-1542` -/
def tupleValueEnd (t : Option Tag) (i : Index) : List Token :=
  if c.tuple then [.tupleValueEnd t i] else [.seqValueEnd]
/-- `src/stream.rs:1547-1555` -/
def tupleEnd (m : Meta) : List Token :=
  if c.tuple then [.tupleEnd m] else [.seqEnd] ++ taggedEnd c m

/-- `src/stream.rs:1283-1288` -/
def mapBegin (n : Option Nat) : List Token := if c.map then [.mapBegin n] else [.seqBegin n]
/-- `src/stream.rs:1293-1297` -/
def mapKeyBegin : List Token :=
  if c.map then [.mapKeyBegin]
  else [.seqValueBegin] ++ tupleBegin c {} (some 2) ++ tupleValueBegin c none ⟨0, none⟩
/-- `src/stream.rs:1302-1304` -/
def mapKeyEnd : List Token :=
  if c.map then [.mapKeyEnd] else tupleValueEnd c none ⟨0, none⟩
/-- `src/stream.rs:1309-1311` -/
def mapValueBegin : List Token :=
  if c.map then [.mapValueBegin] else tupleValueBegin c none ⟨1, none⟩
/-- `src/stream.rs:1316-1320` -/
def mapValueEnd : List Token :=
  if c.map then [.mapValueEnd]
  else tupleValueEnd c none ⟨1, none⟩ ++ tupleEnd c {} ++ [.seqValueEnd]
/-- `src/stream.rs:1325-1327` -/
def mapEnd : List Token := if c.map then [.mapEnd] else [.seqEnd]

/-- `src/stream.rs:1332-1339` -/
def enumBegin (m : Meta) : List Token := if c.enum then [.enumBegin m] else taggedBegin c m
/-- `src/stream.rs:1344-1351` -/
def enumEnd (m : Meta) : List Token := if c.enum then [.enumEnd m] else taggedEnd c m

/-- `src/stream.rs:1394-1420` -/
def tag (m : Meta) : List Token :=
  if c.tag then [.tag m]
  else
    taggedBegin c m ++
      (if m.tag = some tags.RUST_OPTION_NONE then [.null]
       else match m.label with
        | some l => labelValue c l
        | none => [.null]) ++
      taggedEnd c m

/-- `src/stream.rs:1427-1432` -/
def tagHint (t : Tag) : List Token := if c.tagHint then [.tagHint t] else []

/-- `src/stream.rs:1439-1448` -/
def recordBegin (m : Meta) (n : Option Nat) : List Token :=
  if c.record then [.recordBegin m n] else taggedBegin c m ++ mapBegin c n
/-- `src/stream.rs:1453-1471` -/
def recordValueBegin (t : Option Tag) (l : Label) : List Token :=
  if c.record then [.recordValueBegin t l]
  else mapKeyBegin c ++ labelValue c l ++ mapKeyEnd c ++ mapValueBegin c
/-- `src/stream.rs:1476-1485` -/
def recordValueEnd (t : Option Tag) (l : Label) : List Token :=
  if c.record then [.recordValueEnd t l] else mapValueEnd c
/-- `src/stream.rs:1490-1498` -/
def recordEnd (m : Meta) : List Token :=
  if c.record then [.recordEnd m] else mapEnd c ++ taggedEnd c m

/-- `src/stream.rs:1560-1568` -/
def recordTupleBegin (m : Meta) (n : Option Nat) : List Token :=
  if c.recordTuple then [.recordTupleBegin m n] else recordBegin c m n
/-- `src/stream.rs:1573-1582` -/
def recordTupleValueBegin (t : Option Tag) (l : Label) (i : Index) : List Token :=
  if c.recordTuple then [.recordTupleValueBegin t l i] else recordValueBegin c t l
/-- `src/stream.rs:1587-1596` -/
def recordTupleValueEnd (t : Option Tag) (l : Label) (i : Index) : List Token :=
  if c.recordTuple then [.recordTupleValueEnd t l i] else recordValueEnd c t l
/-- `src/stream.rs:1601-1608` -/
def recordTupleEnd (m : Meta) : List Token :=
  if c.recordTuple then [.recordTupleEnd m] else recordEnd c m

/-- What reaches implemented methods for any one call. -/
def tok : Token → List Token
  | .null => [.null]
  | .bool b => [.bool b]
  | .int t v => int c t v
  | .f32 b => f32 c b
  | .f64 b => [.f64 b]
  | .textBegin n => [.textBegin n]
  | .textFragment s => textFragment c s
  | .textFragmentComputed s => [.textFragmentComputed s]
  | .textEnd => [.textEnd]
  | .binaryBegin n => binaryBegin c n
  | .binaryFragment s => binaryFragment c s
  | .binaryFragmentComputed s => binaryFragmentComputed c s
  | .binaryEnd => binaryEnd c
  | .mapBegin n => mapBegin c n
  | .mapKeyBegin => mapKeyBegin c
  | .mapKeyEnd => mapKeyEnd c
  | .mapValueBegin => mapValueBegin c
  | .mapValueEnd => mapValueEnd c
  | .mapEnd => mapEnd c
  | .seqBegin n => [.seqBegin n]
  | .seqValueBegin => [.seqValueBegin]
  | .seqValueEnd => [.seqValueEnd]
  | .seqEnd => [.seqEnd]
  | .enumBegin m => enumBegin c m
  | .enumEnd m => enumEnd c m
  | .taggedBegin m => taggedBegin c m
  | .taggedEnd m => taggedEnd c m
  | .tag m => tag c m
  | .tagHint t => tagHint c t
  | .recordBegin m n => recordBegin c m n
  | .recordValueBegin t l => recordValueBegin c t l
  | .recordValueEnd t l => recordValueEnd c t l
  | .recordEnd m => recordEnd c m
  | .tupleBegin m n => tupleBegin c m n
  | .tupleValueBegin t i => tupleValueBegin c t i
  | .tupleValueEnd t i => tupleValueEnd c t i
  | .tupleEnd m => tupleEnd c m
  | .recordTupleBegin m n => recordTupleBegin c m n
  | .recordTupleValueBegin t l i => recordTupleValueBegin c t l i
  | .recordTupleValueEnd t l i => recordTupleValueEnd c t l i
  | .recordTupleEnd m => recordTupleEnd c m

end Low

/-- Everything that reaches implemented methods for a sequence of calls. -/
def lower (c : Caps) (ts : List Token) : List Token := ts.flatMap (Low.tok c)

/-- Does the stream implement the method of this call? -/
def Caps.native (c : Caps) : Token → Bool
  | .null | .bool _ | .f64 _ | .textBegin _ | .textFragmentComputed _ | .textEnd
  | .seqBegin _ | .seqValueBegin | .seqValueEnd | .seqEnd => true
  | .int .u8 _ => c.u8
  | .int .u16 _ => c.u16
  | .int .u32 _ => c.u32
  | .int .u64 _ => c.u64
  | .int .u128 _ => c.u128
  | .int .i8 _ => c.i8
  | .int .i16 _ => c.i16
  | .int .i32 _ => c.i32
  | .int .i64 _ => true
  | .int .i128 _ => c.i128
  | .f32 _ => c.f32
  | .textFragment _ => c.textFragment
  | .binaryBegin _ | .binaryFragmentComputed _ | .binaryEnd => c.binary
  | .binaryFragment _ => c.binary && c.binaryFragment
  | .mapBegin _ | .mapKeyBegin | .mapKeyEnd | .mapValueBegin | .mapValueEnd | .mapEnd => c.map
  | .enumBegin _ | .enumEnd _ => c.enum
  | .taggedBegin _ | .taggedEnd _ => c.tagged
  | .tag _ => c.tag
  | .tagHint _ => c.tagHint
  | .recordBegin _ _ | .recordValueBegin _ _ | .recordValueEnd _ _ | .recordEnd _ => c.record
  | .tupleBegin _ _ | .tupleValueBegin _ _ | .tupleValueEnd _ _ | .tupleEnd _ => c.tuple
  | .recordTupleBegin _ _ | .recordTupleValueBegin _ _ _ | .recordTupleValueEnd _ _ _
  | .recordTupleEnd _ => c.recordTuple

/-! ## Specification: the data a value carries -/

/-- Data, with no trace of how it was streamed. -/
inductive D where
  | null
  | bool (b : Bool)
  | num (v : Int)
  | float (bits : UInt64)
  | text (s : Text)
  | seq (xs : List D)

mutual
/-- The data of a value tree, for a receiver that knows nothing but the required methods. -/
def den : V → D
  | .null => .null
  | .bool b => .bool b
  | .int _ v => if IntTy.i64.fits v then .num v else .text (intDec v)
  | .f32 b => .float (widen b)
  | .f64 b => .float b
  | .text _ fs => .text (fragsText fs)
  | .binary _ fs => .seq ((fragsBytes fs).map fun b => .num b.toNat)
  | .seq _ xs => .seq (denSeq xs)
  | .map _ kvs => .seq (denMap kvs)
  | .tag m =>
    if m.tag = some tags.RUST_OPTION_NONE then .null
    else match m.label with
      | some l => .text l.text
      | none => .null
  | .tagged _ v => den v
  | .enum _ v => den v
  | .record _ _ fs => .seq (denRec fs)
  | .tuple _ _ fs => .seq (denTup fs)
  | .recordTuple _ _ fs => .seq (denRT fs)
  | .hint _ v => den v
def denSeq : List V → List D
  | [] => []
  | x :: xs => den x :: denSeq xs
def denMap : List (V × V) → List D
  | [] => []
  | (k, v) :: r => .seq [den k, den v] :: denMap r
def denRec : List (Option Tag × Label × V) → List D
  | [] => []
  | (_, l, v) :: r => .seq [.text l.text, den v] :: denRec r
def denTup : List (Option Tag × Index × V) → List D
  | [] => []
  | (_, _, v) :: r => den v :: denTup r
def denRT : List (Option Tag × Label × Index × V) → List D
  | [] => []
  | (_, l, _, v) :: r => .seq [.text l.text, den v] :: denRT r
end

end Sval
