import Verif.Core.Prog
import Verif.Core.Data
import Verif.Core.Lower
import Verif.Core.Guard
import Verif.Buffer.Model

set_option autoImplicit false

/-!
# `sval_flatten`: flattening a value onto an open container

`flatten/src/{flattener,index,label,record,tuple,seq,record_tuple,map}.rs`.

The stream flattened onto is any state machine `S` over calls, which may fail or panic. Arithmetic on offsets and on the
depth is checked for overflow or not (`Cfg.checks`). `isize` has 64 bits. `itoa` is modelled by
`intDec`; `ryu::Buffer::format` is a parameter.
-/

namespace Sval.Flatten

/-- Which `flatten_to_*` function. -/
inductive Kind where
  | record | tuple | seq | recordTuple | map
deriving DecidableEq, Repr

/-- What is fixed during a run: the function called, the `alloc` feature, `ryu::Buffer::format`, and whether the build
checks arithmetic for overflow (`overflow-checks`, on in a debug build). -/
structure Cfg where
  kind : Kind
  alloc : Bool
  ryu : UInt64 → Text
  checks : Bool := true

/-! ## Indexes: `flatten/src/index.rs` -/

/-- Addition of `isize`: an overflow is a panic (`none`) if it is checked for, and wraps around if not. -/
def addIsize (checks : Bool) (a b : Int) : Option Int :=
  if -2 ^ 63 ≤ a + b ∧ a + b ≤ 2 ^ 63 - 1 then some (a + b)
  else if checks then none else some (asInt true 64 (a + b))

/-- `Index::to_isize`: `src/data.rs:447-453` -/
def toIsize (i : Index) : Option Int := i.toTy 64 .isize

/-- `IndexAllocator`: `flatten/src/index.rs:4-7` -/
structure Alloc where
  initial : Int
  current : Int
deriving DecidableEq, Repr

/-- An implicit index: `Index::new_isize(i).with_tag(&tags::VALUE_OFFSET)`. -/
def offset (i : Int) : Index := (Index.ofInt i).withTag tags.VALUE_OFFSET

/-- `next_begin`: `flatten/src/index.rs:17-32` -/
def Alloc.nextBegin (checks : Bool) (a : Alloc) : Option Index → Option Index
  | some i =>
    match i.tag, toIsize i with
    | some t, some n =>
      if t = tags.VALUE_OFFSET then (addIsize checks n a.initial).map offset else some i
    | _, _ => some i
  | none => some (offset a.current)

/-- `next_end`: `flatten/src/index.rs:34-39` -/
def Alloc.nextEnd (checks : Bool) (a : Alloc) (i : Option Index) : Option (Index × Alloc) :=
  match a.nextBegin checks i with
  | none => none
  | some ix =>
    match addIsize checks ((toIsize ix).getD a.current) 1 with
    | none => none
    | some c => some (ix, { a with current := c })

/-! ## Labels: `flatten/src/label.rs` -/

/-- `LabelBuf`: `flatten/src/label.rs:16-23` -/
inductive LabelBuf where
  | empty
  | text (b : Buf.Cow Char)
  | i128 (v : Int)
  | u128 (v : Int)
  | f64 (bits : UInt64)
deriving DecidableEq, Repr

namespace LabelBuf

/-- `text_buf`: `flatten/src/label.rs:97-109` -/
def textBuf : LabelBuf → Buf.Cow Char
  | text b => b
  | _ => Buf.Cow.new

/-- The result of a push onto `text_buf()`, which has replaced `b` even when the push fails. -/
def pushed (b : LabelBuf) : Except Buf.Err (Buf.Cow Char) → Res Unit LabelBuf
  | .ok c => .ok (text c)
  | .error _ => .err () (text b.textBuf)

/-- `text_fragment`: `flatten/src/label.rs:85-89` -/
def textFragment (alloc : Bool) (s : Text) (b : LabelBuf) : Res Unit LabelBuf :=
  b.pushed (b.textBuf.push alloc s)

/-- `text_fragment_computed`: `flatten/src/label.rs:91-95` -/
def textFragmentComputed (alloc : Bool) (s : Text) (b : LabelBuf) : Res Unit LabelBuf :=
  b.pushed (b.textBuf.pushComputed alloc s)

/-- `label`: `flatten/src/label.rs:66-72` -/
def label (alloc : Bool) (l : Label) (b : LabelBuf) : Res Unit LabelBuf :=
  match l.asStaticStr with
  | some s => b.textFragment alloc s
  | none => b.textFragmentComputed alloc l.text

/-- `write!(buf, "{}", index)`: each piece `Display` writes is pushed onto the text. -/
def writeAll (alloc : Bool) : List Text → LabelBuf → Res Unit LabelBuf
  | [], b => .ok (text b.textBuf)
  | s :: r, b => (b.textFragmentComputed alloc s).bind (writeAll alloc r)

/-- `index`: `flatten/src/label.rs:74-83` -/
def index (alloc : Bool) (i : Index) (b : LabelBuf) : Res Unit LabelBuf :=
  match toIsize i with
  | some v => .ok (i128 v)
  | none =>
    match i.toTy 64 .usize with
    | some v => .ok (u128 v)
    | none => writeAll alloc (intDecFrags i.val) b

/-- The text of the label `with_label` builds: `flatten/src/label.rs:111-131`. -/
def content (ryu : UInt64 → Text) : LabelBuf → Text
  | empty => []
  | text b => b.content
  | i128 v => intDec v
  | u128 v => intDec v
  | f64 b => ryu b

/-- The overridden methods of `impl Stream for LabelBuf`: `flatten/src/label.rs:140-215`. Other calls
never reach this: they are lowered first. -/
def step (alloc : Bool) : Token → LabelBuf → Res Unit LabelBuf
  | .null, b => b.textFragment alloc (t! "null")
  | .bool v, b => b.textFragment alloc (if v then t! "true" else t! "false")
  | .textFragment s, b => b.textFragment alloc s
  | .textFragmentComputed s, b => b.textFragmentComputed alloc s
  | .int .u64 v, _ => .ok (u128 v)
  | .int .u128 v, _ => .ok (u128 v)
  | .int .i64 v, _ => .ok (i128 v)
  | .int .i128 v, _ => .ok (i128 v)
  | .f64 v, _ => .ok (f64 v)
  | .tag m, b =>
    match m.label, m.index with
    | some l, _ => b.label alloc l
    | none, some i => b.index alloc i
    | none, none => b.textFragment alloc (t! "null")
  | _, b => .ok b

/-- The methods `impl Stream for LabelBuf` overrides. -/
def caps : Caps where
  u8 := false
  u16 := false
  u32 := false
  u64 := true
  u128 := true
  i8 := false
  i16 := false
  i32 := false
  i128 := true
  f32 := false
  textFragment := true
  binary := false
  binaryFragment := false
  map := false
  enum := false
  tagged := false
  tag := true
  tagHint := false
  record := false
  tuple := false
  recordTuple := false

/-- Any call on a `LabelBuf`. -/
def call (alloc : Bool) (t : Token) (b : LabelBuf) : Res Unit LabelBuf :=
  run (step alloc) (Low.tok caps t) b

end LabelBuf

/-! ## The flattener: `flatten/src/flattener.rs` -/

/-- The fields of `RecordFlatten`, `TupleFlatten`, `SeqFlatten`, `RecordTupleFlatten` and `MapFlatten`
besides the stream: the label buffer of the first and fourth, `seen_key` of the last
(`flatten/src/record.rs:33-36`, `flatten/src/record_tuple.rs:33-36`, `flatten/src/map.rs:25-27,61-64`). -/
structure Side where
  label : LabelBuf := .empty
  seen : Bool := false
deriving DecidableEq, Repr

/-- `FlattenerState`: `flatten/src/flattener.rs:13-20`, and the fields of the target. -/
structure Ctl where
  side : Side := {}
  alloc : Alloc
  key : LabelBuf := .empty
  depth : Int := 0
  inEnum : Bool := false
  inKey : Bool := false
deriving DecidableEq, Repr

/-- A flattener and the stream it writes to. -/
structure St (σ : Type) where
  ctl : Ctl
  s : σ

section
variable {σ : Type} (cfg : Cfg) (S : Token → σ → Res Unit σ)

/-- A call on the underlying stream. -/
def lift (t : Token) (st : St σ) : Res Unit (St σ) :=
  match S t st.s with
  | .ok s => .ok { st with s }
  | .err e s => .err e { st with s }
  | .panic => .panic

/-- What `PassThru` does to `seen_key`: `flatten/src/map.rs:182-194`. -/
def seenAfter (t : Token) (b : Bool) : Bool :=
  match t with
  | .mapKeyEnd => true
  | .mapValueBegin => false
  | _ => b

/-- A call on `Flatten::stream()`. Only `MapFlatten` puts a `PassThru` around the stream; it forwards
every call: `flatten/src/map.rs:81-360`. -/
def toStream (t : Token) (st : St σ) : Res Unit (St σ) :=
  match cfg.kind with
  | .map => lift S t { st with ctl.side.seen := seenAfter t st.ctl.side.seen }
  | _ => lift S t st

/-- A call on `Flatten::label_stream()`. `Empty`, `flatten/src/label.rs:217-268`, ignores every call:
each default method ends in methods that do nothing. -/
def toLabel (t : Token) (st : St σ) : Res Unit (St σ) :=
  match cfg.kind with
  | .record | .recordTuple =>
    match LabelBuf.call cfg.alloc t st.ctl.side.label with
    | .ok l => .ok { st with ctl.side.label := l }
    | .err e l => .err e { st with ctl.side.label := l }
    | .panic => .panic
  | .tuple | .seq => .ok st
  | .map => toStream cfg S t st

/-- `LabelStream::take`: `flatten/src/label.rs:134-138,219-223`, `flatten/src/map.rs:75-79`. -/
def takeLabel (st : St σ) : LabelBuf × St σ :=
  match cfg.kind with
  | .record | .recordTuple => (st.ctl.side.label, { st with ctl.side.label := .empty })
  | _ => (.empty, st)

/-- Several calls on `Flatten::stream()`. -/
def toStreamAll : List Token → St σ → Res Unit (St σ)
  | [], st => .ok st
  | t :: r, st => (toStream cfg S t st).bind (toStreamAll r)

/-- The calls of `value(label)` for a static label, of `value_computed(label.as_str())` otherwise:
`impl Value for str`, `src/data/text.rs:103-108`. A stream that overrides `value` is assumed to behave
like the default. -/
def labelText (l : Label) : List Token :=
  [.textBegin (some (utf8Len l.text)),
   (match l.asStaticStr with | some s => .textFragment s | none => .textFragmentComputed l.text),
   .textEnd]

/-- `flattened_value_begin`: `flatten/src/record.rs:50-57`, `flatten/src/tuple.rs:50-57`,
`flatten/src/seq.rs:46-48`, `flatten/src/record_tuple.rs:50-57`, `flatten/src/map.rs:41-54`. -/
def flatBegin (t : Option Tag) (l : Label) (i : Index) (st : St σ) : Res Unit (St σ) :=
  match cfg.kind with
  | .record => toStream cfg S (.recordValueBegin t l) st
  | .tuple => toStream cfg S (.tupleValueBegin t i) st
  | .seq => toStream cfg S .seqValueBegin st
  | .recordTuple => toStream cfg S (.recordTupleValueBegin t l i) st
  | .map =>
    (if st.ctl.side.seen then .ok st
     else toStreamAll cfg S ([.mapKeyBegin] ++ labelText l ++ [.mapKeyEnd]) st).bind
      (toStream cfg S .mapValueBegin)

/-- `flattened_value_end`: `flatten/src/record.rs:59-61`, `flatten/src/tuple.rs:59-61`,
`flatten/src/seq.rs:50-52`, `flatten/src/record_tuple.rs:59-66`, `flatten/src/map.rs:56-58`. -/
def flatEnd (t : Option Tag) (l : Label) (i : Index) (st : St σ) : Res Unit (St σ) :=
  match cfg.kind with
  | .record => toStream cfg S (.recordValueEnd t l) st
  | .tuple => toStream cfg S (.tupleValueEnd t i) st
  | .seq => toStream cfg S .seqValueEnd st
  | .recordTuple => toStream cfg S (.recordTupleValueEnd t l i) st
  | .map => toStream cfg S .mapValueEnd st

/-- A method of the flattener. -/
abbrev Act (σ : Type) := St σ → Res Unit (St σ)

/-- `value_at_root`: `flatten/src/flattener.rs:75-88` -/
def valueAtRoot (atRoot buffer passthru : Act σ) (st : St σ) : Res Unit (St σ) :=
  if st.ctl.depth = 0 then atRoot st
  else if st.ctl.inKey then buffer st
  else passthru st

/-- `value`: `flatten/src/flattener.rs:65-72` -/
def value (t : Token) : Act σ := valueAtRoot .ok (toLabel cfg S t) (toStream cfg S t)

/-- `flattenable_begin`: `flatten/src/flattener.rs:91-106` -/
def flattenableBegin (buffer flatten passthru : Act σ) (st : St σ) : Res Unit (St σ) :=
  let st := { st with ctl.depth := st.ctl.depth + 1 }
  if st.ctl.inKey then buffer st
  else if st.ctl.depth = 1 then flatten st
  else passthru st

/-- `flattenable_value`: `flatten/src/flattener.rs:109-122` -/
def flattenableValue (buffer flatten passthru : Act σ) (st : St σ) : Res Unit (St σ) :=
  if st.ctl.depth = 1 then flatten st
  else if st.ctl.inKey then buffer st
  else passthru st

/-- `self.state.depth -= 1` (`flatten/src/flattener.rs:139`): below zero a panic if overflow is checked for. If not it
goes round to `usize::MAX`, written `-1` here. -/
def leave (st : St σ) : Res Unit (St σ) :=
  if cfg.checks ∧ st.ctl.depth = 0 then .panic else .ok { st with ctl.depth := st.ctl.depth - 1 }

/-- `flattenable_end`: `flatten/src/flattener.rs:125-143` -/
def flattenableEnd (buffer flatten passthru : Act σ) (st : St σ) : Res Unit (St σ) :=
  (if st.ctl.inKey then buffer st
   else if st.ctl.depth = 1 then flatten st
   else passthru st).bind (leave cfg)

/-- `with_index_to_label`: `flatten/src/flattener.rs:684-695` -/
def withIndexLabel (i : Index) (l : Option Label) (f : Label → Act σ) (st : St σ) : Res Unit (St σ) :=
  match l with
  | some l => f l st
  | none =>
    match LabelBuf.index cfg.alloc i .empty with
    | .ok b => f (Label.newComputed (b.content cfg.ryu)) st
    | _ => .err () st

/-- `let index = &state.index_alloc.next_begin(..)` -/
def withBegin (i : Option Index) (f : Index → Act σ) (st : St σ) : Res Unit (St σ) :=
  match st.ctl.alloc.nextBegin cfg.checks i with
  | some ix => f ix st
  | none => .panic

/-- `let index = &state.index_alloc.next_end(..)` -/
def withEnd (i : Option Index) (f : Index → Act σ) (st : St σ) : Res Unit (St σ) :=
  match st.ctl.alloc.nextEnd cfg.checks i with
  | some (ix, a) => f ix { st with ctl.alloc := a }
  | none => .panic

/-- `state.key_buf.with_label(..)` -/
def withKey (f : Label → Act σ) (st : St σ) : Res Unit (St σ) :=
  f (Label.newComputed (st.ctl.key.content cfg.ryu)) st

/-- A container: `flattenable_begin` and `flattenable_end` with nothing to flatten. -/
def opens (t : Token) : Act σ := flattenableBegin (toLabel cfg S t) .ok (toStream cfg S t)
def closes (t : Token) : Act σ := flattenableEnd cfg (toLabel cfg S t) .ok (toStream cfg S t)

/-- The closure of `map_value_begin`: `flatten/src/flattener.rs:313-320` -/
def mapValueBegin (st : St σ) : Res Unit (St σ) :=
  let (k, st) := takeLabel cfg st
  withKey cfg (fun l => withBegin cfg none fun i => flatBegin cfg S none l i) { st with ctl.key := k }

/-- `impl Stream for Flattener`: `flatten/src/flattener.rs:146-681`. -/
def call (t : Token) : Act σ :=
  match t with
  -- 146-272
  | .null | .bool _ | .int _ _ | .f32 _ | .f64 _
  | .textBegin _ | .textFragment _ | .textFragmentComputed _ | .textEnd
  | .binaryBegin _ | .binaryFragment _ | .binaryFragmentComputed _ | .binaryEnd => value cfg S t
  -- 488-510
  | .tag _ | .tagHint _ => value cfg S t
  -- 274-281
  | .mapBegin _ => opens cfg S t
  -- 283-294
  | .mapKeyBegin =>
    flattenableValue (toLabel cfg S t)
      (fun st => (toLabel cfg S t st).bind fun st => .ok { st with ctl.inKey := true })
      (toStream cfg S t)
  -- 296-307: passes `map_key_begin` through
  | .mapKeyEnd =>
    flattenableValue (toLabel cfg S t)
      (fun st => (toLabel cfg S t st).bind fun st => .ok { st with ctl.inKey := false })
      (toStream cfg S .mapKeyBegin)
  -- 309-323
  | .mapValueBegin => flattenableValue (toLabel cfg S t) (mapValueBegin cfg S) (toStream cfg S t)
  -- 325-338
  | .mapValueEnd =>
    flattenableValue (toLabel cfg S t)
      (withKey cfg fun l => withEnd cfg none fun i => flatEnd cfg S none l i)
      (toStream cfg S t)
  -- 340-347
  | .mapEnd => closes cfg S t
  -- 349-356
  | .seqBegin _ => opens cfg S t
  -- 358-371
  | .seqValueBegin =>
    flattenableValue (toLabel cfg S t)
      (withBegin cfg none fun i => withIndexLabel cfg i none fun l => flatBegin cfg S none l i)
      (toStream cfg S t)
  -- 373-386
  | .seqValueEnd =>
    flattenableValue (toLabel cfg S t)
      (withEnd cfg none fun i => withIndexLabel cfg i none fun l => flatEnd cfg S none l i)
      (toStream cfg S t)
  -- 388-395
  | .seqEnd => closes cfg S t
  -- 397-412
  | .enumBegin _ =>
    valueAtRoot (fun st => .ok { st with ctl.inEnum := true }) (toLabel cfg S t) (toStream cfg S t)
  -- 414-426
  | .enumEnd _ => valueAtRoot .ok (toLabel cfg S t) (toStream cfg S t)
  -- 428-457
  | .taggedBegin m => fun st =>
    if st.ctl.inEnum then
      flattenableBegin (toLabel cfg S t)
        (withBegin cfg m.index fun i => withIndexLabel cfg i m.label fun l => flatBegin cfg S none l i)
        (toStream cfg S t) st
    else if st.ctl.depth = 0 then .ok st
    else value cfg S t st
  -- 459-486
  | .taggedEnd m => fun st =>
    if st.ctl.inEnum then
      flattenableEnd cfg (toLabel cfg S t)
        (withEnd cfg m.index fun i => withIndexLabel cfg i m.label fun l => flatEnd cfg S none l i)
        (toStream cfg S t) st
    else if st.ctl.depth = 0 then .ok st
    else value cfg S t st
  -- 512-525
  | .recordBegin _ _ => opens cfg S t
  -- 527-536
  | .recordValueBegin tg l =>
    flattenableValue (toLabel cfg S t) (withBegin cfg none fun i => flatBegin cfg S tg l i) (toStream cfg S t)
  -- 538-547
  | .recordValueEnd tg l =>
    flattenableValue (toLabel cfg S t) (withEnd cfg none fun i => flatEnd cfg S tg l i) (toStream cfg S t)
  -- 549-561
  | .recordEnd _ => closes cfg S t
  -- 563-576
  | .tupleBegin _ _ => opens cfg S t
  -- 578-591
  | .tupleValueBegin tg i =>
    flattenableValue (toLabel cfg S t)
      (withBegin cfg (some i) fun i => withIndexLabel cfg i none fun l => flatBegin cfg S tg l i)
      (toStream cfg S t)
  -- 593-606
  | .tupleValueEnd tg i =>
    flattenableValue (toLabel cfg S t)
      (withEnd cfg (some i) fun i => withIndexLabel cfg i none fun l => flatEnd cfg S tg l i)
      (toStream cfg S t)
  -- 608-620
  | .tupleEnd _ => closes cfg S t
  -- 622-635
  | .recordTupleBegin _ _ => opens cfg S t
  -- 637-651
  | .recordTupleValueBegin tg l i =>
    flattenableValue (toLabel cfg S t) (withBegin cfg (some i) fun i => flatBegin cfg S tg l i) (toStream cfg S t)
  -- 653-667
  | .recordTupleValueEnd tg l i =>
    flattenableValue (toLabel cfg S t) (withEnd cfg (some i) fun i => flatEnd cfg S tg l i) (toStream cfg S t)
  -- 669-681
  | .recordTupleEnd _ => closes cfg S t

/-- `Flattener::begin`: `flatten/src/flattener.rs:46-57` -/
def begin (off : Int) (s : σ) : St σ := { ctl := { alloc := { initial := off, current := off } }, s }

/-- `flatten_to_record`, `flatten_to_tuple`, `flatten_to_seq`, `flatten_to_record_tuple` and
`flatten_to_map` (`flatten/src/record.rs:13-31` and the like), on the value whose `stream` is `p`: the
stream afterwards and the new offset, or an error. `flatten_to_seq` starts at 0 and returns nothing. -/
def flattenTo (p : Prog) (off : Int) (s : σ) : Outcome (σ × Int) :=
  match drive (call cfg S) p (begin off s) with
  | .done ok st => .done ok (st.s, st.ctl.alloc.current)
  | .panicked => .panicked

end

end Sval.Flatten
