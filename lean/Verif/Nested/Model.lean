import Verif.Core.Guard
import Verif.Buffer.Model

set_option autoImplicit false

/-!
# `sval_nested`

`nested/src/flat.rs` and `nested/src/flat_enum.rs`: the adaptor that turns a flat stream into calls on a
recursive one, with the `alloc` feature.

A recursive stream is any state machine over `Cb`, one constructor per method of `Stream`, `StreamSeq`,
`StreamMap`, `StreamTuple`, `StreamRecord` and `StreamEnum` of `nested/src/lib.rs`. Its associated types make
sure methods are only called in a sensible order; the model does not need that. The values that the
methods are given are arbitrary code, `Prog`. `nested` is split into its begin and its end: it is assumed to
call its closure once and to pass on its error.

`State::X(None)`, a state whose stream was taken, is not modelled: every method that takes the stream
replaces the state before it returns (`try_catch`, `nested/src/flat.rs:812-824`, does if it failed).
-/

namespace Sval.Nested

/-- A value handed to a method of a recursive stream, by `value` or by `value_computed`. -/
structure Arg where
  borrowed : Bool
  prog : Prog

/-- A method of a recursive stream: `nested/src/lib.rs:66-687`. -/
inductive Cb where
  /-- `null`, `bool`, integers and floats -/
  | scalar (t : Token)
  /-- `text`, `text_computed` -/
  | text (borrowed : Bool) (s : Text)
  /-- `binary`, `binary_computed` -/
  | binary (borrowed : Bool) (s : Bytes)
  | tag (m : Meta)
  /-- `value`, `value_computed` -/
  | value (a : Arg)
  | tagged (m : Meta) (a : Arg)
  | seqBegin (n : Option Nat)
  | seqValue (a : Arg)
  | seqEnd
  | mapBegin (n : Option Nat)
  | mapKey (a : Arg)
  | mapValue (a : Arg)
  | mapEnd
  | tupleBegin (m : Meta) (n : Option Nat)
  | tupleValue (t : Option Tag) (i : Index) (a : Arg)
  | tupleEnd
  | recordBegin (m : Meta) (n : Option Nat)
  | recordValue (t : Option Tag) (l : Label) (a : Arg)
  | recordEnd
  | enumBegin (m : Meta)
  /-- `StreamEnum::tag` and so on -/
  | variantTag (m : Meta)
  | variantTagged (m : Meta) (a : Arg)
  | variantTupleBegin (m : Meta) (n : Option Nat)
  | variantRecordBegin (m : Meta) (n : Option Nat)
  | nestedBegin (m : Meta)
  | nestedEnd (m : Meta)

/-- What code that uses `?` does: it makes calls, and hands over other values with `value` and
`value_computed`. -/
inductive Item where
  | tok (t : Token)
  | val (q : List Item)
  | comp (q : List Item)

mutual
/-- Such code as a program. -/
def Item.prog : Item → Prog → Prog
  | .tok t, k => .call t fun
    | true => k
    | false => .ret false
  | .val q, k => .value (Nested.prog q) fun
    | true => k
    | false => .ret false
  | .comp q, k => .valueComputed (Nested.prog q) fun
    | true => k
    | false => .ret false
def prog : List Item → Prog
  | [] => .ret true
  | i :: q => i.prog (prog q)
end

/-- The calls a `ValueBuf` replays, with those that it makes through `value` and `value_computed`:
text and bytes, by `impl ValueRef for TextBuf` and `BinaryBuf`, `buffer/src/fragments.rs:254-267` and
490-497. -/
def regroup : List Token → List Item
  | .textBegin n :: .textFragment f :: .textEnd :: r =>
    .val [.tok (.textBegin n), .tok (.textFragment f), .tok .textEnd] :: regroup r
  | .binaryBegin n :: .binaryFragment f :: .binaryEnd :: r =>
    .val [.tok (.binaryBegin n), .tok (.binaryFragment f), .tok .binaryEnd] :: regroup r
  | .binaryBegin n :: .binaryFragmentComputed f :: .binaryEnd :: r =>
    .comp [.tok (.binaryBegin n), .tok (.binaryFragment f), .tok .binaryEnd] :: regroup r
  | t :: r => .tok t :: regroup r
  | [] => []

/-- `Buffered`: `nested/src/flat.rs:51-56` -/
inductive Buffered where
  | text (b : Buf.Cow Char)
  | binary (b : Buf.Cow UInt8)
  | value (b : Buf.St)

/-- `State`: `nested/src/flat.rs:23-33`, without the streams. The queue of `FlatStreamEnum`,
`nested/src/flat_enum.rs:5-15`, is in `enum` and `vtagged`; `vtuple` and `vrecord` have none left. -/
inductive Mode where
  | any
  | seq
  | map (isKey : Bool)
  | tagged (m : Meta)
  | tuple (field : Option (Option Tag × Index))
  | record (field : Option (Option Tag × Label))
  | enum (q : List Meta)
  | vtagged (m : Meta) (q : List Meta)
  | vtuple (field : Option (Option Tag × Index))
  | vrecord (field : Option (Option Tag × Label))
  | done (ok : Bool)
deriving DecidableEq

/-- `FlatStream`: `nested/src/flat.rs:9-12`, with the state of the recursive stream. -/
structure St (σ : Type) where
  buf : Option Buffered := none
  mode : Mode := .any
  s : σ

/-- `owned_label_ref`: `nested/src/lib.rs:906-923` -/
def ownMeta (m : Meta) : Meta := { m with label := m.label.map Label.toOwned }

/-- `label.cloned()`, given to methods of the recursive stream: `nested/src/flat.rs:223-231, 331-335, 424-440, 499-515` -/
def cloneMeta (m : Meta) : Meta := { m with label := m.label.map Label.clone }

section
variable {σ : Type} (C : Cb → σ → Res Unit σ)

/-- A method of the flat stream. -/
abbrev Act (σ : Type) := St σ → Res Unit (St σ)

/-- Call a method of the recursive stream. -/
def cb (c : Cb) : Act σ := fun st =>
  match C c st.s with
  | .ok s => .ok { st with s }
  | .err e s => .err e { st with s }
  | .panic => .panic

/-- `try_catch`: `nested/src/flat.rs:812-824` -/
def tryCatch (a : Act σ) : Act σ := fun st =>
  match a st with
  | .err e st => .err e { st with mode := .done false }
  | r => r

/-- `self.state = ..` -/
def toMode (m : Mode) : Act σ := fun st => .ok { st with mode := m }

/-- `value_or_recurse`: `nested/src/flat_enum.rs:46-69` -/
def nest : List Meta → Act σ → Act σ
  | [], a => a
  | m :: q, a => fun st => ((cb C (.nestedBegin m) st).bind (nest q a)).bind (cb C (.nestedEnd m))

/-- `State::value_with`: `nested/src/flat.rs:865-1020`, and setting the state to `Done` when it has
given a result: 1038-1040. -/
def put (any : Cb) (a : Arg) : Act σ := fun st =>
  match st.mode with
  | .any => (cb C any st).bind (toMode (.done true))
  | .tagged m => (cb C (.tagged m a) st).bind (toMode (.done true))
  | .seq => cb C (.seqValue a) st
  | .map true => cb C (.mapKey a) st
  | .map false => cb C (.mapValue a) st
  | .tuple (some (t, i)) => cb C (.tupleValue t i a) { st with mode := .tuple none }
  | .record (some (t, l)) => cb C (.recordValue t l a) { st with mode := .record none }
  | .vtuple (some (t, i)) => cb C (.tupleValue t i a) { st with mode := .vtuple none }
  | .vrecord (some (t, l)) => cb C (.recordValue t l a) { st with mode := .vrecord none }
  -- nested/src/flat_enum.rs:142-172
  | .vtagged m q => (nest C q (cb C (.variantTagged m a)) st).bind (toMode (.done true))
  | .tuple none | .record none | .vtuple none | .vrecord none | .enum _ | .done _ => .err () st

/-- The outcome of a call on the `ValueBuf`: `nested/src/flat.rs:1051-1064` -/
def buffered (st : St σ) : Res Buf.Err Buf.St → Res Unit (St σ)
  | .ok b => .ok { st with buf := some (.value b) }
  | .err _ _ => .err () { st with buf := some (.value {}) }
  | .panic => .panic

/-- `buffer_or_with`: `nested/src/flat.rs:1045-1069` -/
def bufferOr (t : Token) (a : Act σ) : Act σ :=
  tryCatch fun st =>
    match st.buf with
    | some (.value b) => buffered st (Buf.step true t b)
    | _ => a st

/-- `buffer_or_begin_with`: `nested/src/flat.rs:1071-1137` -/
def bufferOrBegin (t : Token) (any : Act σ) (enum : List Meta → Act σ) : Act σ :=
  tryCatch fun st =>
    match st.buf, st.mode with
    | some (.value b), _ => buffered st (Buf.step true t b)
    | none, .any => any st
    | none, .enum q => enum q st
    | none, _ =>
      match Buf.step true t {} with
      | .ok b => .ok { st with buf := some (.value b) }
      | .err _ _ => .err () st
      | .panic => .panic
    | some _, _ => .err () st

/-- A buffered value, given to `value_computed`: `nested/src/flat.rs:1163-1170`. It replays its calls:
`buffer/src/value.rs:374-390`. -/
def bufferArg (b : Buf.St) : Arg := { borrowed := false, prog := prog (regroup (Buf.replay b.parts).toks) }

/-- `buffer_or_end_with`: `nested/src/flat.rs:1139-1181` -/
def bufferOrEnd (t : Token) (a : Act σ) : Act σ :=
  tryCatch fun st =>
    match st.buf with
    | none => (a st).bind (toMode (.done true))
    | some (.value b) =>
      match Buf.step true t b with
      | .ok b =>
        if Buf.isComplete b then put C (.value (bufferArg b)) (bufferArg b) { st with buf := none }
        else .ok { st with buf := some (.value b) }
      | .err _ _ => .err () { st with buf := some (.value {}) }
      | .panic => .panic
    | some _ => .err () st

/-- `finish`: `nested/src/flat.rs:168-175` -/
def finish : Act σ := fun st => if st.mode = .done true then .ok st else .err () st

/-- `StreamEnum::end` of an enum without a variant, `nested/src/flat_enum.rs:42-44`, calls itself: the stack
overflows. -/
def endless (q : List Meta) : Act σ := nest C q fun _ => .panic

/-- A text as an argument: `impl Value for str`. -/
def textArg (b : Bool) (s : Text) : Arg :=
  { borrowed := b, prog := .ofToks [.textBegin (some (utf8Len s)), .textFragment s, .textEnd] }
/-- Bytes as an argument: `impl Value for BinarySlice`. -/
def binaryArg (b : Bool) (s : Bytes) : Arg :=
  { borrowed := b, prog := .ofToks [.binaryBegin (some s.length), .binaryFragment s, .binaryEnd] }

/-- `put_buffer`: `nested/src/flat.rs:1183-1194` -/
def putBuffer (b : Buffered) : Act σ := fun st =>
  match st.buf with
  | none => .ok { st with buf := some b }
  | some _ => .err () st

/-- `with_text` and a push: `nested/src/flat.rs:1196-1203` -/
def withText (f : Buf.Cow Char → Except Buf.Err (Buf.Cow Char)) : Act σ := fun st =>
  match st.buf with
  | some (.text b) =>
    match f b with
    | .ok b => .ok { st with buf := some (.text b) }
    | .error _ => .err () st
  | _ => .err () st

/-- `with_binary` and a push: `nested/src/flat.rs:1219-1226` -/
def withBinary (f : Buf.Cow UInt8 → Except Buf.Err (Buf.Cow UInt8)) : Act σ := fun st =>
  match st.buf with
  | some (.binary b) =>
    match f b with
    | .ok b => .ok { st with buf := some (.binary b) }
    | .error _ => .err () st
  | _ => .err () st

/-- `impl sval::Stream for FlatStream`: `nested/src/flat.rs:178-810`. -/
def call (t : Token) : Act σ :=
  match t with
  -- 563-572: `null` is passed on as borrowed
  | .null => bufferOr t (put C (.scalar t) { borrowed := true, prog := .ofToks [t] })
  -- 574-715
  | .bool _ | .int _ _ | .f32 _ | .f64 _ =>
    bufferOr t (put C (.scalar t) { borrowed := false, prog := .ofToks [t] })
  -- 717-758
  | .textBegin _ => bufferOr t (putBuffer (.text .new))
  | .textFragment f => bufferOr t (withText fun b => b.push true f)
  | .textFragmentComputed f => bufferOr t (withText fun b => b.pushComputed true f)
  | .textEnd => bufferOr t fun st =>
    match st.buf with
    | some (.text b) =>
      match b.asBorrowed with
      | some s => put C (.text true s) (textArg true s) { st with buf := none }
      | none => put C (.text false b.content) (textArg false b.content) { st with buf := none }
    | _ => .err () st
  -- 760-809
  | .binaryBegin _ => bufferOr t (putBuffer (.binary .new))
  | .binaryFragment f => bufferOr t (withBinary fun b => b.push true f)
  | .binaryFragmentComputed f => bufferOr t (withBinary fun b => b.pushComputed true f)
  | .binaryEnd => bufferOr t fun st =>
    match st.buf with
    | some (.binary b) =>
      match b.asBorrowed with
      | some s => put C (.binary true s) (binaryArg true s) { st with buf := none }
      | none => put C (.binary false b.content) (binaryArg false b.content) { st with buf := none }
    | _ => .err () st
  -- 207-234
  | .tag m => bufferOr t fun st =>
    match st.mode with
    | .enum q => (nest C q (cb C (.variantTag (cloneMeta m))) st).bind (toMode (.done true))
    | _ => put C (.tag (cloneMeta m)) { borrowed := false, prog := .ofToks [.tag m] } st
  -- 236-250
  | .seqBegin n => bufferOrBegin t (fun st => (cb C (.seqBegin n) st).bind (toMode .seq)) fun _ st => .err () st
  -- 252-258: not passed to the buffer
  | .seqValueBegin => .ok
  | .seqValueEnd => .ok
  -- 260-265, 1242-1254
  | .seqEnd => bufferOrEnd C t fun st => if st.mode = .seq then cb C .seqEnd st else .err () st
  -- 267-278
  | .mapBegin n =>
    bufferOrBegin t (fun st => (cb C (.mapBegin n) st).bind (toMode (.map true))) fun _ st => .err () st
  -- 280-291, 1256-1266
  | .mapKeyBegin => bufferOr t fun st =>
    match st.buf, st.mode with
    | none, .map _ => .ok { st with mode := .map true }
    | _, _ => .err () st
  -- 293-295
  | .mapKeyEnd => bufferOr t .ok
  -- 297-308
  | .mapValueBegin => bufferOr t fun st =>
    match st.buf, st.mode with
    | none, .map _ => .ok { st with mode := .map false }
    | _, _ => .err () st
  -- 310-312
  | .mapValueEnd => bufferOr t .ok
  -- 314-319, 1268-1280
  | .mapEnd => bufferOrEnd C t fun st =>
    match st.mode with
    | .map _ => cb C .mapEnd st
    | _ => .err () st
  -- 321-346
  | .enumBegin m =>
    bufferOrBegin t (fun st => (cb C (.enumBegin (cloneMeta m)) st).bind (toMode (.enum []))) fun q st =>
      .ok { st with mode := .enum (q ++ [ownMeta m]) }
  -- 348-364, 1388-1403
  | .enumEnd _ => bufferOrEnd C t fun st =>
    match st.mode with
    | .enum q => endless C q st
    | .done _ => finish st
    | _ => .err () st
  -- 366-399
  | .taggedBegin m =>
    bufferOrBegin t (fun st => .ok { st with mode := .tagged (ownMeta m) }) fun q st =>
      .ok { st with mode := .vtagged (ownMeta m) q }
  -- 401-411
  | .taggedEnd _ => bufferOrEnd C t finish
  -- 413-445; nested/src/flat_enum.rs:194-204 asserts that the queue is empty
  | .recordBegin m n =>
    bufferOrBegin t (fun st => (cb C (.recordBegin (cloneMeta m) n) st).bind (toMode (.record none))) fun q st =>
      if q = [] then (cb C (.variantRecordBegin (cloneMeta m) n) st).bind (toMode (.vrecord none)) else .panic
  -- 447-465, 1335-1353
  | .recordValueBegin tg l => bufferOr t fun st =>
    match st.buf, st.mode with
    | none, .record _ => .ok { st with mode := .record (some (tg, l.toOwned)) }
    | none, .vrecord _ => .ok { st with mode := .vrecord (some (tg, l.toOwned)) }
    | _, _ => .err () st
  -- 467-469
  | .recordValueEnd _ _ => bufferOr t .ok
  -- 471-486, 1355-1386
  | .recordEnd _ => bufferOrEnd C t fun st =>
    match st.mode with
    | .record _ | .vrecord _ => cb C .recordEnd st
    | _ => .err () st
  -- 488-520; nested/src/flat_enum.rs:182-192
  | .tupleBegin m n =>
    bufferOrBegin t (fun st => (cb C (.tupleBegin (cloneMeta m) n) st).bind (toMode (.tuple none))) fun q st =>
      if q = [] then (cb C (.variantTupleBegin (cloneMeta m) n) st).bind (toMode (.vtuple none)) else .panic
  -- 522-540
  | .tupleValueBegin tg i => bufferOr t fun st =>
    match st.buf, st.mode with
    | none, .tuple _ => .ok { st with mode := .tuple (some (tg, i)) }
    | none, .vtuple _ => .ok { st with mode := .vtuple (some (tg, i)) }
    | _, _ => .err () st
  -- 542-544
  | .tupleValueEnd _ _ => bufferOr t .ok
  -- 546-561
  | .tupleEnd _ => bufferOrEnd C t fun st =>
    match st.mode with
    | .tuple _ | .vtuple _ => cb C .tupleEnd st
    | _ => .err () st
  -- not overridden
  | .tagHint _ => .ok
  | .recordTupleBegin m n =>
    bufferOrBegin (.recordBegin m n) (fun st => (cb C (.recordBegin (cloneMeta m) n) st).bind (toMode (.record none))) fun q st =>
      if q = [] then (cb C (.variantRecordBegin (cloneMeta m) n) st).bind (toMode (.vrecord none)) else .panic
  | .recordTupleValueBegin tg l _ => bufferOr (.recordValueBegin tg l) fun st =>
    match st.buf, st.mode with
    | none, .record _ => .ok { st with mode := .record (some (tg, l.toOwned)) }
    | none, .vrecord _ => .ok { st with mode := .vrecord (some (tg, l.toOwned)) }
    | _, _ => .err () st
  | .recordTupleValueEnd tg l _ => bufferOr (.recordValueEnd tg l) .ok
  | .recordTupleEnd m => bufferOrEnd C (.recordEnd m) fun st =>
    match st.mode with
    | .record _ | .vrecord _ => cb C .recordEnd st
    | _ => .err () st

/-- `value` and `value_computed` of a `ValueBuf`, which does not override them. -/
def bufValue (v : Prog) (computed : Bool) (b : Buf.St) : Outcome Buf.St :=
  let r := Sval.exec (guarded (Buf.step true)) v (if computed then .computed .base else .base) (b, false)
  if r.1.2 then .panicked else .done r.2 r.1.1

/-- `value` and `value_computed`: `nested/src/flat.rs:179-205`. `go` runs the value on the stream itself,
for a variant of an enum. -/
def delegate (v : Prog) (computed : Bool) (go : St σ → Outcome (St σ)) (st : St σ) : Outcome (St σ) :=
  match st.buf with
  | some (.value b) =>
    match bufValue v computed b with
    | .done true b => .done true { st with buf := some (.value b) }
    | .done false _ => .done false { st with buf := some (.value {}), mode := .done false }
    | .panicked => .panicked
  | _ =>
    match st.mode with
    | .enum _ =>
      match go st with
      | .done true st => .done true st
      | .done false st => .done false { st with mode := .done false }
      | .panicked => .panicked
    | _ => (tryCatch (put C (.value ⟨!computed, v⟩) ⟨!computed, v⟩) st).outcome

/-- Any code, run on a `FlatStream` or (`computed`) on a `Computed<FlatStream>`, whose `value` runs the value
on itself: `src/stream.rs:797-816`. -/
def exec : Prog → Bool → St σ → Outcome (St σ)
  | .ret ok, _, st => .done ok st
  | .call t k, c, st =>
    match call C (if c then computedTok t else t) st with
    | .ok st => exec (k true) c st
    | .err _ st => exec (k false) c st
    | .panic => .panicked
  | .value v k, c, st =>
    match (if c then exec v true st else delegate C v false (exec v false) st) with
    | .done ok st => exec (k ok) c st
    | .panicked => .panicked
  | .valueComputed v k, c, st =>
    match delegate C v true (exec v true) st with
    | .done ok st => exec (k ok) c st
    | .panicked => .panicked

/-- The default of `Stream::value`, and of `value_computed`: `nested/src/lib.rs:935-964`. The result of
the value itself is ignored. -/
def stream (computed : Bool) (p : Prog) (s : σ) : Outcome σ :=
  match exec C p computed { s } with
  | .done _ st => .done (st.mode = .done true) st.s
  | .panicked => .panicked

end

end Sval.Nested
