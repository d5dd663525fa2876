import Verif.Nested.Model
import Verif.Buffer.Debug

set_option autoImplicit false

/-!
# `sval_nested` with and without the `alloc` feature

The same code as in `Verif.Nested.Model`, with the build as a parameter. Without the feature buffers hold one part
(`Verif.Buffer.Model`), labels are kept only if they are static, and variants of enums in enums are not queued; there can
be a panic in place of an error. Labels are cloned as with the feature: without it, `src/data.rs:61-71`, there are none that
are owned. With it, `callA` is `call` (`callA_true`). The feature is on in `sval_nested` and in
`sval_buffer`, or in neither: `nested/Cargo.toml:23`.
-/

namespace Sval.Nested

/-- What a build is made with. -/
structure Build where
  /-- the feature `alloc` -/
  alloc : Bool
  debugAssertions : Bool := false
  /-- the feature `no_debug_assertions` of `sval_buffer` -/
  bufferFeature : Bool := false
  /-- the feature `no_debug_assertions` of `sval_nested`: `nested/Cargo.toml:24` -/
  nestedFeature : Bool := false
  /-- `--cfg no_debug_assertions`, given to the compiler -/
  cfgFlag : Bool := false
deriving DecidableEq, Repr

/-- Does `Error::no_alloc` of `sval_buffer` panic? `buffer/src/error.rs:72-79` asks for the feature. -/
def Build.bufferPanics (B : Build) : Bool := B.debugAssertions && !B.bufferFeature

/-- Does `Error::no_alloc` of `sval_nested` panic? `nested/src/error.rs:56-63` asks for the `cfg`, not for the feature. -/
def Build.nestedPanics (B : Build) : Bool := B.debugAssertions && !B.cfgFlag

section
variable {σ : Type} (C : Cb → σ → Res Unit σ)

/-- `Error::no_alloc`: `nested/src/error.rs:49-66` -/
def Build.lack (B : Build) (st : St σ) : Res Unit (St σ) := if B.nestedPanics then .panic else .err () st

/-- `Error::no_alloc` of `sval_buffer`, for fragments: `buffer/src/error.rs:59-81` -/
def Build.lackBuf (B : Build) (st : St σ) : Res Unit (St σ) := if B.bufferPanics then .panic else .err () st

/-- `owned_label_ref`: `nested/src/lib.rs:909-923` -/
def withLabel (B : Build) (l : Label) (st : St σ) (k : Label → Res Unit (St σ)) : Res Unit (St σ) :=
  if B.alloc then k l.toOwned
  else match l.asStaticStr with
    | some s => k (Label.new s)
    | none => B.lack st

/-- `owned_label_ref` of a label if there is one: `nested/src/flat.rs:377-381`, `nested/src/flat_enum.rs:33-37` -/
def withMeta (B : Build) (m : Meta) (st : St σ) (k : Meta → Res Unit (St σ)) : Res Unit (St σ) :=
  match m.label with
  | none => k m
  | some l => withLabel B l st fun l => k { m with label := some l }

/-- `Queue::push_back`: `nested/src/flat_enum.rs:223-234` -/
def pushBack (B : Build) (q : List Meta) (m : Meta) (st : St σ) : Res Unit (St σ) :=
  if B.alloc then .ok { st with mode := .enum (q ++ [m]) } else B.lack st

/-- `Queue::is_empty`: `nested/src/flat_enum.rs:247-256` -/
def emptyA (B : Build) (q : List Meta) : Bool := if B.alloc then q = [] else true

/-- `value_or_recurse`: `nested/src/flat_enum.rs:46-69`, where `pop_front`, 236-245, has nothing without `alloc`. -/
def nestA (B : Build) (q : List Meta) (a : Act σ) : Act σ := if B.alloc then nest C q a else a

/-- `with_text` and a push: `nested/src/flat.rs:1196-1203`. A push fails only for lack of `alloc`. -/
def withTextA (B : Build) (f : Buf.Cow Char → Except Buf.Err (Buf.Cow Char)) : Act σ := fun st =>
  match st.buf with
  | some (.text b) =>
    match f b with
    | .ok b => .ok { st with buf := some (.text b) }
    | .error _ => B.lackBuf st
  | _ => .err () st

/-- `with_binary` and a push: `nested/src/flat.rs:1219-1226` -/
def withBinaryA (B : Build) (f : Buf.Cow UInt8 → Except Buf.Err (Buf.Cow UInt8)) : Act σ := fun st =>
  match st.buf with
  | some (.binary b) =>
    match f b with
    | .ok b => .ok { st with buf := some (.binary b) }
    | .error _ => B.lackBuf st
  | _ => .err () st

/-- `State::value_with`: `nested/src/flat.rs:865-1020`, and setting the state to `Done` when it has
given a result: 1038-1040, as `put`. -/
def putA (B : Build) (any : Cb) (a : Arg) : Act σ := fun st =>
  match st.mode with
  | .any => (cb C any st).bind (toMode (.done true))
  | .tagged m => (cb C (.tagged m a) st).bind (toMode (.done true))
  | .seq => cb C (.seqValue a) st
  | .map true => cb C (.mapKey a) st
  | .map false => cb C (.mapValue a) st
  | .tuple (some (t, i)) => cb C (.tupleValue t i a) { st with mode := .tuple none }
  | .record (some (t, l)) => cb C (.recordValue t l a) { st with mode := .record none }
  | .vtuple (some (t, i)) => cb C (.tupleValue t i a) { st with mode := .vtuple none }
  | .vrecord (some (t, l)) => cb C (.recordValue t l a) { st with mode := .vrecord none }
  -- nested/src/flat_enum.rs:142-172
  | .vtagged m q => (nestA C B q (cb C (.variantTagged m a)) st).bind (toMode (.done true))
  | .tuple none | .record none | .vtuple none | .vrecord none | .enum _ | .done _ => .err () st

/-- `buffer_or_with`: `nested/src/flat.rs:1045-1069` -/
def bufferOrA (B : Build) (t : Token) (a : Act σ) : Act σ :=
  tryCatch fun st =>
    match st.buf with
    | some (.value b) => buffered st (Buf.stepD B.alloc B.bufferPanics t b)
    | _ => a st

/-- `buffer_or_begin_with`: `nested/src/flat.rs:1071-1137` -/
def bufferOrBeginA (B : Build) (t : Token) (any : Act σ) (enum : List Meta → Act σ) : Act σ :=
  tryCatch fun st =>
    match st.buf, st.mode with
    | some (.value b), _ => buffered st (Buf.stepD B.alloc B.bufferPanics t b)
    | none, .any => any st
    | none, .enum q => enum q st
    | none, _ =>
      match Buf.stepD B.alloc B.bufferPanics t {} with
      | .ok b => .ok { st with buf := some (.value b) }
      | .err _ _ => .err () st
      | .panic => .panic
    | some _, _ => .err () st

/-- `buffer_or_end_with`: `nested/src/flat.rs:1139-1181` -/
def bufferOrEndA (B : Build) (t : Token) (a : Act σ) : Act σ :=
  tryCatch fun st =>
    match st.buf with
    | none => (a st).bind (toMode (.done true))
    | some (.value b) =>
      match Buf.stepD B.alloc B.bufferPanics t b with
      | .ok b =>
        if Buf.isComplete b then putA C B (.value (bufferArg b)) (bufferArg b) { st with buf := none }
        else .ok { st with buf := some (.value b) }
      | .err _ _ => .err () { st with buf := some (.value {}) }
      | .panic => .panic
    | some _ => .err () st

/-- `StreamEnum::end` of an enum without a variant: `nested/src/flat_enum.rs:42-44`, as `endless`. -/
def endlessA (B : Build) (q : List Meta) : Act σ := nestA C B q fun _ => .panic

/-- `impl sval::Stream for FlatStream`: `nested/src/flat.rs:178-810`, as `call`. -/
def callA (B : Build) (t : Token) : Act σ :=
  match t with
  -- 563-572: `null` is passed on as borrowed
  | .null => bufferOrA B t (putA C B (.scalar t) { borrowed := true, prog := .ofToks [t] })
  -- 574-715
  | .bool _ | .int _ _ | .f32 _ | .f64 _ =>
    bufferOrA B t (putA C B (.scalar t) { borrowed := false, prog := .ofToks [t] })
  -- 717-758
  | .textBegin _ => bufferOrA B t (putBuffer (.text .new))
  | .textFragment f => bufferOrA B t (withTextA B fun b => b.push B.alloc f)
  | .textFragmentComputed f => bufferOrA B t (withTextA B fun b => b.pushComputed B.alloc f)
  | .textEnd => bufferOrA B t fun st =>
    match st.buf with
    | some (.text b) =>
      match b.asBorrowed with
      | some s => putA C B (.text true s) (textArg true s) { st with buf := none }
      | none => putA C B (.text false b.content) (textArg false b.content) { st with buf := none }
    | _ => .err () st
  -- 760-809
  | .binaryBegin _ => bufferOrA B t (putBuffer (.binary .new))
  | .binaryFragment f => bufferOrA B t (withBinaryA B fun b => b.push B.alloc f)
  | .binaryFragmentComputed f => bufferOrA B t (withBinaryA B fun b => b.pushComputed B.alloc f)
  | .binaryEnd => bufferOrA B t fun st =>
    match st.buf with
    | some (.binary b) =>
      match b.asBorrowed with
      | some s => putA C B (.binary true s) (binaryArg true s) { st with buf := none }
      | none => putA C B (.binary false b.content) (binaryArg false b.content) { st with buf := none }
    | _ => .err () st
  -- 207-234
  | .tag m => bufferOrA B t fun st =>
    match st.mode with
    | .enum q => (nestA C B q (cb C (.variantTag (cloneMeta m))) st).bind (toMode (.done true))
    | _ => putA C B (.tag (cloneMeta m)) { borrowed := false, prog := .ofToks [.tag m] } st
  -- 236-250
  | .seqBegin n => bufferOrBeginA B t (fun st => (cb C (.seqBegin n) st).bind (toMode .seq)) fun _ st => .err () st
  -- 252-258: not passed to the buffer
  | .seqValueBegin => .ok
  | .seqValueEnd => .ok
  -- 260-265, 1242-1254
  | .seqEnd => bufferOrEndA C B t fun st => if st.mode = .seq then cb C .seqEnd st else .err () st
  -- 267-278
  | .mapBegin n =>
    bufferOrBeginA B t (fun st => (cb C (.mapBegin n) st).bind (toMode (.map true))) fun _ st => .err () st
  -- 280-291, 1256-1266
  | .mapKeyBegin => bufferOrA B t fun st =>
    match st.buf, st.mode with
    | none, .map _ => .ok { st with mode := .map true }
    | _, _ => .err () st
  -- 293-295
  | .mapKeyEnd => bufferOrA B t .ok
  -- 297-308
  | .mapValueBegin => bufferOrA B t fun st =>
    match st.buf, st.mode with
    | none, .map _ => .ok { st with mode := .map false }
    | _, _ => .err () st
  -- 310-312
  | .mapValueEnd => bufferOrA B t .ok
  -- 314-319, 1268-1280
  | .mapEnd => bufferOrEndA C B t fun st =>
    match st.mode with
    | .map _ => cb C .mapEnd st
    | _ => .err () st
  -- 321-346
  | .enumBegin m =>
    bufferOrBeginA B t (fun st => (cb C (.enumBegin (cloneMeta m)) st).bind (toMode (.enum []))) fun q st =>
      withMeta B m st fun m => pushBack B q m st
  -- 348-364, 1388-1403
  | .enumEnd _ => bufferOrEndA C B t fun st =>
    match st.mode with
    | .enum q => endlessA C B q st
    | .done _ => finish st
    | _ => .err () st
  -- 366-399
  | .taggedBegin m =>
    bufferOrBeginA B t (fun st => withMeta B m st fun m => .ok { st with mode := .tagged m }) fun q st =>
      withMeta B m st fun m => .ok { st with mode := .vtagged m q }
  -- 401-411
  | .taggedEnd _ => bufferOrEndA C B t finish
  -- 413-445; nested/src/flat_enum.rs:194-204 asserts that the queue is empty
  | .recordBegin m n =>
    bufferOrBeginA B t (fun st => (cb C (.recordBegin (cloneMeta m) n) st).bind (toMode (.record none))) fun q st =>
      if emptyA B q then (cb C (.variantRecordBegin (cloneMeta m) n) st).bind (toMode (.vrecord none)) else .panic
  -- 447-465, 1335-1353
  | .recordValueBegin tg l => bufferOrA B t fun st =>
    match st.buf, st.mode with
    | none, .record _ => withLabel B l st fun l => .ok { st with mode := .record (some (tg, l)) }
    | none, .vrecord _ => withLabel B l st fun l => .ok { st with mode := .vrecord (some (tg, l)) }
    | _, _ => .err () st
  -- 467-469
  | .recordValueEnd _ _ => bufferOrA B t .ok
  -- 471-486, 1355-1386
  | .recordEnd _ => bufferOrEndA C B t fun st =>
    match st.mode with
    | .record _ | .vrecord _ => cb C .recordEnd st
    | _ => .err () st
  -- 488-520; nested/src/flat_enum.rs:182-192
  | .tupleBegin m n =>
    bufferOrBeginA B t (fun st => (cb C (.tupleBegin (cloneMeta m) n) st).bind (toMode (.tuple none))) fun q st =>
      if emptyA B q then (cb C (.variantTupleBegin (cloneMeta m) n) st).bind (toMode (.vtuple none)) else .panic
  -- 522-540
  | .tupleValueBegin tg i => bufferOrA B t fun st =>
    match st.buf, st.mode with
    | none, .tuple _ => .ok { st with mode := .tuple (some (tg, i)) }
    | none, .vtuple _ => .ok { st with mode := .vtuple (some (tg, i)) }
    | _, _ => .err () st
  -- 542-544
  | .tupleValueEnd _ _ => bufferOrA B t .ok
  -- 546-561
  | .tupleEnd _ => bufferOrEndA C B t fun st =>
    match st.mode with
    | .tuple _ | .vtuple _ => cb C .tupleEnd st
    | _ => .err () st
  -- not overridden
  | .tagHint _ => .ok
  | .recordTupleBegin m n =>
    bufferOrBeginA B (.recordBegin m n) (fun st => (cb C (.recordBegin (cloneMeta m) n) st).bind (toMode (.record none))) fun q st =>
      if emptyA B q then (cb C (.variantRecordBegin (cloneMeta m) n) st).bind (toMode (.vrecord none)) else .panic
  | .recordTupleValueBegin tg l _ => bufferOrA B (.recordValueBegin tg l) fun st =>
    match st.buf, st.mode with
    | none, .record _ => withLabel B l st fun l => .ok { st with mode := .record (some (tg, l)) }
    | none, .vrecord _ => withLabel B l st fun l => .ok { st with mode := .vrecord (some (tg, l)) }
    | _, _ => .err () st
  | .recordTupleValueEnd tg l _ => bufferOrA B (.recordValueEnd tg l) .ok
  | .recordTupleEnd m => bufferOrEndA C B (.recordEnd m) fun st =>
    match st.mode with
    | .record _ | .vrecord _ => cb C .recordEnd st
    | _ => .err () st

/-- `value` and `value_computed` of a `ValueBuf`, which does not override them. -/
def bufValueA (B : Build) (v : Prog) (computed : Bool) (b : Buf.St) : Outcome Buf.St :=
  let r := Sval.exec (guarded (Buf.stepD B.alloc B.bufferPanics)) v (if computed then .computed .base else .base) (b, false)
  if r.1.2 then .panicked else .done r.2 r.1.1

/-- `value` and `value_computed`: `nested/src/flat.rs:179-205`. `go` runs the value on the stream itself,
for a variant of an enum. -/
def delegateA (B : Build) (v : Prog) (computed : Bool) (go : St σ → Outcome (St σ)) (st : St σ) : Outcome (St σ) :=
  match st.buf with
  | some (.value b) =>
    match bufValueA B v computed b with
    | .done true b => .done true { st with buf := some (.value b) }
    | .done false _ => .done false { st with buf := some (.value {}), mode := .done false }
    | .panicked => .panicked
  | _ =>
    match st.mode with
    | .enum _ =>
      match go st with
      | .done true st => .done true st
      | .done false st => .done false { st with mode := .done false }
      | .panicked => .panicked
    | _ => (tryCatch (putA C B (.value ⟨!computed, v⟩) ⟨!computed, v⟩) st).outcome

/-- Any code, run on a `FlatStream` or (`computed`) on a `Computed<FlatStream>`, whose `value` runs the value
on itself: `src/stream.rs:797-816`. -/
def execA (B : Build) : Prog → Bool → St σ → Outcome (St σ)
  | .ret ok, _, st => .done ok st
  | .call t k, c, st =>
    match callA C B (if c then computedTok t else t) st with
    | .ok st => execA B (k true) c st
    | .err _ st => execA B (k false) c st
    | .panic => .panicked
  | .value v k, c, st =>
    match (if c then execA B v true st else delegateA C B v false (execA B v false) st) with
    | .done ok st => execA B (k ok) c st
    | .panicked => .panicked
  | .valueComputed v k, c, st =>
    match delegateA C B v true (execA B v true) st with
    | .done ok st => execA B (k ok) c st
    | .panicked => .panicked

/-- The default of `Stream::value`, and of `value_computed`: `nested/src/lib.rs:935-964`. The result of
the value itself is ignored. -/
def streamA (B : Build) (computed : Bool) (p : Prog) (s : σ) : Outcome σ :=
  match execA C B p computed { s } with
  | .done _ st => .done (st.mode = .done true) st.s
  | .panicked => .panicked

end

end Sval.Nested
