import Verif.Nested.Model

set_option autoImplicit false

/-!
# `sval_serde`

`serde/src/to_value.rs`: any `serde::Serialize` as a `sval::Value`. `serde/src/to_serialize.rs`: any `sval::Value`
as a `serde::Serialize`, by way of `sval_nested`.

A `serde::Serializer`, with everything that it returns, is any state machine over `SCall`, one constructor per
method of `Serializer`, `SerializeSeq` and so on. What a method does with a `Serialize` argument is up to the
serializer, so the argument is given as what it does when it is serialized. A serializer that uses another one for
an argument (for the keys of a map, say) notes that in its state. `Err(_)` from a method leaves a state too: what
the serializer did until it failed.

A `serde::Serialize` is a tree of the data model, `SV`: code that makes the calls of the tree and stops when one
fails. Lengths that are passed are not related to the number of elements.
-/

namespace Sval.Serde

open Nested (Arg Cb Item)

/-- A method of a serializer. -/
inductive SCall (ε τ : Type) where
  | bool (b : Bool)
  /-- `serialize_i8` and so on -/
  | int (t : IntTy) (v : Int)
  | f32 (b : UInt32)
  | f64 (b : UInt64)
  | char (c : Char)
  | str (s : Text)
  /-- `collect_str`: the pieces that `Display` writes -/
  | collectStr (s : List Text)
  | bytes (s : Bytes)
  | none
  | some (a : τ → Res ε τ)
  | unit
  | unitStruct (name : Text)
  | unitVariant (name : Text) (index : UInt32) (variant : Text)
  | newtypeStruct (name : Text) (a : τ → Res ε τ)
  | newtypeVariant (name : Text) (index : UInt32) (variant : Text) (a : τ → Res ε τ)
  | seq (len : Option Nat)
  | seqElement (a : τ → Res ε τ)
  | seqEnd
  | tuple (len : Nat)
  | tupleElement (a : τ → Res ε τ)
  | tupleEnd
  | tupleStruct (name : Text) (len : Nat)
  | tupleStructField (a : τ → Res ε τ)
  | tupleStructEnd
  | tupleVariant (name : Text) (index : UInt32) (variant : Text) (len : Nat)
  | tupleVariantField (a : τ → Res ε τ)
  | tupleVariantEnd
  | map (len : Option Nat)
  | mapKey (a : τ → Res ε τ)
  | mapValue (a : τ → Res ε τ)
  | mapEnd
  | struct (name : Text) (len : Nat)
  | structField (key : Text) (a : τ → Res ε τ)
  | structEnd
  | structVariant (name : Text) (index : UInt32) (variant : Text) (len : Nat)
  | structVariantField (key : Text) (a : τ → Res ε τ)
  | structVariantEnd

/-- A value of the serde data model. -/
inductive SV where
  | bool (b : Bool)
  | int (t : IntTy) (v : Int)
  | f32 (b : UInt32)
  | f64 (b : UInt64)
  | char (c : Char)
  | str (s : Text)
  | collectStr (s : List Text)
  | bytes (s : Bytes)
  | none
  | some (v : SV)
  | unit
  | unitStruct (name : Text)
  | unitVariant (name : Text) (index : UInt32) (variant : Text)
  | newtypeStruct (name : Text) (v : SV)
  | newtypeVariant (name : Text) (index : UInt32) (variant : Text) (v : SV)
  | seq (len : Option Nat) (xs : List SV)
  | tuple (len : Nat) (xs : List SV)
  | tupleStruct (name : Text) (len : Nat) (xs : List SV)
  | tupleVariant (name : Text) (index : UInt32) (variant : Text) (len : Nat) (xs : List SV)
  | map (len : Option Nat) (kvs : List (SV × SV))
  | struct (name : Text) (len : Nat) (fs : List (Text × SV))
  | structVariant (name : Text) (index : UInt32) (variant : Text) (len : Nat) (fs : List (Text × SV))

/-! ## serde to sval -/

/-- `Label::new`, as the label of a tag. -/
def named (name : Text) : Meta := { label := Option.some (.new name) }

/-- The label and the index of a variant, `Index::new_u32`. -/
def variantMeta (index : UInt32) (variant : Text) : Meta :=
  { label := Option.some (.new variant), index := Option.some { val := index.toNat } }

/-- `impl Value for Option<T>`: `src/data/option.rs:16-38` -/
def someMeta : Meta :=
  { tag := Option.some tags.RUST_OPTION_SOME,
    label := Option.some ((Label.new (t! "Some")).withTag tags.VALUE_IDENT),
    index := Option.some { val := 1, tag := Option.some tags.VALUE_OFFSET } }
/-- `impl Value for Option<T>`: `src/data/option.rs:16-38` -/
def noneMeta : Meta :=
  { tag := Option.some tags.RUST_OPTION_NONE,
    label := Option.some ((Label.new (t! "None")).withTag tags.VALUE_IDENT),
    index := Option.some { val := 0, tag := Option.some tags.VALUE_OFFSET } }
/-- `impl Value for ()`: `src/data.rs:543-547` -/
def unitMeta : Meta := { tag := Option.some tags.RUST_UNIT }

/-- `Index::new` -/
def idx (i : Nat) : Index := { val := i }

mutual
/-- `impl Value for ToValue` and `impl Serializer for Stream`: `serde/src/to_value.rs:40-634`. -/
def toValue : SV → List Item
  -- 110-188: `stream_value`
  | .bool b => [.comp [.tok (.bool b)]]
  | .int t v => [.comp [.tok (.int t v)]]
  | .f32 b => [.comp [.tok (.f32 b)]]
  | .f64 b => [.comp [.tok (.f64 b)]]
  -- `impl Value for char`, `src/data/text.rs:92-101`
  | .char c => [.comp [.tok (.textBegin (Option.some (utf8Len [c]))), .tok (.textFragmentComputed [c]), .tok .textEnd]]
  -- `impl Value for str`
  | .str s => [.comp [.tok (.textBegin (Option.some (utf8Len s))), .tok (.textFragment s), .tok .textEnd]]
  -- 190-196: `stream_display`, `src/data/text.rs:45-82`
  | .collectStr s => [.comp (.tok (.textBegin Option.none) :: (s.map (fun x => .tok (.textFragmentComputed x)) ++ [.tok .textEnd]))]
  -- `impl Value for BinarySlice`
  | .bytes s => [.comp [.tok (.binaryBegin (Option.some s.length)), .tok (.binaryFragment s), .tok .binaryEnd]]
  | .none => [.comp [.tok (.tag noneMeta)]]
  | .some v => [.comp [.tok (.taggedBegin someMeta), .val (toValue v), .tok (.taggedEnd someMeta)]]
  | .unit => [.comp [.tok (.tag unitMeta)]]
  -- 217-221
  | .unitStruct name => [.tok (.tag (named name))]
  -- 223-242
  | .unitVariant name index variant =>
    [.tok (.enumBegin (named name)), .tok (.tag (variantMeta index variant)), .tok (.enumEnd (named name))]
  -- 244-261
  | .newtypeStruct name v =>
    [.tok (.taggedBegin (named name)), .comp (toValue v), .tok (.taggedEnd (named name))]
  -- 263-296
  | .newtypeVariant name index variant v =>
    [.tok (.enumBegin (named name)), .tok (.taggedBegin (variantMeta index variant)), .comp (toValue v),
      .tok (.taggedEnd (variantMeta index variant)), .tok (.enumEnd (named name))]
  -- 298-304, 413-437
  | .seq len xs => .tok (.seqBegin len) :: (toValueSeq xs ++ [.tok .seqEnd])
  -- 306-316, 439-467
  | .tuple len xs => .tok (.tupleBegin {} (Option.some len)) :: (toValueTup 0 xs ++ [.tok (.tupleEnd {})])
  -- 318-332, 469-497
  | .tupleStruct name len xs =>
    .tok (.tupleBegin (named name) (Option.some len)) :: (toValueTup 0 xs ++ [.tok (.tupleEnd (named name))])
  -- 334-360, 499-530
  | .tupleVariant name index variant len xs =>
    .tok (.enumBegin (named name)) :: .tok (.tupleBegin (variantMeta index variant) (Option.some len)) ::
      (toValueTup 0 xs ++ [.tok (.tupleEnd (variantMeta index variant)), .tok (.enumEnd (named name))])
  -- 362-368, 532-571
  | .map len kvs => .tok (.mapBegin len) :: (toValueMap kvs ++ [.tok .mapEnd])
  -- 370-383, 573-601
  | .struct name len fs =>
    .tok (.recordBegin (named name) (Option.some len)) :: (toValueRec fs ++ [.tok (.recordEnd (named name))])
  -- 385-410, 603-634
  | .structVariant name index variant len fs =>
    .tok (.enumBegin (named name)) :: .tok (.recordBegin (variantMeta index variant) (Option.some len)) ::
      (toValueRec fs ++ [.tok (.recordEnd (variantMeta index variant)), .tok (.enumEnd (named name))])
/-- `serialize_element` -/
def toValueSeq : List SV → List Item
  | [] => []
  | x :: xs => .tok .seqValueBegin :: .comp (toValue x) :: .tok .seqValueEnd :: toValueSeq xs
/-- `serialize_element` and `serialize_field`, with the index that is counted. -/
def toValueTup (i : Nat) : List SV → List Item
  | [] => []
  | x :: xs => .tok (.tupleValueBegin Option.none (idx i)) :: .comp (toValue x) ::
      .tok (.tupleValueEnd Option.none (idx i)) :: toValueTup (i + 1) xs
/-- `serialize_key` and `serialize_value` -/
def toValueMap : List (SV × SV) → List Item
  | [] => []
  | (k, v) :: r => .tok .mapKeyBegin :: .comp (toValue k) :: .tok .mapKeyEnd ::
      .tok .mapValueBegin :: .comp (toValue v) :: .tok .mapValueEnd :: toValueMap r
/-- `serialize_field` -/
def toValueRec : List (Text × SV) → List Item
  | [] => []
  | (l, v) :: r => .tok (.recordValueBegin Option.none (.new l)) :: .comp (toValue v) ::
      .tok (.recordValueEnd Option.none (.new l)) :: toValueRec r
end

/-! ## sval to serde -/

/-- Which type of `serde/src/to_serialize.rs:50-86` the recursive stream is. -/
inductive Mode where
  | top
  | seq
  | map
  | tuple (isNamed : Bool)
  | record (isNamed : Bool)
  | enum (name : Text)
  | vtuple
  | vrecord
  | over
deriving DecidableEq

/-- The recursive stream. `failed` is an error of the serializer that was not returned yet: the `Err` of
`serializer: Result<_, _>`, or of the `Result<S::Ok, S::Error>` that the stream gives as its result. -/
structure St (ε τ : Type) where
  mode : Mode := .top
  failed : Option ε := Option.none
  s : τ

section
variable {ε τ : Type} (custom : ε) (S : SCall ε τ → τ → Res ε τ)

/-- `label.and_then(|label| label.as_static_str())` -/
def staticName (m : Meta) : Option Text := m.label.bind Label.asStaticStr

/-- `Index::to_u32`: `src/data.rs:423-429` -/
def toU32 (i : Index) : Option UInt32 :=
  if 0 ≤ i.val ∧ i.val < 4294967296 then Option.some (UInt32.ofNat i.val.toNat) else Option.none

/-- `Ok(serializer.f(..))`: an error is not an error of the recursive stream. -/
def keep (m : Mode) (c : SCall ε τ) (st : St ε τ) : Res Unit (St ε τ) :=
  match S c st.s with
  | .ok s => .ok { st with mode := m, s }
  | .err e s => .ok { st with mode := m, failed := Option.some e, s }
  | .panic => .panic

/-- The shape of `value_computed` of all containers: `serde/src/to_serialize.rs:313-326` -/
def element (c : SCall ε τ) (st : St ε τ) : Res Unit (St ε τ) :=
  match st.failed with
  | Option.some _ => .err () st
  | Option.none =>
    match S c st.s with
    | .ok s => .ok { st with s }
    | .err e s => .err () { st with failed := Option.some e, s }
    | .panic => .panic

/-- The shape of `end` of all containers: `serde/src/to_serialize.rs:328-333` -/
def ending (c : SCall ε τ) (st : St ε τ) : Res Unit (St ε τ) :=
  match st.failed with
  | Option.some _ => .ok { st with mode := .over }
  | Option.none => keep S .over c st

/-- `ToSerialize::serialize`: `serde/src/to_serialize.rs:42-48` -/
def finish : Outcome (St ε τ) → Res ε τ
  | .done true st =>
    match st.failed with
    | Option.none => .ok st.s
    | Option.some e => .err e st.s
  | .done false st => .err custom st.s
  | .panicked => .panic

/-- The name, index and name of a variant: `serde/src/to_serialize.rs:496-504` and so on. -/
def variantOf (m : Meta) : Option (UInt32 × Text) :=
  match staticName m, m.index.bind toU32 with
  | Option.some v, Option.some i => Option.some (i, v)
  | _, _ => Option.none

/-- `null` to `f64`: `serde/src/to_serialize.rs:107-161` -/
def scalar : Token → Option (SCall ε τ)
  | .null => Option.some .none
  | .bool b => Option.some (.bool b)
  | .int t v => Option.some (.int t v)
  | .f32 b => Option.some (.f32 b)
  | .f64 b => Option.some (.f64 b)
  | _ => Option.none

/-- `impl sval_nested::Stream for Serializer` and so on: `serde/src/to_serialize.rs:94-683`. `K` streams a value to
a new `Serializer`. Methods of the wrong type panic: there is no such method. Methods for borrowed data
call those for computed data. -/
def adapter (K : Bool → Prog → τ → Outcome (St ε τ)) (c : Cb) (st : St ε τ) : Res Unit (St ε τ) :=
  -- `&ToSerialize::new(value)`
  let ser (a : Arg) : τ → Res ε τ := fun s => finish custom (K false a.prog s)
  match st.mode, c with
  | .top, .scalar t =>
    match scalar t with
    | Option.some x => keep S .over x st
    | Option.none => .panic
  -- 163-169
  | .top, .text _ s => keep S .over (.str s) st
  | .top, .binary _ s => keep S .over (.bytes s) st
  -- 171-190
  | .top, .tag m =>
    if m.tag = Option.some tags.RUST_OPTION_NONE then keep S .over .none st
    else if m.tag = Option.some tags.RUST_UNIT then keep S .over .unit st
    else match staticName m with
      | Option.some name => keep S .over (.unitStruct name) st
      | Option.none => .err () st
  -- 192-215
  | .top, .tagged m a =>
    if m.tag = Option.some tags.RUST_OPTION_SOME then keep S .over (.some (ser a)) st
    else match staticName m with
      | Option.some name => keep S .over (.newtypeStruct name (ser a)) st
      | Option.none => .err () st
  -- not overridden: `nested/src/lib.rs:935-964`
  | .top, .value a =>
    match K (!a.borrowed) a.prog st.s with
    | .done true st => .ok st
    | .done false st => .err () st
    | .panicked => .panic
  -- 217-227
  | .top, .seqBegin n => keep S .seq (.seq n) st
  | .top, .mapBegin n => keep S .map (.map n) st
  -- 229-259
  | .top, .tupleBegin m n =>
    match n with
    | Option.none => .err () st
    | Option.some len =>
      match m.label with
      | Option.some l =>
        match l.asStaticStr with
        | Option.none => .err () st
        | Option.some name => keep S (.tuple true) (.tupleStruct name len) st
      | Option.none => keep S (.tuple false) (.tuple len) st
  -- 261-291
  | .top, .recordBegin m n =>
    match n with
    | Option.none => .err () st
    | Option.some len =>
      match m.label with
      | Option.some l =>
        match l.asStaticStr with
        | Option.none => .err () st
        | Option.some name => keep S (.record true) (.struct name len) st
      | Option.none => keep S (.record false) (.tuple len) st
  -- 293-307
  | .top, .enumBegin m =>
    match staticName m with
    | Option.none => .err () st
    | Option.some name => .ok { st with mode := .enum name }
  -- 310-334
  | .seq, .seqValue a => element S (.seqElement (ser a)) st
  | .seq, .seqEnd => ending S .seqEnd st
  -- 336-375
  | .map, .mapKey a => element S (.mapKey (ser a)) st
  | .map, .mapValue a => element S (.mapValue (ser a)) st
  | .map, .mapEnd => ending S .mapEnd st
  -- 377-429
  | .record true, .recordValue _ l a =>
    match st.failed, l.asStaticStr with
    | Option.none, Option.some k => element S (.structField k (ser a)) st
    | _, _ => .err () st
  | .record false, .recordValue _ _ a => element S (.tupleElement (ser a)) st
  | .record true, .recordEnd => ending S .structEnd st
  | .record false, .recordEnd => ending S .tupleEnd st
  -- 431-479
  | .tuple true, .tupleValue _ _ a => element S (.tupleStructField (ser a)) st
  | .tuple false, .tupleValue _ _ a => element S (.tupleElement (ser a)) st
  | .tuple true, .tupleEnd => ending S .tupleStructEnd st
  | .tuple false, .tupleEnd => ending S .tupleEnd st
  -- 481-608
  | .enum name, .variantTag m =>
    match variantOf m with
    | Option.some (i, v) => keep S .over (.unitVariant name i v) st
    | Option.none => .err () st
  | .enum name, .variantTagged m a =>
    match variantOf m with
    | Option.some (i, v) => keep S .over (.newtypeVariant name i v (ser a)) st
    | Option.none => .err () st
  | .enum name, .variantTupleBegin m n =>
    match variantOf m, n with
    | Option.some (i, v), Option.some len => keep S .vtuple (.tupleVariant name i v len) st
    | _, _ => .err () st
  | .enum name, .variantRecordBegin m n =>
    match variantOf m, n with
    | Option.some (i, v), Option.some len => keep S .vrecord (.structVariant name i v len) st
    | _, _ => .err () st
  | .enum _, .nestedBegin _ => .err () st
  -- 615-650
  | .vrecord, .recordValue _ l a =>
    match l.asStaticStr with
    | Option.some k => element S (.structVariantField k (ser a)) st
    | Option.none => .err () st
  | .vrecord, .recordEnd => ending S .structVariantEnd st
  -- 652-683
  | .vtuple, .tupleValue _ _ a => element S (.tupleVariantField (ser a)) st
  | .vtuple, .tupleEnd => ending S .tupleVariantEnd st
  | _, _ => .panic

/-- Stream a value to a `Serializer`. The number is how deep the values handed over inside of each other are
looked into; a value that goes deeper overflows the stack. -/
def into : Nat → Bool → Prog → τ → Outcome (St ε τ)
  | 0, _, _, _ => .panicked
  | n + 1, computed, p, s => Nested.stream (adapter custom S (into n)) computed p { s }

/-- `ToSerialize::new(value).serialize(serializer)`: `serde/src/to_serialize.rs:42-48`. `custom` is the error
made by `S::Error::custom`. -/
def serialize (depth : Nat) (p : Prog) (s : τ) : Res ε τ := finish custom (into custom S depth false p s)

end

end Sval.Serde
