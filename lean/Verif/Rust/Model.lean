import Verif.Serde.Model
import Verif.Derive.Spec

set_option autoImplicit false

/-!
# Values of Rust types

`RV` are values of the types that `sval` implements `Value` for, and of types that derive it. `items` is what their
`stream` does: a list of calls, where `.val q` is `stream.value(x)?` for an `x` that streams `q`, and `.comp q` is
`stream.value_computed(x)?`. `refItems` is what `stream_ref` does, for those that implement `ValueRef`.

A `Display` is the list of strings it writes; one that returns an error of its own, or goes on after one, is not
modelled. Numbers of elements are not bounded.
-/

namespace Sval.Rust

open Nested (Item)

open Derive (Field Attrs Shape Variant EnumDef)

/-- Values of Rust types with an implementation of `Value` in `sval`, and of types that derive it: `src/data.rs`,
`src/data/*.rs`, `derive_macros/src/derive.rs`. -/
inductive RV where
  | unit
  | null
  | bool (b : Bool)
  | int (t : IntTy) (v : Int)
  | f32 (b : UInt32)
  | f64 (b : UInt64)
  | char (c : Char)
  | str (s : Text)
  /-- `sval::Display` -/
  | display (fs : List Text)
  /-- `BinarySlice` -/
  | bytes (b : Bytes)
  /-- `BinaryArray` -/
  | byteArray (b : Bytes)
  /-- A type that uses `stream_number` -/
  | number (fs : List Text)
  | none
  | some (v : RV)
  | slice (xs : List RV)
  | array (xs : List RV)
  | tuple (xs : List RV)
  /-- `MapSlice`, `BTreeMap` or `HashMap`, with the entries in the order of iteration -/
  | map (ks vs : List RV)
  /-- `&T`, `Box`, `Vec`, `String` or `Ref` -/
  | boxed (v : RV)
  /-- `#[derive(Value)]` on a struct without fields -/
  | unitStruct (ident : Text) (at' : Attrs)
  /-- `#[derive(Value)]` on a struct with one unnamed field -/
  | newtype (ident : Text) (at' : Attrs) (transparent : Bool) (v : RV)
  /-- `#[derive(Value)]` on other structs -/
  | struct (named : Bool) (ident : Text) (at' : Attrs) (fs : List Field) (vs : List RV)
  /-- `#[derive(Value)]` on enums -/
  | enum (d : EnumDef) (i : Nat) (vs : List RV)

/-! ## Streaming -/

/-- `impl Value for str`: `src/data/text.rs:104-108` -/
def strItems (s : Text) : List Item :=
  [.tok (.textBegin (Option.some (utf8Len s))), .tok (.textFragment s), .tok .textEnd]

/-- `impl Value for char`: `src/data/text.rs:93-100` -/
def charItems (c : Char) : List Item :=
  [.tok (.textBegin (Option.some (utf8Len [c]))), .tok (.textFragmentComputed [c]), .tok .textEnd]

/-- `impl Value for Display`, `stream_display_fragments`: `src/data/text.rs:46-50`, `src/data/text.rs:70-82` -/
def displayItems (fs : List Text) : List Item :=
  .tok (.textBegin Option.none) :: (fs.map (fun f => Item.tok (.textFragmentComputed f)) ++ [.tok .textEnd])

/-- `impl Value for BinarySlice`: `src/data/binary.rs:44-48` -/
def bytesItems (b : Bytes) : List Item :=
  [.tok (.binaryBegin (Option.some b.length)), .tok (.binaryFragment b), .tok .binaryEnd]

/-- The tag of arrays: `src/data/tags.rs:75` -/
def constantSize : Meta := { tag := Option.some tags.CONSTANT_SIZE }

/-- `impl Value for BinaryArray`: `src/data/binary.rs:97-103` -/
def byteArrayItems (b : Bytes) : List Item :=
  .tok (.taggedBegin constantSize) :: (bytesItems b ++ [.tok (.taggedEnd constantSize)])

/-- `stream_number`: `src/data/number.rs:59-66` -/
def numberItems (fs : List Text) : List Item :=
  [.tok (.taggedBegin { tag := Option.some tags.NUMBER }), .comp (displayItems fs),
    .tok (.taggedEnd { tag := Option.some tags.NUMBER })]

/-- `impl Value for Option`: `src/data/option.rs:15-38` -/
def someItems (q : List Item) : List Item := [.tok (.taggedBegin Serde.someMeta), .val q, .tok (.taggedEnd Serde.someMeta)]

/-- The loop over elements: `src/data/seq.rs:7-11` -/
def elemsItems : List (List Item) → List Item
  | [] => []
  | q :: qs => .tok .seqValueBegin :: .val q :: .tok .seqValueEnd :: elemsItems qs

/-- `impl Value for [T]`: `src/data/seq.rs:3-15` -/
def sliceItems (qs : List (List Item)) : List Item :=
  .tok (.seqBegin (Option.some qs.length)) :: (elemsItems qs ++ [.tok .seqEnd])

/-- `impl Value for [T; N]`: `src/data/seq.rs:17-23` -/
def arrayItems (qs : List (List Item)) : List Item :=
  [.tok (.taggedBegin constantSize), .val (sliceItems qs), .tok (.taggedEnd constantSize)]

/-- The index of a position in a tuple: `src/data/seq.rs:35` -/
def offset (i : Nat) : Index := { val := i, tag := Option.some tags.VALUE_OFFSET }

/-- The elements of a tuple: `src/data/seq.rs:34-38` -/
def tupItems (i : Nat) : List (List Item) → List Item
  | [] => []
  | q :: qs =>
    .tok (.tupleValueBegin Option.none (offset i)) :: .val q :: .tok (.tupleValueEnd Option.none (offset i)) ::
      tupItems (i + 1) qs

/-- `impl Value for (T0, ..)`: `src/data/seq.rs:25-45` -/
def tupleItems (qs : List (List Item)) : List Item :=
  .tok (.tupleBegin {} (Option.some qs.length)) :: (tupItems 0 qs ++ [.tok (.tupleEnd {})])

/-- The loop over entries: `src/data/map.rs:42-50`, `src/data/map.rs:65-73`, `src/data/map.rs:89-97` -/
def entriesItems : List (List Item) → List (List Item) → List Item
  | k :: ks, v :: vs =>
    .tok .mapKeyBegin :: .val k :: .tok .mapKeyEnd :: .tok .mapValueBegin :: .val v :: .tok .mapValueEnd ::
      entriesItems ks vs
  | _, _ => []

/-- `impl Value for MapSlice`, and for `BTreeMap` and `HashMap`: `src/data/map.rs:38-54`, `src/data/map.rs:61-77`,
`src/data/map.rs:85-101` -/
def mapItems (ks vs : List (List Item)) : List Item :=
  .tok (.mapBegin (Option.some ks.length)) :: (entriesItems ks vs ++ [.tok .mapEnd])

mutual
/-- `Value::stream` -/
def items : RV → List Item
  -- `src/data.rs:543-547`
  | .unit => [.tok (.tag Serde.unitMeta)]
  -- `src/data/option.rs:9-13`
  | .null => [.tok .null]
  -- `src/data.rs:549-552`
  | .bool b => [.tok (.bool b)]
  -- `src/data/number.rs:17-53`
  | .int t v => [.tok (.int t v)]
  | .f32 b => [.tok (.f32 b)]
  | .f64 b => [.tok (.f64 b)]
  | .char c => charItems c
  | .str s => strItems s
  | .display fs => displayItems fs
  | .bytes b => bytesItems b
  | .byteArray b => byteArrayItems b
  | .number fs => numberItems fs
  | .none => [.tok (.tag Serde.noneMeta)]
  | .some v => someItems (items v)
  | .slice xs => sliceItems (itemsAll xs)
  | .array xs => arrayItems (itemsAll xs)
  | .tuple xs => tupleItems (itemsAll xs)
  | .map ks vs => mapItems (itemsAll ks) (itemsAll vs)
  -- `src/value.rs:141-147`, `src/data/seq.rs:224-228`, `src/data/text.rs:125-128`, `ref/src/lib.rs:88-91`
  | .boxed v => items v
  | .unitStruct ident at' => Derive.unitItems ident at'
  | .newtype ident at' transparent v => Derive.newtypeItems ident at' transparent (items v)
  | .struct named ident at' fs vs => Derive.structItems named at' (Derive.structMeta ident at') fs (itemsAll vs)
  | .enum d i vs => Derive.enumItems d i (itemsAll vs)

def itemsAll : List RV → List (List Item)
  | [] => []
  | x :: xs => items x :: itemsAll xs
end

/-! ## `sval_ref`

The values of types that implement `ValueRef`, where `.boxed` is a `Ref` of a reference, or forwards. -/

/-- Values of types that implement `ValueRef`. -/
inductive RR where
  /-- `Ref<&V>` -/
  | ref (v : RV)
  /-- `&T`, `Box` or `Vec` -/
  | boxed (r : RR)
  | slice (rs : List RR)
  | array (rs : List RR)
  | tuple (rs : List RR)

/-- The loop over elements: `ref/src/seq.rs:9-13`, `ref/src/seq.rs:24-28` -/
def refElems : List (List Item) → List Item
  | [] => []
  | q :: qs => .tok .seqValueBegin :: (q ++ .tok .seqValueEnd :: refElems qs)

/-- The elements of a tuple: `ref/src/seq.rs:44-48` -/
def refTup (i : Nat) : List (List Item) → List Item
  | [] => []
  | q :: qs =>
    .tok (.tupleValueBegin Option.none (offset i)) :: (q ++ .tok (.tupleValueEnd Option.none (offset i)) ::
      refTup (i + 1) qs)

mutual
/-- `ValueRef::stream_ref` -/
def refItems : RR → List Item
  -- `ref/src/lib.rs:158-162`
  | .ref v => items v
  -- `ref/src/lib.rs:178-198`, `ref/src/seq.rs:234-238`
  | .boxed r => refItems r
  -- `ref/src/seq.rs:5-17`
  | .slice rs => .tok (.seqBegin (Option.some rs.length)) :: (refElems (refItemsAll rs) ++ [.tok .seqEnd])
  -- `ref/src/seq.rs:19-33`
  | .array rs =>
    .tok (.taggedBegin constantSize) :: .tok (.seqBegin (Option.some rs.length)) ::
      (refElems (refItemsAll rs) ++ [.tok .seqEnd, .tok (.taggedEnd constantSize)])
  -- `ref/src/seq.rs:35-55`
  | .tuple rs => .tok (.tupleBegin {} (Option.some rs.length)) :: (refTup 0 (refItemsAll rs) ++ [.tok (.tupleEnd {})])

def refItemsAll : List RR → List (List Item)
  | [] => []
  | r :: rs => refItems r :: refItemsAll rs
end

mutual
/-- The same value as one that implements `Value`, as every `ValueRef` does: `ref/src/lib.rs:171-176` -/
def RR.value : RR → RV
  | .ref v => .boxed v
  | .boxed r => .boxed r.value
  | .slice rs => .slice (RR.values rs)
  | .array rs => .array (RR.values rs)
  | .tuple rs => .tuple (RR.values rs)

def RR.values : List RR → List RV
  | [] => []
  | r :: rs => r.value :: RR.values rs
end

end Sval.Rust
