import Verif.Nested.Model

set_option autoImplicit false

/-!
# `sval_derive`

`derive_macros/src`: what the derive macro generates for a type. A definition is given by its names, the parsed
attributes, and the shape of its fields; the generated code is a list of calls (`Nested.Item`), where `.val` is
`stream.value(field)?`. Numbers are not bounded: the macro computes indexes with `isize`.

Fields with `flatten` are in `Verif/Derive/Flatten.lean`.
-/

namespace Sval.Derive

open Nested (Item)

/-- `LabelValue`: `derive_macros/src/label.rs:3-7`. A path stands for its value. -/
inductive LabelVal where
  | const (s : Text)
  | path (l : Label)

/-- `IndexValue`: `derive_macros/src/index.rs:63-67`. A path stands for its value, as a `sval::Index`. -/
inductive IndexVal where
  | const (i : Int)
  | path (i : Index)

/-- `Index`: `derive_macros/src/index.rs:69-73`, with the value of the expression. -/
inductive Slot where
  | implicit (i : Int)
  | explicit (i : Index)

/-- `quote_index`: `derive_macros/src/index.rs:75-82` -/
def Slot.index : Slot → Index
  | .explicit i => i
  | .implicit i => { val := i, tag := some tags.VALUE_OFFSET }

/-- `IndexAllocator`: `derive_macros/src/index.rs:1-12` -/
structure Alloc where
  next : Int := 0
  explicit : Bool := false

/-- `const_index_of`: `derive_macros/src/index.rs:14-19` -/
def constIndexOf : IndexVal → Slot
  | .const i => .explicit { val := i }
  | .path i => .explicit i

/-- `next_const_index`: `derive_macros/src/index.rs:21-45` -/
def Alloc.nextConst (a : Alloc) : Option IndexVal → Slot × Alloc
  | some v =>
    let i := match v with
      | .const i => i
      | .path _ => a.next
    (constIndexOf v, { next := i + 1, explicit := true })
  | none =>
    (if a.explicit then .explicit { val := a.next } else .implicit a.next, { a with next := a.next + 1 })

/-- `quote_label` of `label_or_ident`: `derive_macros/src/label.rs:16-34`, `derive_macros/src/label.rs:45-53` -/
def labelOr (explicit : Option LabelVal) (ident : Text) : Label :=
  match explicit with
  | some (.const s) => .new s
  | some (.path l) => l
  | none => (Label.new ident).withTag tags.VALUE_IDENT

/-- `quote_label` of `optional_label_or_ident`: `derive_macros/src/label.rs:36-53` -/
def optLabelOr (explicit : Option LabelVal) (ident : Option Text) : Option Label :=
  match explicit, ident with
  | none, none => none
  | e, some i => some (labelOr e i)
  | some (.const s), none => some (.new s)
  | some (.path l), none => some l

/-! ## Structs -/

/-- A field and its attributes. -/
structure Field where
  ident : Option Text := none
  tag : Option Tag := none
  dataTag : Option Tag := none
  label : Option LabelVal := none
  index : Option IndexVal := none
  skip : Bool := false
  flatten : Bool := false

/-- `StructAttrs`: `derive_macros/src/derive/derive_struct.rs:12-18`, or the attributes of a variant with fields. -/
structure Attrs where
  tag : Option Tag := none
  label : Option LabelVal := none
  index : Option IndexVal := none
  unlabeled : Bool := false
  unindexed : Bool := false

/-- `RecordTupleTarget`: `derive_macros/src/stream/stream_record_tuple.rs:11-16` -/
inductive Target where
  | recordTuple | record | tuple | seq
deriving DecidableEq

/-- What is generated for one field: its label, and its index. An implicit index is the variable `__sval_index` at
run time. -/
structure Plan where
  tag : Option Tag
  dataTag : Option Tag
  label : Option Label
  slot : Option Slot
  flatten : Bool

/-- The target that a field sets: `derive_macros/src/stream/stream_record_tuple.rs:123-187` -/
def Plan.target (p : Plan) : Target :=
  match p.label, p.slot with
  | some _, some _ => .recordTuple
  | none, some _ => .tuple
  | some _, none => .record
  | none, none => .seq

/-- The fields in order, without skipped ones: `derive_macros/src/stream/stream_record_tuple.rs:55-191` -/
def plans (at' : Attrs) (a : Alloc) : List Field → List Plan
  | [] => []
  | f :: fs =>
    if f.skip then plans at' a fs
    else
      let label := if at'.unlabeled then none else optLabelOr f.label f.ident
      let slot := if at'.unindexed then none else some (a.nextConst f.index).1
      let a := if at'.unindexed then a else (a.nextConst f.index).2
      { tag := f.tag, dataTag := f.dataTag, label, slot, flatten := f.flatten } :: plans at' a fs

/-- `ensure_missing` and the assertions: the macro does not accept other structs.
`derive_macros/src/stream/stream_record_tuple.rs:82-102`, `derive_macros/src/stream/stream_record_tuple.rs:193-200` -/
def accepted (at' : Attrs) (fs : List Field) : Bool :=
  fs.all (fun f => f.skip || ((!at'.unlabeled || f.label.isNone) && (!at'.unindexed || f.index.isNone))) &&
  ((plans at' {} fs).all (fun p => p.label.isNone) || (plans at' {} fs).all (fun p => p.label.isSome))

/-- The target: that of the last field, or of a struct without any.
`derive_macros/src/stream/stream_record_tuple.rs:18-26` -/
def target (named : Bool) (ps : List Plan) : Target :=
  match ps.getLast? with
  | some p => p.target
  | none => if named then .recordTuple else .tuple

/-- The field count: `derive_macros/src/stream/stream_record_tuple.rs:202-206` -/
def count (ps : List Plan) : Option Nat := if ps.any (·.flatten) then none else some ps.length

/-- Streaming the value of a field: `derive_macros/src/stream/stream_record_tuple.rs:109-121` -/
def valueItems (dataTag : Option Tag) (q : List Item) : List Item :=
  match dataTag with
  | some t => [.tok (.taggedBegin { tag := some t }), .val q, .tok (.taggedEnd { tag := some t })]
  | none => [.val q]

/-- The index of a field when the variable `__sval_index` is `n`. -/
def Slot.at (n : Int) : Slot → Index
  | .implicit _ => { val := n, tag := some tags.VALUE_OFFSET }
  | .explicit i => i

/-- And the variable after it: `derive_macros/src/index.rs:47-60` -/
def Slot.after (n : Int) : Slot → Int
  | .implicit _ => n + 1
  | .explicit _ => n

/-- One field that is not flattened: `derive_macros/src/stream/stream_record_tuple.rs:123-187` -/
def fieldItems (n : Int) (p : Plan) (q : List Item) : List Item :=
  match p.label, p.slot with
  | some l, some i => .tok (.recordTupleValueBegin p.tag l (i.at n)) ::
      (valueItems p.dataTag q ++ [.tok (.recordTupleValueEnd p.tag l (i.at n))])
  | none, some i => .tok (.tupleValueBegin p.tag (i.at n)) ::
      (valueItems p.dataTag q ++ [.tok (.tupleValueEnd p.tag (i.at n))])
  | some l, none => .tok (.recordValueBegin p.tag l) :: (valueItems p.dataTag q ++ [.tok (.recordValueEnd p.tag l)])
  | none, none => .tok .seqValueBegin :: (valueItems p.dataTag q ++ [.tok .seqValueEnd])

/-- The variable after a field. -/
def Plan.after (n : Int) (p : Plan) : Int :=
  match p.slot with
  | some i => i.after n
  | none => n

/-- The fields with their values, when none is flattened. -/
def fieldsItems (n : Int) : List Plan → List (List Item) → List Item
  | p :: ps, q :: qs => fieldItems n p q ++ fieldsItems (p.after n) ps qs
  | _, _ => []

/-- The calls around the fields: `derive_macros/src/stream/stream_record_tuple.rs:208-261` -/
def beginItems (t : Target) (m : Meta) (n : Option Nat) : List Item :=
  match t with
  | .recordTuple => [.tok (.recordTupleBegin m n)]
  | .tuple => [.tok (.tupleBegin m n)]
  | .record => [.tok (.recordBegin m n)]
  | .seq => [.tok (.taggedBegin m), .tok (.seqBegin n)]
/-- The calls around the fields: `derive_macros/src/stream/stream_record_tuple.rs:208-261` -/
def endItems (t : Target) (m : Meta) : List Item :=
  match t with
  | .recordTuple => [.tok (.recordTupleEnd m)]
  | .tuple => [.tok (.tupleEnd m)]
  | .record => [.tok (.recordEnd m)]
  | .seq => [.tok .seqEnd, .tok (.taggedEnd m)]

/-- The values of the fields that are not skipped. -/
def kept.{u} {α : Type u} : List Field → List α → List α
  | f :: fs, x :: xs => if f.skip then kept fs xs else x :: kept fs xs
  | _, _ => []

/-- `stream_record_tuple`, without flattened fields: `derive_macros/src/stream/stream_record_tuple.rs:28-262`. The
values are those of all fields. -/
def structItems (named : Bool) (at' : Attrs) (m : Meta) (fs : List Field) (vs : List (List Item)) : List Item :=
  let ps := plans at' {} fs
  beginItems (target named ps) m (count ps) ++ (fieldsItems 0 ps (kept fs vs) ++ endItems (target named ps) m)

/-- The tag, label and index of a struct: `derive_macros/src/derive/derive_struct.rs:90-99`, and of unit structs and
newtypes. -/
def structMeta (ident : Text) (at' : Attrs) : Meta :=
  { tag := at'.tag, label := some (labelOr at'.label ident), index := at'.index.map fun i => (constIndexOf i).index }

/-! ## Enums -/

/-- The fields of a variant. -/
inductive Shape where
  | unit
  | newtype
  | named (fs : List Field)
  | unnamed (fs : List Field)

/-- The expression of a discriminant and its value: `derive_macros/src/attr.rs:130-148` can use literals and paths. -/
inductive Discr where
  | lit (i : Int)
  | path (i : Int)
  | expr (i : Int)

/-- `IndexAttr.try_from_expr`: `derive_macros/src/attr.rs:130-148` -/
def Discr.toIndex : Discr → Option IndexVal
  | .lit i => some (.const i)
  | .path i => some (.path { val := i })
  | .expr _ => none

/-- A variant of an enum, as `derive_enum` gets it: `derive_macros/src/derive/derive_enum.rs:81-130`. -/
structure Variant where
  ident : Text
  shape : Shape
  attrs : Attrs := {}
  discr : Option Discr := none

/-- `EnumAttrs`: `derive_macros/src/derive/derive_enum.rs:16-23` -/
structure EnumDef where
  ident : Text
  tag : Option Tag := none
  label : Option LabelVal := none
  index : Option IndexVal := none
  unlabeledVariants : Bool := false
  unindexedVariants : Bool := false
  dyn : Bool := false
  variants : List Variant

/-- `variant_index`: `derive_macros/src/derive/derive_enum.rs:95-103` -/
def variantSlot (d : EnumDef) (a : Alloc) (v : Variant) : Option Slot × Alloc :=
  match v.attrs.index with
  | some i => (some (constIndexOf i), a)
  | none =>
    if d.dyn || d.unindexedVariants then (none, a)
    else ((a.nextConst (v.discr.bind Discr.toIndex)).1, (a.nextConst (v.discr.bind Discr.toIndex)).2)

/-- The indexes of the variants, in order: `derive_macros/src/derive/derive_enum.rs:123-199` -/
def variantSlots (d : EnumDef) (a : Alloc) : List Variant → List (Option Slot)
  | [] => []
  | v :: vs => (variantSlot d a v).1 :: variantSlots d (variantSlot d a v).2 vs

/-- `variant_label` and `unit_variant_label`: `derive_macros/src/derive/derive_enum.rs:105-119` -/
def variantLabel (d : EnumDef) (v : Variant) : Option Label :=
  match v.shape with
  | .unit => if d.unlabeledVariants then none else some (labelOr v.attrs.label v.ident)
  | _ => if d.dyn || d.unlabeledVariants then none else some (labelOr v.attrs.label v.ident)

/-- The tag, label and index of a variant. -/
def variantMeta (d : EnumDef) (v : Variant) (s : Option Slot) : Meta :=
  { tag := v.attrs.tag, label := variantLabel d v, index := s.map Slot.index }

/-- The arm of the match for a variant: `derive_macros/src/derive/derive_enum.rs:147-198`,
`derive_macros/src/stream/stream_newtype.rs:11-36`, `derive_macros/src/stream/stream_tag.rs:10-23` -/
def armItems (d : EnumDef) (v : Variant) (s : Option Slot) (vs : List (List Item)) : List Item :=
  let m := variantMeta d v s
  match v.shape with
  | .unit => [.tok (.tag m)]
  | .newtype =>
    if d.dyn then vs.map .val
    else .tok (.taggedBegin m) :: (vs.map .val ++ [.tok (.taggedEnd m)])
  | .named fs => structItems true v.attrs m fs vs
  | .unnamed fs => structItems false v.attrs m fs vs

/-- The tag, label and index of an enum: `derive_macros/src/derive/derive_enum.rs:217-220` -/
def enumMeta (d : EnumDef) : Meta :=
  { tag := d.tag, label := some (labelOr d.label d.ident), index := d.index.map fun i => (constIndexOf i).index }

/-- `derive_enum`: `derive_macros/src/derive/derive_enum.rs:201-238`, for a value of variant `i`. -/
def enumItems (d : EnumDef) (i : Nat) (vs : List (List Item)) : List Item :=
  match d.variants[i]?, (variantSlots d {} d.variants)[i]? with
  | some v, some s =>
    if d.dyn then armItems d v s vs
    else .tok (.enumBegin (enumMeta d)) :: (armItems d v s vs ++ [.tok (.enumEnd (enumMeta d))])
  | _, _ => []

/-! ## Other structs -/

/-- `derive_unit_struct`: `derive_macros/src/derive/derive_unit_struct.rs:46-79` -/
def unitItems (ident : Text) (at' : Attrs) : List Item := [.tok (.tag (structMeta ident at'))]

/-- `derive_newtype`: `derive_macros/src/derive/derive_newtype.rs:69-105` -/
def newtypeItems (ident : Text) (at' : Attrs) (transparent : Bool) (q : List Item) : List Item :=
  if transparent then [.val q]
  else [.tok (.taggedBegin (structMeta ident at')), .val q, .tok (.taggedEnd (structMeta ident at'))]

end Sval.Derive
