import Verif.Derive.Model

set_option autoImplicit false

/-!
# Attributes of derived types: `derive_macros/src/attr.rs`, `derive_macros/src/derive/*.rs`

From an item as it is written to the definition that `Verif/Derive/Model` generates code for. `none` is a panic of the
macro, which is an error of the compiler. What `syn` parses is given: an attribute is its path and the items in it; a
string that is parsed as a path may not be one. Integers are those of a 64 bit host.
-/

namespace Sval.Derive

/-- Literals. -/
inductive Lit where
  | str (s : Text)
  | int (n : Nat)
  | bool (b : Bool)
  | other
deriving DecidableEq

/-- Expressions. -/
inductive Expr where
  | lit (l : Lit)
  | neg (l : Lit)
  | path (p : Text)
  | other
deriving DecidableEq

/-- `#[path(key, key = expr, ...)]` -/
structure Attribute where
  path : Text
  items : List (Text × Option Expr)

/-- What paths are, and what constants they stand for. -/
structure Names where
  isPath : Text → Bool
  tag : Text → Tag
  label : Text → Label
  index : Text → Index

/-- `sval_attr`: `derive_macros/src/attr.rs:456-482` -/
def svalAttr (a : Attribute) : Option (List (Text × Expr)) :=
  if !(a.path = t! "sval") then none
  else some (a.items.map fun i => (i.1, match i.2 with
    | some e => e
    | none => .lit (.bool true)))

/-- `attrs.iter().filter_map(|attr| sval_attr(ctxt, attr)).flatten()` -/
def given (attrs : List Attribute) : List (Text × Expr) := (attrs.filterMap svalAttr).flatten

/-! ## Values of attributes -/

/-- `TagAttr` and `DataTagAttr`: `derive_macros/src/attr.rs:18-32`, `derive_macros/src/attr.rs:52-66` -/
def tryTag (N : Names) : Expr → Option Tag
  | .lit (.str s) => if N.isPath s then some (N.tag s) else none
  | .lit _ => none
  | .path p => some (N.tag p)
  | _ => none

/-- `LabelAttr`: `derive_macros/src/attr.rs:86-100` -/
def tryLabel (N : Names) : Expr → Option LabelVal
  | .lit (.str s) => some (.const s)
  | .lit _ => none
  | .path p => some (.path (N.label p))
  | _ => none

/-- `const_from_lit`: `derive_macros/src/attr.rs:118-124` -/
def constFromLit : Lit → Option Int
  | .int n => if n < 2 ^ 63 then some n else none
  | _ => none

/-- `IndexAttr`: `derive_macros/src/attr.rs:130-148`. `some none` is for expressions it can not use. -/
def tryIndex (N : Names) : Expr → Option (Option IndexVal)
  | .neg l => (constFromLit l).map fun n => some (.const (-n))
  | .lit l => (constFromLit l).map fun n => some (.const n)
  | .path p => some (some (.path (N.index p)))
  | .other => some none

/-- `SkipAttr` and so on: `derive_macros/src/attr.rs:172-178`, `derive_macros/src/attr.rs:378-384` -/
def tryBool : Expr → Option Bool
  | .lit (.bool b) => some b
  | _ => none

/-- `FlattenAttr`, with or without the feature: `derive_macros/src/attr.rs:348-362` -/
def tryFlatten (feature : Bool) (e : Expr) : Option Bool := if feature then tryBool e else none

/-! ## Lookup -/

/-- `ensure_empty`: `derive_macros/src/attr.rs:389-398` -/
def ensureEmpty (attrs : List Attribute) : Option Unit :=
  match given attrs with
  | [] => some ()
  | _ => none

/-- `get_unchecked`: `derive_macros/src/attr.rs:436-454` -/
def get {α : Type} (key : Text) (f : Expr → Option α) (attrs : List Attribute) : Option (Option α) :=
  go (given attrs)
where
  go : List (Text × Expr) → Option (Option α)
    | [] => some none
    | (k, e) :: r => if k = key then (f e).map some else go r

/-- `ensure_missing`: `derive_macros/src/attr.rs:400-406` -/
def ensureMissing {α : Type} (key : Text) (f : Expr → Option α) (attrs : List Attribute) : Option Unit :=
  match get key f attrs with
  | some none => some ()
  | _ => none

/-- The loop over allowed keys in `check`: `derive_macros/src/attr.rs:418-428`, with the keys seen so far and
`is_valid_attr`. -/
def checkKey (key : Text) : List Text → List Text → Bool → Option (List Text × Bool)
  | [], seen, valid => some (seen, valid)
  | a :: as, seen, valid =>
    if key = a then if seen.contains a then none else checkKey key as (a :: seen) true
    else checkKey key as seen valid

/-- The loop over attributes in `check`. -/
def checkAll (allowed : List Text) : List Text → List (Text × Expr) → Option Unit
  | _, [] => some ()
  | seen, (k, _) :: r =>
    match checkKey k allowed seen false with
    | some (seen, true) => checkAll allowed seen r
    | _ => none

/-- `check`: `derive_macros/src/attr.rs:408-434` -/
def check (allowed : List Text) (attrs : List Attribute) : Option Unit := checkAll allowed [] (given attrs)

/-! ## Attributes of types -/

/-- `attr::get_unchecked(..., attr::IndexAttr, attrs)` -/
def getIndex (N : Names) (attrs : List Attribute) : Option (Option IndexVal) :=
  get (t! "index") (fun e => (tryIndex N e).bind id) attrs

/-- `attr::get_unchecked(...).unwrap_or(false)` -/
def getBool (key : Text) (attrs : List Attribute) : Option Bool := (get key tryBool attrs).map (·.getD false)

/-- `StructAttrs::from_attrs`: `derive_macros/src/derive/derive_struct.rs:21-50` -/
def structAttrs (N : Names) (attrs : List Attribute) : Option Attrs := do
  check [t! "tag", t! "label", t! "index", t! "unlabeled_fields", t! "unindexed_fields"] attrs
  let tag ← get (t! "tag") (tryTag N) attrs
  let label ← get (t! "label") (tryLabel N) attrs
  let index ← getIndex N attrs
  let unlabeled ← getBool (t! "unlabeled_fields") attrs
  let unindexed ← getBool (t! "unindexed_fields") attrs
  return { tag, label, index, unlabeled, unindexed }

/-- `UnitStructAttrs::from_attrs`: `derive_macros/src/derive/derive_unit_struct.rs:19-31` -/
def unitAttrs (N : Names) (attrs : List Attribute) : Option Attrs := do
  check [t! "tag", t! "label", t! "index"] attrs
  let tag ← get (t! "tag") (tryTag N) attrs
  let label ← get (t! "label") (tryLabel N) attrs
  let index ← getIndex N attrs
  return { tag, label, index }

/-- `NewtypeAttrs::from_attrs`: `derive_macros/src/derive/derive_newtype.rs:20-50`; the flag is `transparent`. -/
def newtypeAttrs (N : Names) (attrs : List Attribute) : Option (Attrs × Bool) := do
  check [t! "tag", t! "label", t! "index", t! "transparent"] attrs
  let tag ← get (t! "tag") (tryTag N) attrs
  let label ← get (t! "label") (tryLabel N) attrs
  let index ← getIndex N attrs
  let transparent ← getBool (t! "transparent") attrs
  if transparent && (tag.isSome || label.isSome || index.isSome) then none
  else return ({ tag, label, index }, transparent)

/-- `EnumAttrs::from_attrs`: `derive_macros/src/derive/derive_enum.rs:26-66`, without the variants. -/
def enumAttrs (N : Names) (ident : Text) (attrs : List Attribute) : Option EnumDef := do
  check [t! "tag", t! "label", t! "index", t! "dynamic", t! "unlabeled_variants", t! "unindexed_variants"] attrs
  let tag ← get (t! "tag") (tryTag N) attrs
  let label ← get (t! "label") (tryLabel N) attrs
  let index ← getIndex N attrs
  let unlabeledVariants ← getBool (t! "unlabeled_variants") attrs
  let unindexedVariants ← getBool (t! "unindexed_variants") attrs
  let dyn ← getBool (t! "dynamic") attrs
  if dyn && (tag.isSome || label.isSome || index.isSome || unlabeledVariants || unindexedVariants) then none
  else return { ident, tag, label, index, unlabeledVariants, unindexedVariants, dyn, variants := [] }

/-- The label of a field: `derive_macros/src/stream/stream_record_tuple.rs:82-91` -/
def fieldLabel (N : Names) (at' : Attrs) (attrs : List Attribute) : Option (Option LabelVal) :=
  if at'.unlabeled then (ensureMissing (t! "label") (tryLabel N) attrs).map fun _ => none
  else get (t! "label") (tryLabel N) attrs

/-- The index of a field: `derive_macros/src/stream/stream_record_tuple.rs:93-102` -/
def fieldIndex (N : Names) (at' : Attrs) (attrs : List Attribute) : Option (Option IndexVal) :=
  if at'.unindexed then (ensureMissing (t! "index") (fun e => (tryIndex N e).bind id) attrs).map fun _ => none
  else getIndex N attrs

/-- The attributes of a field: `derive_macros/src/stream/stream_record_tuple.rs:55-113` -/
def fieldAttrs (N : Names) (feature : Bool) (at' : Attrs) (ident : Option Text) (attrs : List Attribute) : Option Field := do
  check [t! "tag", t! "data_tag", t! "index", t! "label", t! "skip", t! "flatten"] attrs
  let skip ← getBool (t! "skip") attrs
  if skip then return { ident, skip := true }
  let tag ← get (t! "tag") (tryTag N) attrs
  let label ← fieldLabel N at' attrs
  let index ← fieldIndex N at' attrs
  let flatten ← (get (t! "flatten") (tryFlatten feature) attrs).map (·.getD false)
  let dataTag ← get (t! "data_tag") (tryTag N) attrs
  return { ident, tag, dataTag, label, index, flatten }

/-- The fields of a struct, and the assertions about them:
`derive_macros/src/stream/stream_record_tuple.rs:54-200` -/
def structFields (N : Names) (feature : Bool) (at' : Attrs) (fields : List (Option Text × List Attribute)) :
    Option (List Field) := do
  let fs ← fields.mapM fun f => fieldAttrs N feature at' f.1 f.2
  let ps := plans at' {} fs
  let labeled := ps.countP (·.label.isSome)
  let indexed := ps.countP (·.slot.isSome)
  if (labeled = 0 || labeled = ps.length) && (indexed = 0 || indexed = ps.length) then return fs
  else none

/-! ## Items -/

/-- `syn::Fields` -/
inductive Fields where
  | unit
  | named (fs : List (Text × List Attribute))
  | unnamed (fs : List (List Attribute))

/-- `syn::Variant`; a discriminant with its value. -/
structure VariantItem where
  ident : Text
  attrs : List Attribute
  fields : Fields
  discr : Option (Expr × Int)

/-- `syn::Data` -/
inductive Data where
  | struct (fields : Fields)
  | enum (variants : List VariantItem)
  | union

/-- `syn::DeriveInput` -/
structure Item' where
  ident : Text
  attrs : List Attribute
  data : Data

/-- What code is generated for. -/
inductive Def where
  | unitStruct (ident : Text) (at' : Attrs)
  | newtype (ident : Text) (at' : Attrs) (transparent : Bool)
  | struct (named : Bool) (ident : Text) (at' : Attrs) (fs : List Field)
  | void (ident : Text)
  | enum (d : EnumDef)

/-- The use of a discriminant: `derive_macros/src/derive/derive_enum.rs:140-143` -/
def discrOf (N : Names) : Option (Expr × Int) → Option (Option Discr)
  | none => some none
  | some (e, v) => (tryIndex N e).map fun
    | some (.const i) => some (.lit i)
    | some (.path _) => some (.path v)
    | none => some (.expr v)

/-- Attributes and fields of a variant: `derive_macros/src/derive/derive_enum.rs:147-198`,
`derive_macros/src/stream/stream_newtype.rs:19` -/
def variantShape (N : Names) (feature : Bool) (attrs : List Attribute) : Fields → Option (Attrs × Shape)
  | .unnamed [field] => do
    let (at', _) ← newtypeAttrs N attrs
    ensureEmpty field
    return (at', .newtype)
  | .unit => do
    let at' ← unitAttrs N attrs
    return (at', .unit)
  | .named fields => do
    let at' ← structAttrs N attrs
    let fs ← structFields N feature at' (fields.map fun f => (some f.1, f.2))
    return (at', .named fs)
  | .unnamed fields => do
    let at' ← structAttrs N attrs
    let fs ← structFields N feature at' (fields.map fun f => (none, f))
    return (at', .unnamed fs)

/-- A variant: `derive_macros/src/derive/derive_enum.rs:123-199` -/
def variantDef (N : Names) (feature : Bool) (v : VariantItem) : Option Variant := do
  check [t! "tag", t! "label", t! "index", t! "unlabeled_fields", t! "unindexed_fields"] v.attrs
  let discr ← discrOf N v.discr
  let (attrs, shape) ← variantShape N feature v.attrs v.fields
  return { ident := v.ident, shape, attrs, discr }

/-- `derive`: `derive_macros/src/derive.rs:13-48` -/
def derive (N : Names) (feature : Bool) (x : Item') : Option Def :=
  match x.data with
  | .struct .unit => do
    let at' ← unitAttrs N x.attrs
    return .unitStruct x.ident at'
  | .struct (.unnamed [field]) => do
    let (at', transparent) ← newtypeAttrs N x.attrs
    ensureEmpty field
    return .newtype x.ident at' transparent
  | .struct (.named fields) => do
    let at' ← structAttrs N x.attrs
    let fs ← structFields N feature at' (fields.map fun f => (some f.1, f.2))
    return .struct true x.ident at' fs
  | .struct (.unnamed fields) => do
    let at' ← structAttrs N x.attrs
    let fs ← structFields N feature at' (fields.map fun f => (none, f))
    return .struct false x.ident at' fs
  | .enum [] => do
    ensureEmpty x.attrs
    return .void x.ident
  | .enum variants => do
    let d ← enumAttrs N x.ident x.attrs
    let vs ← variants.mapM (variantDef N feature)
    return .enum { d with variants := vs }
  | .union => none

end Sval.Derive
