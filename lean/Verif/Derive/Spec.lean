import Verif.Derive.Model
import Verif.Core.Tree

set_option autoImplicit false

/-! # What derived types are meant to stream -/

namespace Sval.Derive

/-- The fields that are streamed, with something for each of them. -/
def rows {α : Type} (fs : List Field) (xs : List α) : List (Field × α) := (fs.zip xs).filter fun r => !r.1.skip

/-- The indexes of a list of fields or variants: one that is given is used, others count on from the one before, or
from 0. Only those before any that is given are offsets. -/
def indexes (i : Int) (given : Bool) : List (Option IndexVal) → List Index
  | [] => []
  | some (.const k) :: r => { val := k } :: indexes (k + 1) true r
  | some (.path x) :: r => x :: indexes (i + 1) true r
  | none :: r => { val := i, tag := if given then none else some tags.VALUE_OFFSET } :: indexes (i + 1) given r

/-- The label of a field. -/
def nameOf (f : Field) : Option Label :=
  match f.label with
  | some (.const s) => some (.new s)
  | some (.path l) => some l
  | none => f.ident.map fun i => (Label.new i).withTag tags.VALUE_IDENT

/-- The label of a field that has one. -/
def name (f : Field) : Label := (nameOf f).getD (.new [])

/-- The value of a field, inside of its data tag. -/
def data (f : Field) (v : V) : V :=
  match f.dataTag with
  | some t => .tagged { tag := some t } v
  | none => v

/-- Do fields have labels? A struct without fields has them if it could have had some. -/
def labeled {α : Type} (named : Bool) (at' : Attrs) (rs : List (Field × α)) : Bool :=
  match rs with
  | [] => named
  | r :: _ => !at'.unlabeled && (nameOf r.1).isSome

/-- Do fields have indexes? -/
def indexed {α : Type} (at' : Attrs) (rs : List (Field × α)) : Bool := rs.isEmpty || !at'.unindexed

/-- The fields with their indexes. -/
def entries (rs : List (Field × V)) : List ((Field × V) × Index) := rs.zip (indexes 0 false (rs.map (·.1.index)))

/-- The value of a struct, or of a variant with fields. -/
def structTree (named : Bool) (at' : Attrs) (m : Meta) (fs : List Field) (vs : List V) : V :=
  let rs := rows fs vs
  match labeled named at' rs, indexed at' rs with
  | true, true => .recordTuple m (some rs.length)
      ((entries rs).map fun r => (r.1.1.tag, name r.1.1, r.2, data r.1.1 r.1.2))
  | false, true => .tuple m (some rs.length) ((entries rs).map fun r => (r.1.1.tag, r.2, data r.1.1 r.1.2))
  | true, false => .record m (some rs.length) (rs.map fun r => (r.1.tag, name r.1, data r.1 r.2))
  | false, false => .tagged m (.seq (some rs.length) (rs.map fun r => data r.1 r.2))

/-- What is given for the index of a variant by its discriminant. -/
def discrIndex (v : Variant) : Option IndexVal := v.discr.bind Discr.toIndex

def isUnit : Shape → Bool
  | .unit => true
  | _ => false

/-- The label of a variant: those of dynamic enums only have one if they have no fields. -/
def variantName (d : EnumDef) (v : Variant) : Option Label :=
  if d.unlabeledVariants || (d.dyn && !isUnit v.shape) then none else some (labelOr v.attrs.label v.ident)

/-- The value of a variant, with its index. -/
def variantTree (d : EnumDef) (v : Variant) (i : Option Index) (vs : List V) : V :=
  let m : Meta := { tag := v.attrs.tag, label := variantName d v, index := i }
  match v.shape, vs with
  | .unit, _ => .tag m
  | .newtype, x :: _ => if d.dyn then x else .tagged m x
  | .newtype, [] => .null
  | .named fs, vs => structTree true v.attrs m fs vs
  | .unnamed fs, vs => structTree false v.attrs m fs vs

end Sval.Derive
