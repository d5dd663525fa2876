import Verif.Flatten.Spec
import Verif.Rust.Spec
import Verif.Derive.Flatten

set_option autoImplicit false

/-! # What derived types with flattened fields are meant to stream -/

namespace Sval.Derive

open Flatten (number labelOf inRange untaggedEnum isIsize)

/-- One field of a record tuple. -/
abbrev Row := Option Tag × Label × Index × V

/-- The rows of a flattened value that follows `n` others. -/
def flatRows (K : V → Text) (n : Int) (v : V) : List Row :=
  (number n n (Flatten.entries v)).1.map fun x => (x.1.tag, labelOf K x.1 x.2, x.2, x.1.val)

/-- The next index in a list of fields, as in `indexes`. -/
def nextIndex (i : Int) : Option IndexVal → Int
  | some (.const k) => k + 1
  | _ => i + 1

/-- The index of a field that is not flattened. One that is not given, nor follows any that is, is the number of those
before it, in which flattened fields count with as many as they have. -/
def rowIndex (i : Int) (given : Bool) (n : Int) : Option IndexVal → Index
  | some (.const k) => { val := k }
  | some (.path x) => x
  | none => if given then { val := i } else { val := n, tag := some tags.VALUE_OFFSET }

/-- The rows of a struct. `counts` says that fields that are not flattened are counted, `flatCounts` that flattened ones
are. -/
def structRows (K : V → Text) (counts flatCounts : Bool) : Int → Bool → Int → List (Field × V) → List Row
  | _, _, _, [] => []
  | i, given, n, (f, v) :: r =>
    if f.flatten then
      flatRows K n v ++
        structRows K counts flatCounts (nextIndex i f.index) (given || f.index.isSome)
          (if flatCounts then (number n n (Flatten.entries v)).2 else n) r
    else
      (f.tag, name f, rowIndex i given n f.index, data f v) ::
        structRows K counts flatCounts (nextIndex i f.index) (given || f.index.isSome)
          (if counts && !given && f.index.isNone then n + 1 else n) r

/-- The value of a struct, or of a variant with fields. -/
def flatTree (K : V → Text) (named : Bool) (at' : Attrs) (m : Meta) (fs : List Field) (vs : List V) : V :=
  let rs := Derive.rows fs vs
  let n := if rs.any (·.1.flatten) then none else some rs.length
  match labeled named at' rs, indexed at' rs with
  | true, true => .recordTuple m n (structRows K true true 0 false 0 rs)
  | false, true => .tuple m n ((structRows K true true 0 false 0 rs).map fun r => (r.1, r.2.2.1, r.2.2.2))
  | true, false => .record m n ((structRows K false true 0 false 0 rs).map fun r => (r.1, r.2.1, r.2.2.2))
  | false, false => .tagged m (.seq n ((structRows K false false 0 false 0 rs).map fun r => r.2.2.2))

/-- The value of a variant. -/
def flatVariant (K : V → Text) (d : EnumDef) (v : Variant) (i : Option Index) (vs : List V) : V :=
  let m : Meta := { tag := v.attrs.tag, label := variantName d v, index := i }
  match v.shape, vs with
  | .unit, _ => .tag m
  | .newtype, x :: _ => if d.dyn then x else .tagged m x
  | .newtype, [] => .null
  | .named fs, vs => flatTree K true v.attrs m fs vs
  | .unnamed fs, vs => flatTree K false v.attrs m fs vs

mutual
def ftree (K : V → Text) : FV → V
  | .plain v => Rust.tree v
  | .some v => .tagged (Rust.variant tags.RUST_OPTION_SOME (t! "Some") 1) (ftree K v)
  | .slice vs => .seq (Option.some vs.length) (ftrees K vs)
  | .struct named ident at' fs vs => flatTree K named at'
      { tag := at'.tag, label := Option.some (labelOr at'.label ident), index := at'.index.map Rust.attrIndex } fs
      (ftrees K vs)
  | .enum d i vs =>
    match d.variants[i]? with
    | none => .null
    | Option.some v =>
      let x := flatVariant K d v ((Rust.variantIndexes d d.variants)[i]?.getD none) (ftrees K vs)
      if d.dyn then x
      else .enum { tag := d.tag, label := Option.some (labelOr d.label d.ident), index := d.index.map Rust.attrIndex } x

def ftrees (K : V → Text) : List FV → List V
  | [] => []
  | v :: vs => ftree K v :: ftrees K vs
end

/-! ## Values that can be flattened -/

/-- Values that C29 is about. -/
def flattens (n : Int) (v : V) : Prop :=
  untaggedEnum v = true ∧ isIsize n ∧ inRange n n (Flatten.entries v) ∧ ∀ e ∈ Flatten.entries v, Token.mapKeyEnd ∉ toks e.val

/-- All flattened fields of a struct can be. -/
def rowsOk (counts flatCounts : Bool) : Int → Bool → Int → List (Field × V) → Prop
  | _, _, _, [] => True
  | i, given, n, (f, v) :: r =>
    if f.flatten then
      flattens n v ∧ rowsOk counts flatCounts (nextIndex i f.index) (given || f.index.isSome)
          (if flatCounts then (number n n (Flatten.entries v)).2 else n) r
    else
      rowsOk counts flatCounts (nextIndex i f.index) (given || f.index.isSome)
          (if counts && !given && f.index.isNone then n + 1 else n) r

/-- A struct that the macro accepts, with a value for each field, of which those that are flattened can be. -/
def structOk (named : Bool) (at' : Attrs) (fs : List Field) (vs : List V) : Prop :=
  accepted at' fs = true ∧ fs.length = vs.length ∧
  rowsOk (indexed at' (rows fs vs)) (indexed at' (rows fs vs) || labeled named at' (rows fs vs)) 0 false 0 (rows fs vs)

def variantOk (v : Variant) (vs : List V) : Prop :=
  match v.shape with
  | .unit => vs.length = 0
  | .newtype => vs.length = 1
  | .named fs => structOk true v.attrs fs vs
  | .unnamed fs => structOk false v.attrs fs vs

mutual
/-- Values of types that can be written in Rust, and of which flattened fields can be. -/
def fok (K : V → Text) : FV → Prop
  | .plain v => Rust.ok v
  | .some v => fok K v
  | .slice vs => foks K vs
  | .struct named _ at' fs vs => structOk named at' fs (ftrees K vs) ∧ foks K vs
  | .enum d i vs => (∃ v, d.variants[i]? = Option.some v ∧ variantOk v (ftrees K vs)) ∧ foks K vs

def foks (K : V → Text) : List FV → Prop
  | [] => True
  | v :: vs => fok K v ∧ foks K vs
end

end Sval.Derive
