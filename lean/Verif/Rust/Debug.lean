import Verif.Rust.Spec
import Verif.Fmt.Spec

set_option autoImplicit false

/-!
# Debug

A specification of what `format!("{:?}", x)` gives for a Rust value whose types derive `core::fmt::Debug`, or have the
implementation of `core`. Derived implementations know nothing of `#[sval(..)]`.
-/

namespace Sval.Rust

open Derive (Field Attrs Shape Variant EnumDef)

/-- How `core` writes floats, with `{}` or with `{:?}`. -/
structure FloatTexts where
  f32 : UInt32 → Text
  f64 : UInt64 → Text

/-- Separated by commas. -/
def join : List Text → Text
  | [] => []
  | [x] => x
  | x :: y :: r => x ++ t! ", " ++ join (y :: r)

/-- `Formatter::debug_list` -/
def debugList (xs : List Text) : Text := t! "[" ++ join xs ++ t! "]"

/-- `Formatter::debug_tuple`, with a name -/
def debugTuple (name : Text) (xs : List Text) : Text := if xs = [] then name else name ++ t! "(" ++ join xs ++ t! ")"

/-- `Formatter::debug_struct` -/
def debugStruct (name : Text) (xs : List (Text × Text)) : Text :=
  if xs = [] then name else name ++ t! " { " ++ join (xs.map fun x => x.1 ++ t! ": " ++ x.2) ++ t! " }"

/-- `Formatter::debug_map` -/
def debugMap (xs : List (Text × Text)) : Text := t! "{" ++ join (xs.map fun x => x.1 ++ t! ": " ++ x.2) ++ t! "}"

/-- A struct, or a variant with fields. -/
def debugFields (named : Bool) (name : Text) (fs : List Field) (xs : List Text) : Text :=
  if named then debugStruct name ((fs.zip xs).map fun r => (r.1.ident.getD [], r.2)) else debugTuple name xs

/-- A variant. -/
def debugVariant (v : Variant) (xs : List Text) : Text :=
  match v.shape with
  | .unit => v.ident
  | .newtype => debugTuple v.ident xs
  | .named fs => debugFields true v.ident fs xs
  | .unnamed fs => debugFields false v.ident fs xs

section
variable (env : Fmt.Env) (D : FloatTexts)

/-- A string: single quotes are not escaped. -/
def debugStr (s : Text) : Text := t! "\"" ++ (s.flatMap fun c => if c = '\'' then [c] else Fmt.escapeDebug env c) ++ t! "\""

/-- A character: double quotes are not escaped. -/
def debugChar (c : Char) : Text := t! "'" ++ (if c = '"' then [c] else Fmt.escapeDebug env c) ++ t! "'"

mutual
/-- `{:?}`. `sval::Display` and types that stream numbers as text have no such implementation. Maps are those of
`alloc` and `std`. -/
def debug : RV → Text
  | .unit => t! "()"
  | .null => t! "Null"
  | .bool b => if b then t! "true" else t! "false"
  | .int _ v => intDec v
  | .f32 b => D.f32 b
  | .f64 b => D.f64 b
  | .char c => debugChar env c
  | .str s => debugStr env s
  | .display _ | .number _ => []
  | .bytes b | .byteArray b => debugList (b.map fun b => intDec b.toNat)
  | .none => t! "None"
  | .some v => debugTuple (t! "Some") [debug v]
  | .slice xs | .array xs => debugList (debugs xs)
  | .tuple xs =>
    match debugs xs with
    | [x] => t! "(" ++ x ++ t! ",)"
    | xs => t! "(" ++ join xs ++ t! ")"
  | .map ks vs => debugMap ((debugs ks).zip (debugs vs))
  | .boxed v => debug v
  | .unitStruct ident _ => ident
  | .newtype ident _ _ v => debugTuple ident [debug v]
  | .struct named ident _ fs vs => debugFields named ident fs (debugs vs)
  | .enum d i vs =>
    match d.variants[i]? with
    | Option.none => []
    | Option.some v => debugVariant v (debugs vs)
def debugs : List RV → List Text
  | [] => []
  | x :: xs => debug x :: debugs xs
end
end

/-! ## Where `ToFmt` gives the same -/

/-- A field that is streamed under its own name. Its data is not tagged as a number. -/
def bareField (named : Bool) (f : Field) : Prop :=
  f.skip = false ∧ f.label = Option.none ∧ f.dataTag ≠ Option.some tags.NUMBER ∧ f.ident.isSome = named

/-- Fields that are streamed as they are declared. There is at least one. -/
def bareFields (named : Bool) (at' : Attrs) (fs : List Field) : Prop :=
  fs ≠ [] ∧ (∀ f ∈ fs, bareField named f) ∧ if named then at'.unlabeled = false else at'.unindexed = false

/-- A variant that is streamed under its own name. -/
def bareVariant (d : EnumDef) (v : Variant) : Prop :=
  d.dyn = false ∧ d.unlabeledVariants = false ∧ v.attrs.label = Option.none ∧
  match v.shape with
  | .unit => True
  | .newtype => v.attrs.tag ≠ Option.some tags.NUMBER
  | .named fs => bareFields true v.attrs fs
  | .unnamed fs => bareFields false v.attrs fs

section
variable (P D : FloatTexts)

mutual
/-- Values without characters, one-tuples, entries of maps, structs with fields that have none, or texts with single
quotes; and without attributes that say to stream something else than what is declared. Floats have to be written alike
by `{}`, for `P`, and `{:?}`, for `D`. -/
def alike : RV → Prop
  | .unit | .bool _ | .int _ _ | .bytes _ | .byteArray _ | .none => True
  | .null | .char _ | .display _ | .number _ => False
  | .f32 b => P.f32 b = D.f32 b
  | .f64 b => P.f64 b = D.f64 b
  | .str s => '\'' ∉ s
  | .some v | .boxed v => alike v
  | .slice xs | .array xs => alikes xs
  | .tuple xs => xs.length ≠ 1 ∧ alikes xs
  | .map ks vs => ks = [] ∧ vs = []
  | .unitStruct _ at' => at'.label = Option.none
  | .newtype _ at' transparent v =>
    at'.label = Option.none ∧ at'.tag ≠ Option.some tags.NUMBER ∧ transparent = false ∧ alike v
  | .struct named _ at' fs vs => at'.label = Option.none ∧ bareFields named at' fs ∧ alikes vs
  | .enum d i vs => (∀ v, d.variants[i]? = Option.some v → bareVariant d v) ∧ alikes vs
def alikes : List RV → Prop
  | [] => True
  | x :: xs => alike x ∧ alikes xs
end
end

end Sval.Rust
