import Verif.Rust.Model

set_option autoImplicit false

/-! # The values of Rust types in the data model -/

namespace Sval.Rust


open Derive (Field Attrs Shape Variant EnumDef IndexVal)

/-- The index of every variant: `#[sval(index = ..)]` is used as it is, and other variants are indexed among
themselves by their discriminants, unless they are without. -/
def variantIndexes (d : EnumDef) (vs : List Variant) : List (Option Index) :=
  go (if d.dyn || d.unindexedVariants then [] else
    Derive.indexes 0 false ((vs.filter fun v => v.attrs.index.isNone).map Derive.discrIndex)) vs
where
  go : List Index → List Variant → List (Option Index)
    | _, [] => []
    | is, v :: vs =>
      match v.attrs.index with
      | Option.some (.const i) => Option.some { val := i } :: go is vs
      | Option.some (.path i) => Option.some i :: go is vs
      | Option.none => is.head? :: go is.tail vs

/-- The name and index of an attribute. -/
def attrIndex : IndexVal → Index
  | .const i => { val := i }
  | .path i => i

/-- The tag, the label and the index that a variant of `Option` must have. -/
def variant (tag : Tag) (name : Text) (i : Int) : Meta :=
  ⟨Option.some tag, Option.some { text := name, tag := Option.some tags.VALUE_IDENT }, Option.some { val := i, tag := Option.some tags.VALUE_OFFSET }⟩

mutual
def tree : RV → V
  | .unit => .tag { tag := Option.some tags.RUST_UNIT }
  | .null => .null
  | .bool b => .bool b
  | .int t v => .int t v
  | .f32 b => .f32 b
  | .f64 b => .f64 b
  | .char c => .text (Option.some (utf8Len [c])) [.computed [c]]
  | .str s => .text (Option.some (utf8Len s)) [.borrowed s]
  | .display fs => .text Option.none (fs.map .computed)
  | .bytes b => .binary (Option.some b.length) [.borrowed b]
  | .byteArray b => .tagged { tag := Option.some tags.CONSTANT_SIZE } (.binary (Option.some b.length) [.borrowed b])
  | .number fs => .tagged { tag := Option.some tags.NUMBER } (.text Option.none (fs.map .computed))
  | .none => .tag (variant tags.RUST_OPTION_NONE (t! "None") 0)
  | .some v => .tagged (variant tags.RUST_OPTION_SOME (t! "Some") 1) (tree v)
  | .slice xs => .seq (Option.some xs.length) (trees xs)
  | .array xs => .tagged { tag := Option.some tags.CONSTANT_SIZE } (.seq (Option.some xs.length) (trees xs))
  | .tuple xs => .tuple {} (Option.some xs.length) ((trees xs).zipIdx.map fun x => (Option.none, ⟨x.2, Option.some tags.VALUE_OFFSET⟩, x.1))
  | .map ks vs => .map (Option.some ks.length) ((trees ks).zip (trees vs))
  | .boxed v => tree v
  | .unitStruct ident at' =>
    .tag { tag := at'.tag, label := Option.some (Derive.labelOr at'.label ident), index := at'.index.map attrIndex }
  | .newtype ident at' transparent v =>
    if transparent then tree v
    else .tagged { tag := at'.tag, label := Option.some (Derive.labelOr at'.label ident), index := at'.index.map attrIndex }
      (tree v)
  | .struct named ident at' fs vs =>
    Derive.structTree named at'
      { tag := at'.tag, label := Option.some (Derive.labelOr at'.label ident), index := at'.index.map attrIndex } fs
      (trees vs)
  | .enum d i vs =>
    match d.variants[i]? with
    | Option.none => .null
    | Option.some v =>
      let x := Derive.variantTree d v ((variantIndexes d d.variants)[i]?.getD Option.none) (trees vs)
      if d.dyn then x
      else .enum { tag := d.tag, label := Option.some (Derive.labelOr d.label d.ident), index := d.index.map attrIndex } x

def trees : List RV → List V
  | [] => []
  | x :: xs => tree x :: trees xs
end

/-- Fields that the macro accepts and that are not flattened, and a value for each. -/
def okFields (at' : Attrs) (fs : List Field) (n : Nat) : Prop :=
  Derive.accepted at' fs = true ∧ (∀ f ∈ fs, f.skip = true ∨ f.flatten = false) ∧ fs.length = n

/-- Do these values fit the variant? -/
def okVariant (v : Variant) (n : Nat) : Prop :=
  match v.shape with
  | .unit => n = 0
  | .newtype => n = 1
  | .named fs | .unnamed fs => okFields v.attrs fs n

mutual
/-- Values of types that can be written in Rust, without flattened fields. -/
def ok : RV → Prop
  | .some v | .boxed v | .newtype _ _ _ v => ok v
  | .slice xs | .array xs | .tuple xs => oks xs
  | .map ks vs => ks.length = vs.length ∧ oks ks ∧ oks vs
  | .struct _ _ at' fs vs => okFields at' fs vs.length ∧ oks vs
  | .enum d i vs => (∃ v, d.variants[i]? = Option.some v ∧ okVariant v vs.length) ∧ oks vs
  | _ => True

def oks : List RV → Prop
  | [] => True
  | x :: xs => ok x ∧ oks xs
end

mutual
/-- Every size that is given is right. -/
def sized : V → Prop
  | .text n fs => ∀ k, n = Option.some k → k = (fs.map fun f => utf8Len f.content).sum
  | .binary n fs => ∀ k, n = Option.some k → k = (fs.map fun f => f.content.length).sum
  | .seq n xs => (∀ k, n = Option.some k → k = xs.length) ∧ sizedSeq xs
  | .map n kvs => (∀ k, n = Option.some k → k = kvs.length) ∧ sizedMap kvs
  | .tagged _ v | .enum _ v | .hint _ v => sized v
  | .record _ n fs => (∀ k, n = Option.some k → k = fs.length) ∧ sizedRec fs
  | .tuple _ n fs => (∀ k, n = Option.some k → k = fs.length) ∧ sizedTup fs
  | .recordTuple _ n fs => (∀ k, n = Option.some k → k = fs.length) ∧ sizedRT fs
  | _ => True
def sizedSeq : List V → Prop
  | [] => True
  | x :: xs => sized x ∧ sizedSeq xs
def sizedMap : List (V × V) → Prop
  | [] => True
  | (k, v) :: xs => sized k ∧ sized v ∧ sizedMap xs
def sizedRec : List (Option Tag × Label × V) → Prop
  | [] => True
  | (_, _, v) :: xs => sized v ∧ sizedRec xs
def sizedTup : List (Option Tag × Index × V) → Prop
  | [] => True
  | (_, _, v) :: xs => sized v ∧ sizedTup xs
def sizedRT : List (Option Tag × Label × Index × V) → Prop
  | [] => True
  | (_, _, _, v) :: xs => sized v ∧ sizedRT xs
end

end Sval.Rust
