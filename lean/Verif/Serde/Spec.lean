import Verif.Serde.Model
import Verif.Core.Tree

set_option autoImplicit false

/-!
# What should be serialized

`ser S v`: the calls that a `Serialize` makes itself. `tree v`: the sval value that a serde value stands for.
`serV S v`: the calls that should be made for a sval value.
-/

namespace Sval.Serde

section
variable {ε τ : Type}

/-- Do things one after the other until one fails. -/
def seqM (l : List (τ → Res ε τ)) (s : τ) : Res ε τ := l.foldl Res.bind (.ok s)

/-- A container, opened and closed with calls. -/
def container (S : SCall ε τ → τ → Res ε τ) (b : SCall ε τ) (l : List (τ → Res ε τ)) (e : SCall ε τ) (s : τ) : Res ε τ :=
  ((S b s).bind (seqM l)).bind (S e)
end

section
variable {ε τ : Type} (S : SCall ε τ → τ → Res ε τ)

mutual
/-- `Serialize::serialize`. -/
def ser : SV → τ → Res ε τ
  | .bool b => S (.bool b)
  | .int t v => S (.int t v)
  | .f32 b => S (.f32 b)
  | .f64 b => S (.f64 b)
  | .char c => S (.char c)
  | .str s => S (.str s)
  | .collectStr s => S (.collectStr s)
  | .bytes s => S (.bytes s)
  | .none => S .none
  | .some v => S (.some (ser v))
  | .unit => S .unit
  | .unitStruct name => S (.unitStruct name)
  | .unitVariant name i variant => S (.unitVariant name i variant)
  | .newtypeStruct name v => S (.newtypeStruct name (ser v))
  | .newtypeVariant name i variant v => S (.newtypeVariant name i variant (ser v))
  | .seq len xs => container S (.seq len) (serElems .seqElement xs) .seqEnd
  | .tuple len xs => container S (.tuple len) (serElems .tupleElement xs) .tupleEnd
  | .tupleStruct name len xs => container S (.tupleStruct name len) (serElems .tupleStructField xs) .tupleStructEnd
  | .tupleVariant name i variant len xs =>
    container S (.tupleVariant name i variant len) (serElems .tupleVariantField xs) .tupleVariantEnd
  | .map len kvs => container S (.map len) (serEntries kvs) .mapEnd
  | .struct name len fs => container S (.struct name len) (serFields .structField fs) .structEnd
  | .structVariant name i variant len fs =>
    container S (.structVariant name i variant len) (serFields .structVariantField fs) .structVariantEnd
def serElems (k : (τ → Res ε τ) → SCall ε τ) : List SV → List (τ → Res ε τ)
  | [] => []
  | x :: xs => S (k (ser x)) :: serElems k xs
def serEntries : List (SV × SV) → List (τ → Res ε τ)
  | [] => []
  | (k, v) :: r => S (.mapKey (ser k)) :: S (.mapValue (ser v)) :: serEntries r
def serFields (k : Text → (τ → Res ε τ) → SCall ε τ) : List (Text × SV) → List (τ → Res ε τ)
  | [] => []
  | (l, v) :: r => S (k l (ser v)) :: serFields k r
end
end

/-- The tag, the label and the index that a variant of `Option` must have. -/
def variant (tag : Tag) (name : Text) (i : Int) : Meta :=
  ⟨Option.some tag, Option.some { text := name, tag := Option.some tags.VALUE_IDENT }, Option.some { val := i, tag := Option.some tags.VALUE_OFFSET }⟩

mutual
/-- The value that a serde value stands for. -/
def tree : SV → V
  | .bool b => .bool b
  | .int t v => .int t v
  | .f32 b => .f32 b
  | .f64 b => .f64 b
  | .char c => .text (Option.some (utf8Len [c])) [.computed [c]]
  | .str s => .text (Option.some (utf8Len s)) [.computed s]
  | .collectStr s => .text Option.none (s.map .computed)
  | .bytes s => .binary (Option.some s.length) [.computed s]
  | .none => .tag (variant tags.RUST_OPTION_NONE (t! "None") 0)
  | .some v => .tagged (variant tags.RUST_OPTION_SOME (t! "Some") 1) (tree v)
  | .unit => .tag { tag := Option.some tags.RUST_UNIT }
  | .unitStruct name => .tag (named name)
  | .unitVariant name i variant => .enum (named name) (.tag (variantMeta i variant))
  | .newtypeStruct name v => .tagged (named name) (tree v)
  | .newtypeVariant name i variant v => .enum (named name) (.tagged (variantMeta i variant) (tree v))
  | .seq len xs => .seq len (trees xs)
  | .tuple len xs => .tuple {} (Option.some len) (treeTup 0 xs)
  | .tupleStruct name len xs => .tuple (named name) (Option.some len) (treeTup 0 xs)
  | .tupleVariant name i variant len xs =>
    .enum (named name) (.tuple (variantMeta i variant) (Option.some len) (treeTup 0 xs))
  | .map len kvs => .map len (treeMap kvs)
  | .struct name len fs => .record (named name) (Option.some len) (treeRec fs)
  | .structVariant name i variant len fs =>
    .enum (named name) (.record (variantMeta i variant) (Option.some len) (treeRec fs))
def trees : List SV → List V
  | [] => []
  | x :: xs => tree x :: trees xs
/-- Elements are numbered in order. -/
def treeTup (i : Nat) : List SV → List (Option Tag × Index × V)
  | [] => []
  | x :: xs => (Option.none, { val := i }, tree x) :: treeTup (i + 1) xs
def treeMap : List (SV × SV) → List (V × V)
  | [] => []
  | (k, v) :: r => (tree k, tree v) :: treeMap r
def treeRec : List (Text × SV) → List (Option Tag × Label × V)
  | [] => []
  | (l, v) :: r => (Option.none, .new l, tree v) :: treeRec r
end

section
variable {ε τ : Type} (custom : ε)

/-- Lose the error. -/
def lose : Res ε τ → Res ε τ
  | .err _ s => .err custom s
  | r => r

/-- A container, opened and closed with calls. If the elements fail then their error is replaced; and if it cannot
be opened and there are elements, so is that error. -/
def lossy (S : SCall ε τ → τ → Res ε τ) (b : SCall ε τ) (l : List (τ → Res ε τ)) (e : SCall ε τ) (s : τ) : Res ε τ :=
  match S b s with
  | .ok s => (lose custom (seqM l s)).bind (S e)
  | .err x s => .err (if l = [] then x else custom) s
  | .panic => .panic

/-- It cannot be serialized. -/
def bad (s : τ) : Res ε τ := .err custom s

variable (S : SCall ε τ → τ → Res ε τ)

mutual
/-- The calls that are made for a value. -/
def serV : V → τ → Res ε τ
  | .null => S .none
  | .bool b => S (.bool b)
  | .int t v => S (.int t v)
  | .f32 b => S (.f32 b)
  | .f64 b => S (.f64 b)
  | .text _ fs => S (.str (fs.map Frag.content).flatten)
  | .binary _ fs => S (.bytes (fs.map Frag.content).flatten)
  | .tag m =>
    if m.tag = Option.some tags.RUST_OPTION_NONE then S .none
    else if m.tag = Option.some tags.RUST_UNIT then S .unit
    else match staticName m with
      | Option.some name => S (.unitStruct name)
      | Option.none => bad custom
  | .tagged m v =>
    if m.tag = Option.some tags.RUST_OPTION_SOME then S (.some (serV v))
    else match staticName m with
      | Option.some name => S (.newtypeStruct name (serV v))
      | Option.none => bad custom
  | .seq len xs => lossy custom S (.seq len) (serVs xs) .seqEnd
  | .map len kvs => lossy custom S (.map len) (serVMap kvs) .mapEnd
  | .tuple m len fs =>
    match len, m.label with
    | Option.none, _ => bad custom
    | Option.some len, Option.none => lossy custom S (.tuple len) (serVTup .tupleElement fs) .tupleEnd
    | Option.some len, Option.some l =>
      match l.asStaticStr with
      | Option.none => bad custom
      | Option.some name => lossy custom S (.tupleStruct name len) (serVTup .tupleStructField fs) .tupleStructEnd
  | .record m len fs =>
    match len, m.label with
    | Option.none, _ => bad custom
    -- a record without a name is serialized as a tuple
    | Option.some len, Option.none => lossy custom S (.tuple len) (serVRec Option.none fs) .tupleEnd
    | Option.some len, Option.some l =>
      match l.asStaticStr with
      | Option.none => bad custom
      | Option.some name => lossy custom S (.struct name len) (serVRec (Option.some .structField) fs) .structEnd
  | .recordTuple m len fs =>
    match len, m.label with
    | Option.none, _ => bad custom
    | Option.some len, Option.none => lossy custom S (.tuple len) (serVRT Option.none fs) .tupleEnd
    | Option.some len, Option.some l =>
      match l.asStaticStr with
      | Option.none => bad custom
      | Option.some name => lossy custom S (.struct name len) (serVRT (Option.some .structField) fs) .structEnd
  | .enum m v =>
    match staticName m with
    | Option.none => bad custom
    | Option.some name => serVariant name v
  | .hint _ v => serV v
def serVariant (name : Text) : V → τ → Res ε τ
  | .tag m =>
    match variantOf m with
    | Option.some (i, v) => S (.unitVariant name i v)
    | Option.none => bad custom
  | .tagged m x =>
    match variantOf m with
    | Option.some (i, v) => S (.newtypeVariant name i v (serV x))
    | Option.none => bad custom
  | .tuple m len fs =>
    match variantOf m, len with
    | Option.some (i, v), Option.some len =>
      lossy custom S (.tupleVariant name i v len) (serVTup .tupleVariantField fs) .tupleVariantEnd
    | _, _ => bad custom
  | .record m len fs =>
    match variantOf m, len with
    | Option.some (i, v), Option.some len =>
      lossy custom S (.structVariant name i v len) (serVRec (Option.some .structVariantField) fs) .structVariantEnd
    | _, _ => bad custom
  | .recordTuple m len fs =>
    match variantOf m, len with
    | Option.some (i, v), Option.some len =>
      lossy custom S (.structVariant name i v len) (serVRT (Option.some .structVariantField) fs) .structVariantEnd
    | _, _ => bad custom
  | .hint _ v => serVariant name v
  -- enums in enums
  | _ => bad custom
def serVs : List V → List (τ → Res ε τ)
  | [] => []
  | x :: xs => S (.seqElement (serV x)) :: serVs xs
def serVMap : List (V × V) → List (τ → Res ε τ)
  | [] => []
  | (k, v) :: r => S (.mapKey (serV k)) :: S (.mapValue (serV v)) :: serVMap r
def serVTup (k : (τ → Res ε τ) → SCall ε τ) : List (Option Tag × Index × V) → List (τ → Res ε τ)
  | [] => []
  | (_, _, v) :: r => S (k (serV v)) :: serVTup k r
/-- The fields of a record or, without `k`, the elements of a tuple. -/
def serVRec (k : Option (Text → (τ → Res ε τ) → SCall ε τ)) : List (Option Tag × Label × V) → List (τ → Res ε τ)
  | [] => []
  | (_, l, v) :: r =>
    (match k, l.asStaticStr with
      | Option.none, _ => S (.tupleElement (serV v))
      | Option.some k, Option.some l => S (k l (serV v))
      | Option.some _, Option.none => bad custom) :: serVRec k r
def serVRT (k : Option (Text → (τ → Res ε τ) → SCall ε τ)) : List (Option Tag × Label × Index × V) → List (τ → Res ε τ)
  | [] => []
  | (_, l, _, v) :: r =>
    (match k, l.asStaticStr with
      | Option.none, _ => S (.tupleElement (serV v))
      | Option.some k, Option.some l => S (k l (serV v))
      | Option.some _, Option.none => bad custom) :: serVRT k r
end
end

end Sval.Serde
