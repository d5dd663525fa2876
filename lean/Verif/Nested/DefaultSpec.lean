import Verif.Nested.Spec
import Verif.Nested.Default

set_option autoImplicit false

/-!
# What an implementation sees through the provided methods

`lower I v` is the tree that an implementation with the methods `I` should see of the tree `v`.

`Gets I a v` says that an implementation that looks into every value it is given, in the same way, sees `v` in `a`,
and that only methods are called that it has.
-/

namespace Sval.Nested

/-- The integers that can hold every integer of a kind, as far as the methods for them are in one line, from narrow
to wide. -/
def wider : IntTy → List IntTy
  | .i8 => [.i8, .i16, .i32, .i64]
  | .i16 => [.i16, .i32, .i64]
  | .i32 => [.i32, .i64]
  | .i64 => [.i64]
  | .i128 => [.i128]
  | .u8 => [.u8, .u16, .u32, .u64, .u128]
  | .u16 => [.u16, .u32, .u64, .u128]
  | .u32 => [.u32, .u64, .u128]
  | .u64 => [.u64, .u128]
  | .u128 => [.u128]

/-- A tag around a tree, if there is a method for it. -/
def taggedV (I : Impl) (m : Meta) (v : V) : V := if I.tagged then .tagged m v else v

/-- An integer is the narrowest one there is a method for, or else an `i64` if it fits, or else its decimal digits. -/
def intV (I : Impl) (t : IntTy) (n : Int) : V :=
  match (wider t).find? fun u => u = .i64 || I.int u with
  | some u => .int u n
  | none =>
    if IntTy.i64.fits n then .int .i64 n else taggedV I { tag := some tags.NUMBER } (text (intDec n))

/-- A tag is its label, except for the tag of `None`. -/
def tagV (m : Meta) : V :=
  if m.tag = some tags.RUST_OPTION_NONE then .null
  else
    match m.label with
    | some l => text l.text
    | none => .null

mutual
/-- What an implementation should see of a tree. -/
def lower (I : Impl) : V → V
  | .int t n => intV I t n
  | .f32 b => if I.f32 then .f32 b else .f64 (widen b)
  | .binary n fs =>
    if I.binary then .binary n fs
    else
      let s := (fs.map Frag.content).flatten
      .seq (some s.length) (s.map fun b => intV I .u8 b.toNat)
  | .tag m => if I.tag then .tag m else taggedV I m (tagV m)
  | .tagged m v => taggedV I m (lower I v)
  | .seq n xs => .seq n (lowerSeq I xs)
  | .map n kvs => .map n (lowerMap I kvs)
  | .record m n fs => .record m n (lowerRec I fs)
  | .tuple m n fs => .tuple m n (lowerTup I fs)
  | .enum m v => .enum m (lowerVariant I v)
  | v => v
/-- The variant of an enum stays what it is. -/
def lowerVariant (I : Impl) : V → V
  | .tagged m v => .tagged m (lower I v)
  | .record m n fs => .record m n (lowerRec I fs)
  | .tuple m n fs => .tuple m n (lowerTup I fs)
  | .enum m v => .enum m (lowerVariant I v)
  | v => v
def lowerSeq (I : Impl) : List V → List V
  | [] => []
  | x :: xs => lower I x :: lowerSeq I xs
def lowerMap (I : Impl) : List (V × V) → List (V × V)
  | [] => []
  | (k, v) :: r => (lower I k, lower I v) :: lowerMap I r
def lowerRec (I : Impl) : List (Option Tag × Label × V) → List (Option Tag × Label × V)
  | [] => []
  | (t, l, v) :: r => (t, l, lower I v) :: lowerRec I r
def lowerTup (I : Impl) : List (Option Tag × Index × V) → List (Option Tag × Index × V)
  | [] => []
  | (t, i, v) :: r => (t, i, lower I v) :: lowerTup I r
end

/-- What an implementation sees if it looks into every value it is given, in the same way. -/
inductive Gets (I : Impl) : Arg → V → Prop
  | mk (a : Arg) (X : List Cb) (v : V) (N : Nat)
    (h : ∀ (σ : Type) (C : Cb → σ → Res Unit σ) (s : σ) (n : Nat), N ≤ n →
      stream (full I C n) (!a.borrowed) a.prog s = (runCb C X s).outcome)
    (hI : ∀ c ∈ X, I.has c = true) (hX : Opened (Gets I) X v) : Gets I a v

end Sval.Nested
