import Verif.Rust.Emit
import Verif.Core.Extract

set_option autoImplicit false

/-!
# Conversions of Rust values

The methods of `Value` other than `stream`, where types override them. A conversion that is not overridden streams the
value: `Extracts.default`.
-/

namespace Sval.Rust

/-- The default methods on what a value streams. -/
def streamed (x : RV) : Extracts := Extracts.default (Nested.prog (items x))

/-- `Value::tag` and `Value::to_bool` to `Value::to_binary`. -/
def extracts : RV → Extracts
  -- `src/data.rs:549-562`
  | .bool b => { streamed (.bool b) with tag := Option.none, toBool := Option.some b }
  -- `src/data/number.rs:17-53`
  | .int t v => Extracts.ofInt t v
  | .f32 b => { streamed (.f32 b) with toF32 := Option.some b }
  | .f64 b => { streamed (.f64 b) with toF64 := Option.some b }
  -- `src/data/text.rs:103-117`, and `String`, `src/data/text.rs:125-138`
  | .str s => { streamed (.str s) with tag := Option.none, toText := Option.some s }
  -- `src/data/binary.rs:43-54`
  | .bytes b => { streamed (.bytes b) with toBinary := Option.some b }
  -- `src/data/binary.rs:96-109`
  | .byteArray b => { streamed (.byteArray b) with toBinary := Option.some b }
  -- `src/data/option.rs:15-115`
  | .none => Extracts.option Option.none
  | .some v => Extracts.option (Option.some (Nested.prog (items v), extracts v))
  -- `src/value.rs:141-257`, `ref/src/lib.rs:87-156`, `dynamic/src/value.rs:115-190`; `Vec` overrides nothing, nor do slices
  | .boxed v => extracts v
  -- `derive_macros/src/derive/derive_unit_struct.rs:61-78`
  | .unitStruct ident at' => { streamed (.unitStruct ident at') with tag := at'.tag }
  -- `derive_macros/src/derive/derive_newtype.rs:88-104`
  | .newtype ident at' transparent v => { streamed (.newtype ident at' transparent v) with tag := at'.tag }
  -- `derive_macros/src/derive/derive_struct.rs:101-116`
  | .struct named ident at' fs vs => { streamed (.struct named ident at' fs vs) with tag := at'.tag }
  -- `derive_macros/src/derive/derive_enum.rs:201-238`
  | .enum d i vs => if d.dyn then streamed (.enum d i vs) else { streamed (.enum d i vs) with tag := d.tag }
  | x => streamed x

/-- Specification: an integer, or one in options, references, boxes. -/
def intOf : RV → Option (IntTy × Int)
  | .int t v => Option.some (t, v)
  | .some v => intOf v
  | .boxed v => intOf v
  | _ => Option.none

/-- Specification: is the value, without references, something else than a transparent newtype? -/
def notTransparent : RV → Bool
  | .newtype _ _ transparent _ => !transparent
  | .boxed v => notTransparent v
  | _ => true

end Sval.Rust
