import Verif.Rust.Extracts

set_option autoImplicit false

/-!
# The tests of `sval`, on the model

Written by hand from `src/data.rs`, `src/stream.rs` and `src/data/*.rs`. These are tests of the model, not proofs: each
is an assertion of the project, on the model of the code that it tests.
-/

namespace Sval.CoreSuite

open Rust (RV extracts)

/-! ## Tags, labels and indexes -/

/-- `unit_tag`: `src/data.rs:623-626` -/
example : (extracts .unit).tag = some tags.RUST_UNIT := by decide +kernel

/-- `label_static`: `src/data.rs:635-641` -/
example : (Label.new (t! "a")).asStaticStr = some (t! "a") ∧ (Label.new (t! "a")).text = t! "a" := by decide +kernel

/-- `label_computed`: `src/data.rs:643-649` -/
example : (Label.newComputed (t! "a")).asStaticStr = none ∧ (Label.newComputed (t! "a")).text = t! "a" := by
  decide +kernel

/-- `label_tag`: `src/data.rs:651-656` -/
example : ((Label.new (t! "a")).withTag tags.VALUE_IDENT).tag = some tags.VALUE_IDENT := by decide +kernel

/-- `label_eq`: `src/data.rs:658-666` -/
example : (Label.new (t! "a")).beq (.newComputed (t! "a")) = true ∧ (Label.new (t! "a")).beq (.new (t! "b")) = false := by
  decide +kernel

/-- `label_clone`: `src/data.rs:668-675` -/
example : (Label.new (t! "a")).clone.text = (Label.new (t! "a")).text ∧
    (Label.new (t! "a")).clone.asStaticStr = (Label.new (t! "a")).asStaticStr := by decide +kernel

/-- `label_owned`: `src/data.rs:759-765` -/
example : (Label.newOwned (t! "a")).asStaticStr = none ∧ (Label.newOwned (t! "a")).text = t! "a" := by decide +kernel

/-- `label_owned_clone`: `src/data.rs:767-776`. The test is that the clone is another allocation; the model has the text. -/
example : (Label.newOwned (t! "a")).clone.asStaticStr = none ∧ (Label.newOwned (t! "a")).clone.text = t! "a" := by
  decide +kernel

/-- `index_convert`: `src/data.rs:677-710` -/
def converts (v : Int) (i32 i64 u32 u64 : Option Int) : Bool :=
  [16, 32, 64].all fun pw =>
    (Index.ofInt v).toTy pw .i32 = i32 ∧ (Index.ofInt v).toTy pw .i64 = i64 ∧ (Index.ofInt v).toTy pw .u32 = u32 ∧
      (Index.ofInt v).toTy pw .u64 = u64

/-- `index_convert`: `src/data.rs:677-710` -/
example : converts 0 (some 0) (some 0) (some 0) (some 0) ∧
    converts (-2147483648) (some (-2147483648)) (some (-2147483648)) none none ∧
    converts (-9223372036854775808) none (some (-9223372036854775808)) none none ∧
    converts 4294967295 none (some 4294967295) (some 4294967295) (some 4294967295) ∧
    converts 18446744073709551615 none none none (some 18446744073709551615) := by decide +kernel

/-- `index_tag`: `src/data.rs:712-717` -/
example : ((Index.ofInt 1).withTag tags.VALUE_OFFSET).tag = some tags.VALUE_OFFSET := by decide +kernel

/-- `index_eq`: `src/data.rs:719-727` -/
example : (Index.ofInt 1).beq (.ofInt 1) = true ∧ (Index.ofInt 1).beq (.ofInt 2) = false := by decide +kernel

/-- `tag_eq`: `src/data.rs:729-740` -/
example : ∀ le, (RawTag.new le (t! "a")).isSome ∧ (RawTag.new le (t! "b")).isSome ∧
    RawTag.new le (t! "a") ≠ RawTag.new le (t! "b") ∧
    (RawTag.new le (t! "a")).map RawTag.id ≠ (RawTag.new le (t! "b")).map RawTag.id := by decide +kernel

/-- `tag_match`: `src/data.rs:742-752`. A pattern compares as the derived `PartialEq` does. -/
example : ∀ le, RawTag.new le (t! "a") = RawTag.new le (t! "a") := by decide +kernel

/-! ## Conversions -/

/-- `stream_computed`: `src/stream.rs:1615-1630` -/
def computedValue : Nat → Prog
  | 0 => .call (.bool true) .ret
  | n + 1 => .valueComputed (computedValue n) .ret

/-- `stream_computed`: `src/stream.rs:1615-1630` -/
example : Ext.toBool (computedValue 5) = some true := by decide +kernel

/-- `binary_cast`: `src/data/binary.rs:115-119` -/
example : (extracts (.bytes [97, 98, 99])).toBinary = some [97, 98, 99] ∧
    (extracts (.byteArray [97, 98, 99])).toBinary = some [97, 98, 99] := by decide +kernel

/-- `number_cast`: `src/data/number.rs:72-88` -/
example : (extracts (.int .u8 1)).toInt .u8 = some 1 ∧ (extracts (.int .u16 2)).toInt .u16 = some 2 ∧
    (extracts (.int .u32 3)).toInt .u32 = some 3 ∧ (extracts (.int .u64 4)).toInt .u64 = some 4 ∧
    (extracts (.int .u128 42)).toInt .u128 = some 42 ∧ (extracts (.int .i8 1)).toInt .i8 = some 1 ∧
    (extracts (.int .i16 2)).toInt .i16 = some 2 ∧ (extracts (.int .i32 3)).toInt .i32 = some 3 ∧
    (extracts (.int .i64 4)).toInt .i64 = some 4 ∧ (extracts (.int .i128 42)).toInt .i128 = some 42 ∧
    (extracts (.f32 0x40400000)).toF32 = some 0x40400000 ∧
    (extracts (.f64 0x4010000000000000)).toF64 = some 0x4010000000000000 := by decide +kernel

/-- `number_tag`: `src/data/number.rs:90-118` -/
example : ([.u8, .u16, .u32, .u64, .u128, .i8, .i16, .i32, .i64, .i128].all fun t =>
      (extracts (.int t 1)).tag = some tags.NUMBER) ∧
    (extracts (.f32 0x3f800000)).tag = some tags.NUMBER ∧
    (extracts (.f64 0x3ff0000000000000)).tag = some tags.NUMBER ∧
    Ext.tag (.call (.taggedBegin { tag := some tags.NUMBER }) (.andThen
      (.value (Nested.prog (Rust.items (.str (t! "42")))) (.andThen
        (.call (.taggedEnd { tag := some tags.NUMBER }) .ret))))) = some tags.NUMBER := by decide +kernel

/-- `option_cast`: `src/data/option.rs:120-140` -/
example : (extracts (.some (.int .u8 1))).toInt .u8 = some 1 ∧ (extracts (.some (.int .u16 2))).toInt .u16 = some 2 ∧
    (extracts (.some (.int .u32 3))).toInt .u32 = some 3 ∧ (extracts (.some (.int .u64 4))).toInt .u64 = some 4 ∧
    (extracts (.some (.int .u128 42))).toInt .u128 = some 42 ∧ (extracts (.some (.int .i8 1))).toInt .i8 = some 1 ∧
    (extracts (.some (.int .i16 2))).toInt .i16 = some 2 ∧ (extracts (.some (.int .i32 3))).toInt .i32 = some 3 ∧
    (extracts (.some (.int .i64 4))).toInt .i64 = some 4 ∧
    (extracts (.some (.int .i128 42))).toInt .i128 = some 42 ∧
    (extracts (.some (.f32 0x40400000))).toF32 = some 0x40400000 ∧
    (extracts (.some (.f64 0x4010000000000000))).toF64 = some 0x4010000000000000 ∧
    (extracts (.some (.bool true))).toBool = some true ∧
    (extracts (.some (.boxed (.str (t! "a string"))))).toText = some (t! "a string") := by decide +kernel

/-- `option_tag`: `src/data/option.rs:142-146` -/
example : (extracts (.some (.int .i32 42))).tag = some tags.RUST_OPTION_SOME ∧
    (extracts .none).tag = some tags.RUST_OPTION_NONE := by decide +kernel

/-- `array_tag`: `src/data/seq.rs:235-238` -/
example : (extracts (.array [.bool true, .bool false])).tag = some tags.CONSTANT_SIZE := by decide +kernel

/-- `TextLike`: `src/data/text.rs:145-152` -/
def textLike (s : Text) : Prog := Nested.prog (Rust.items (.str s))

/-- `TextLikeComputed`: `src/data/text.rs:146-160` -/
def textLikeComputed (s : Text) : Prog :=
  Nested.prog [.tok (.textBegin (some (utf8Len s))), .tok (.textFragmentComputed s), .tok .textEnd]

/-- `string_cast`: `src/data/text.rs:162-167` -/
example : (extracts (.boxed (.str (t! "a string")))).toText = some (t! "a string") ∧
    Ext.toText (textLike (t! "a string")) = some (t! "a string") ∧ Ext.toText (textLikeComputed (t! "123")) = none := by
  decide +kernel

/-- `string_tag`: `src/data/text.rs:169-173` -/
example : Ext.tag (textLike (t! "123")) = none ∧ Ext.tag (textLikeComputed (t! "123")) = none := by decide +kernel

end Sval.CoreSuite
