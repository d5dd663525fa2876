import Verif.Suite.Tokens

set_option autoImplicit false

/-!
# The tests of `sval_test` and `sval_ref`, on the model

Written by `suite/gen.py` from `test/src/lib.rs` and `ref/src/seq.rs`.
These are tests of the model, not proofs: each is an assertion of the project, on the model of the code that it tests.
-/

namespace Sval.ValuesSuite

open Derive (Names Item')
open Suite
open Suite.Tok

/-- `stream_primitive`: `test/src/lib.rs:866-884` -/
example : assertTokens (.int .u8 1)
      [U8 1] = true := by decide +kernel

/-- `stream_primitive`: `test/src/lib.rs:866-884` -/
example : assertTokens (.int .u16 2)
      [U16 2] = true := by decide +kernel

/-- `stream_primitive`: `test/src/lib.rs:866-884` -/
example : assertTokens (.int .u32 3)
      [U32 3] = true := by decide +kernel

/-- `stream_primitive`: `test/src/lib.rs:866-884` -/
example : assertTokens (.int .u64 4)
      [U64 4] = true := by decide +kernel

/-- `stream_primitive`: `test/src/lib.rs:866-884` -/
example : assertTokens (.int .u128 5)
      [U128 5] = true := by decide +kernel

/-- `stream_primitive`: `test/src/lib.rs:866-884` -/
example : assertTokens (.int .i8 (-1))
      [I8 (-1)] = true := by decide +kernel

/-- `stream_primitive`: `test/src/lib.rs:866-884` -/
example : assertTokens (.int .i16 (-2))
      [I16 (-2)] = true := by decide +kernel

/-- `stream_primitive`: `test/src/lib.rs:866-884` -/
example : assertTokens (.int .i32 (-3))
      [I32 (-3)] = true := by decide +kernel

/-- `stream_primitive`: `test/src/lib.rs:866-884` -/
example : assertTokens (.int .i64 (-4))
      [I64 (-4)] = true := by decide +kernel

/-- `stream_primitive`: `test/src/lib.rs:866-884` -/
example : assertTokens (.int .i128 (-5))
      [I128 (-5)] = true := by decide +kernel

/-- `stream_primitive`: `test/src/lib.rs:866-884` -/
example : assertTokens (.f32 1078523331)
      [F32 1078523331] = true := by decide +kernel

/-- `stream_primitive`: `test/src/lib.rs:866-884` -/
example : assertTokens (.f64 4614256650576692846)
      [F64 4614256650576692846] = true := by decide +kernel

/-- `stream_primitive`: `test/src/lib.rs:866-884` -/
example : assertTokens (.bool true)
      [Tok.Bool true] = true := by decide +kernel

/-- `stream_option`: `test/src/lib.rs:886-913` -/
example : assertTokens (.some (.int .i32 1))
      [TaggedBegin (some tags.RUST_OPTION_SOME) (some (label (t! "Some"))) (some (index 1)), I32 1,
       TaggedEnd (some tags.RUST_OPTION_SOME) (some (label (t! "Some"))) (some (index 1))] = true := by decide +kernel

/-- `stream_option`: `test/src/lib.rs:886-913` -/
example : assertTokens (.none)
      [Tok.Tag (some tags.RUST_OPTION_NONE) (some (label (t! "None"))) (some (index 0))] = true := by decide +kernel

/-- `stream_unit`: `test/src/lib.rs:915-918` -/
example : assertTokens (.unit)
      [Tok.Tag (some tags.RUST_UNIT) none none] = true := by decide +kernel

/-- `stream_binary`: `test/src/lib.rs:920-941` -/
example : assertTokens (.bytes [1, 2, 3])
      [BinaryBegin (some 3), BinaryFragment [1, 2, 3], BinaryEnd] = true := by decide +kernel

/-- `stream_binary`: `test/src/lib.rs:920-941` -/
example : assertTokens (.byteArray [1, 2, 3])
      [TaggedBegin (some tags.CONSTANT_SIZE) none none, BinaryBegin (some 3), BinaryFragment [1, 2, 3], BinaryEnd,
       TaggedEnd (some tags.CONSTANT_SIZE) none none] = true := by decide +kernel

/-- `stream_map_empty`: `test/src/lib.rs:943-953` -/
example : assertTokens (.map [] [])
      [MapBegin (some 0), MapEnd] = true := by decide +kernel

/-- `stream_map_empty`: `test/src/lib.rs:943-953` -/
example : assertTokens (.map [] [])
      [MapBegin (some 0), MapEnd] = true := by decide +kernel

/-- `stream_seq_empty`: `test/src/lib.rs:1000-1018` -/
example : assertTokens (.slice [])
      [SeqBegin (some 0), SeqEnd] = true := by decide +kernel

/-- `stream_seq_empty`: `test/src/lib.rs:1000-1018` -/
example : assertTokens (.array [])
      [TaggedBegin (some tags.CONSTANT_SIZE) none none, SeqBegin (some 0), SeqEnd,
       TaggedEnd (some tags.CONSTANT_SIZE) none none] = true := by decide +kernel

/-- `stream_seq_empty`: `test/src/lib.rs:1000-1018` -/
example : assertTokens (.boxed (.slice []))
      [SeqBegin (some 0), SeqEnd] = true := by decide +kernel

/-- `stream_seq`: `test/src/lib.rs:1020-1073` -/
example : assertTokens (.slice [(.int .i32 1)])
      [SeqBegin (some 1), SeqValueBegin, I32 1, SeqValueEnd, SeqEnd] = true := by decide +kernel

/-- `stream_seq`: `test/src/lib.rs:1020-1073` -/
example : assertTokens (.array [(.int .i32 1)])
      [TaggedBegin (some tags.CONSTANT_SIZE) none none, SeqBegin (some 1), SeqValueBegin, I32 1, SeqValueEnd, SeqEnd,
       TaggedEnd (some tags.CONSTANT_SIZE) none none] = true := by decide +kernel

/-- `stream_seq`: `test/src/lib.rs:1020-1073` -/
example : assertTokens (.boxed (.slice [(.int .i32 1)]))
      [SeqBegin (some 1), SeqValueBegin, I32 1, SeqValueEnd, SeqEnd] = true := by decide +kernel

/-- `stream_seq`: `test/src/lib.rs:1020-1073` -/
example : assertTokens (.tuple [(.int .i32 1), (.int .i32 2), (.int .i32 3)])
      [TupleBegin none none none (some 3), TupleValueBegin none (index 0), I32 1, TupleValueEnd none (index 0),
       TupleValueBegin none (index 1), I32 2, TupleValueEnd none (index 1), TupleValueBegin none (index 2), I32 3,
       TupleValueEnd none (index 2), TupleEnd none none none] = true := by decide +kernel

/-- `seq_compat`: `ref/src/seq.rs:245-301` -/
example : assertTokens (.slice [(.boxed (.int .i32 1))])
      [SeqBegin (some 1), SeqValueBegin, I32 1, SeqValueEnd, SeqEnd] = true := by decide +kernel

/-- `seq_compat`: `ref/src/seq.rs:245-301` -/
example : assertTokens (.array [(.boxed (.int .i32 1))])
      [TaggedBegin (some tags.CONSTANT_SIZE) none none, SeqBegin (some 1), SeqValueBegin, I32 1, SeqValueEnd, SeqEnd,
       TaggedEnd (some tags.CONSTANT_SIZE) none none] = true := by decide +kernel

/-- `seq_compat`: `ref/src/seq.rs:245-301` -/
example : assertTokens (.tuple [(.boxed (.int .i32 1)), (.boxed (.int .i32 2)), (.boxed (.int .i32 3))])
      [TupleBegin none none none (some 3), TupleValueBegin none (index 0), I32 1, TupleValueEnd none (index 0),
       TupleValueBegin none (index 1), I32 2, TupleValueEnd none (index 1), TupleValueBegin none (index 2), I32 3,
       TupleValueEnd none (index 2), TupleEnd none none none] = true := by decide +kernel

/-- `seq_compat`: `ref/src/seq.rs:245-301` -/
example : assertTokens (.boxed (.slice [(.boxed (.int .i32 1))]))
      [SeqBegin (some 1), SeqValueBegin, I32 1, SeqValueEnd, SeqEnd] = true := by decide +kernel

end Sval.ValuesSuite
