import Verif.Suite.Tokens

set_option autoImplicit false

/-!
# The tests of `sval_flatten`, on the model

Written by `suite/gen.py` from `flatten/src/{record_tuple,tuple,map,seq}.rs`.
These are tests of the model, not proofs: each is an assertion of the project, on the model of the code that it tests.
-/

namespace Sval.FlattenSuite

open Derive (Names Item')
open Suite
open Suite.Tok

def recordTupleTestsFlattenRecordInner : Item' :=
  { ident := t! "Inner", attrs := [sval [(t! "unindexed_fields", none)]],
    data := .struct (.named [(t! "b", []), (t! "c", [])]) }

/-- `flatten_record`: `flatten/src/record_tuple.rs:142-178` -/
example : asserts (outer .recordTuple (streamed (rust names recordTupleTestsFlattenRecordInner 0 [(.int .i32 2), (.int .i32 3)])))
      [RecordTupleBegin none (some (label (t! "Outer"))) none none,
       RecordTupleValueBegin none (label (t! "a")) (index 0), I32 1,
       RecordTupleValueEnd none (label (t! "a")) (index 0), RecordTupleValueBegin none (label (t! "b")) (index 1),
       I32 2, RecordTupleValueEnd none (label (t! "b")) (index 1),
       RecordTupleValueBegin none (label (t! "c")) (index 2), I32 3,
       RecordTupleValueEnd none (label (t! "c")) (index 2), RecordTupleValueBegin none (label (t! "d")) (index 3),
       I32 4, RecordTupleValueEnd none (label (t! "d")) (index 3),
       RecordTupleEnd none (some (label (t! "Outer"))) none] = true := by decide +kernel

/-- `flatten_tuple`: `flatten/src/record_tuple.rs:180-209` -/
example : asserts (outer .recordTuple (streamed (.tuple [(.int .i32 2), (.int .i32 3)])))
      [RecordTupleBegin none (some (label (t! "Outer"))) none none,
       RecordTupleValueBegin none (label (t! "a")) (index 0), I32 1,
       RecordTupleValueEnd none (label (t! "a")) (index 0), RecordTupleValueBegin none (label (t! "1")) (index 1),
       I32 2, RecordTupleValueEnd none (label (t! "1")) (index 1),
       RecordTupleValueBegin none (label (t! "2")) (index 2), I32 3,
       RecordTupleValueEnd none (label (t! "2")) (index 2), RecordTupleValueBegin none (label (t! "d")) (index 3),
       I32 4, RecordTupleValueEnd none (label (t! "d")) (index 3),
       RecordTupleEnd none (some (label (t! "Outer"))) none] = true := by decide +kernel

/-- `flatten_seq`: `flatten/src/record_tuple.rs:211-240` -/
example : asserts (outer .recordTuple (streamed (.array [(.int .i32 2), (.int .i32 3)])))
      [RecordTupleBegin none (some (label (t! "Outer"))) none none,
       RecordTupleValueBegin none (label (t! "a")) (index 0), I32 1,
       RecordTupleValueEnd none (label (t! "a")) (index 0), RecordTupleValueBegin none (label (t! "1")) (index 1),
       I32 2, RecordTupleValueEnd none (label (t! "1")) (index 1),
       RecordTupleValueBegin none (label (t! "2")) (index 2), I32 3,
       RecordTupleValueEnd none (label (t! "2")) (index 2), RecordTupleValueBegin none (label (t! "d")) (index 3),
       I32 4, RecordTupleValueEnd none (label (t! "d")) (index 3),
       RecordTupleEnd none (some (label (t! "Outer"))) none] = true := by decide +kernel

/-- `flatten_map`: `flatten/src/record_tuple.rs:242-271` -/
example : asserts (outer .recordTuple (streamed (.map [(.boxed (.str (t! "b"))), (.boxed (.str (t! "c")))] [(.int .i32 2), (.int .i32 3)])))
      [RecordTupleBegin none (some (label (t! "Outer"))) none none,
       RecordTupleValueBegin none (label (t! "a")) (index 0), I32 1,
       RecordTupleValueEnd none (label (t! "a")) (index 0), RecordTupleValueBegin none (label (t! "b")) (index 1),
       I32 2, RecordTupleValueEnd none (label (t! "b")) (index 1),
       RecordTupleValueBegin none (label (t! "c")) (index 2), I32 3,
       RecordTupleValueEnd none (label (t! "c")) (index 2), RecordTupleValueBegin none (label (t! "d")) (index 3),
       I32 4, RecordTupleValueEnd none (label (t! "d")) (index 3),
       RecordTupleEnd none (some (label (t! "Outer"))) none] = true := by decide +kernel

def recordTupleTestsFlattenRecordTupleInner : Item' :=
  { ident := t! "Inner", attrs := [],
    data := .struct (.named [(t! "b", []), (t! "c", [])]) }

/-- `flatten_record_tuple`: `flatten/src/record_tuple.rs:273-308` -/
example : asserts (outer .recordTuple (streamed (rust names recordTupleTestsFlattenRecordTupleInner 0 [(.int .i32 2), (.int .i32 3)])))
      [RecordTupleBegin none (some (label (t! "Outer"))) none none,
       RecordTupleValueBegin none (label (t! "a")) (index 0), I32 1,
       RecordTupleValueEnd none (label (t! "a")) (index 0), RecordTupleValueBegin none (label (t! "b")) (index 1),
       I32 2, RecordTupleValueEnd none (label (t! "b")) (index 1),
       RecordTupleValueBegin none (label (t! "c")) (index 2), I32 3,
       RecordTupleValueEnd none (label (t! "c")) (index 2), RecordTupleValueBegin none (label (t! "d")) (index 3),
       I32 4, RecordTupleValueEnd none (label (t! "d")) (index 3),
       RecordTupleEnd none (some (label (t! "Outer"))) none] = true := by decide +kernel

def recordTupleTestsFlattenEnumInner : Item' :=
  { ident := t! "Inner", attrs := [],
    data := .enum
      [{ ident := t! "A", attrs := [sval [(t! "label", some (.lit (.str (t! "b"))))]], fields := .unnamed [[]], discr := none },
       { ident := t! "B", attrs := [], fields := .named [(t! "b", []), (t! "c", [])], discr := none },
       { ident := t! "C", attrs := [], fields := .unnamed [[], []], discr := none }] }

/-- `flatten_enum`: `flatten/src/record_tuple.rs:310-403` -/
example : asserts (outer .recordTuple (streamed (rust names recordTupleTestsFlattenEnumInner 0 [(.int .i32 2)])))
      [RecordTupleBegin none (some (label (t! "Outer"))) none none,
       RecordTupleValueBegin none (label (t! "a")) (index 0), I32 1,
       RecordTupleValueEnd none (label (t! "a")) (index 0), RecordTupleValueBegin none (label (t! "b")) (index 1),
       I32 2, RecordTupleValueEnd none (label (t! "b")) (index 1),
       RecordTupleValueBegin none (label (t! "d")) (index 2), I32 4,
       RecordTupleValueEnd none (label (t! "d")) (index 2), RecordTupleEnd none (some (label (t! "Outer"))) none] = true := by decide +kernel

/-- `flatten_enum`: `flatten/src/record_tuple.rs:310-403` -/
example : asserts (outer .recordTuple (streamed (rust names recordTupleTestsFlattenEnumInner 1 [(.int .i32 2), (.int .i32 3)])))
      [RecordTupleBegin none (some (label (t! "Outer"))) none none,
       RecordTupleValueBegin none (label (t! "a")) (index 0), I32 1,
       RecordTupleValueEnd none (label (t! "a")) (index 0), RecordTupleValueBegin none (label (t! "b")) (index 1),
       I32 2, RecordTupleValueEnd none (label (t! "b")) (index 1),
       RecordTupleValueBegin none (label (t! "c")) (index 2), I32 3,
       RecordTupleValueEnd none (label (t! "c")) (index 2), RecordTupleValueBegin none (label (t! "d")) (index 3),
       I32 4, RecordTupleValueEnd none (label (t! "d")) (index 3),
       RecordTupleEnd none (some (label (t! "Outer"))) none] = true := by decide +kernel

/-- `flatten_enum`: `flatten/src/record_tuple.rs:310-403` -/
example : asserts (outer .recordTuple (streamed (rust names recordTupleTestsFlattenEnumInner 2 [(.int .i32 2), (.int .i32 3)])))
      [RecordTupleBegin none (some (label (t! "Outer"))) none none,
       RecordTupleValueBegin none (label (t! "a")) (index 0), I32 1,
       RecordTupleValueEnd none (label (t! "a")) (index 0), RecordTupleValueBegin none (label (t! "1")) (index 1),
       I32 2, RecordTupleValueEnd none (label (t! "1")) (index 1),
       RecordTupleValueBegin none (label (t! "2")) (index 2), I32 3,
       RecordTupleValueEnd none (label (t! "2")) (index 2), RecordTupleValueBegin none (label (t! "d")) (index 3),
       I32 4, RecordTupleValueEnd none (label (t! "d")) (index 3),
       RecordTupleEnd none (some (label (t! "Outer"))) none] = true := by decide +kernel

def recordTupleTestsFlattenNestedEnumInner : Item' :=
  { ident := t! "Inner", attrs := [],
    data := .struct (.named [(t! "b", [])]) }

def recordTupleTestsFlattenNestedEnumReallyInner : Item' :=
  { ident := t! "ReallyInner", attrs := [],
    data := .struct (.named [(t! "b1", [])]) }

def recordTupleTestsFlattenNestedEnumReallyReallyInner : Item' :=
  { ident := t! "ReallyReallyInner", attrs := [],
    data := .enum
      [{ ident := t! "A", attrs := [sval [(t! "label", some (.lit (.str (t! "b"))))]], fields := .unnamed [[]], discr := none },
       { ident := t! "B", attrs := [], fields := .named [(t! "b", []), (t! "c", [])], discr := none },
       { ident := t! "C", attrs := [], fields := .unnamed [[], []], discr := none }] }

/-- `flatten_nested_enum`: `flatten/src/record_tuple.rs:405-470` -/
example : asserts (outer .recordTuple (streamed (rust names recordTupleTestsFlattenNestedEnumInner 0 [(rust names recordTupleTestsFlattenNestedEnumReallyInner 0 [(rust names recordTupleTestsFlattenNestedEnumReallyReallyInner 1 [(.int .i32 42), (.int .i32 43)])])])))
      [RecordTupleBegin none (some (label (t! "Outer"))) none none,
       RecordTupleValueBegin none (label (t! "a")) (index 0), I32 1,
       RecordTupleValueEnd none (label (t! "a")) (index 0), RecordTupleValueBegin none (label (t! "b")) (index 1),
       RecordTupleBegin none (some (label (t! "ReallyInner"))) none (some 1),
       RecordTupleValueBegin none (label (t! "b1")) (index 0),
       EnumBegin none (some (label (t! "ReallyReallyInner"))) none,
       RecordTupleBegin none (some (label (t! "B"))) (some (index 1)) (some 2),
       RecordTupleValueBegin none (label (t! "b")) (index 0), I32 42,
       RecordTupleValueEnd none (label (t! "b")) (index 0), RecordTupleValueBegin none (label (t! "c")) (index 1),
       I32 43, RecordTupleValueEnd none (label (t! "c")) (index 1),
       RecordTupleEnd none (some (label (t! "B"))) (some (index 1)),
       EnumEnd none (some (label (t! "ReallyReallyInner"))) none,
       RecordTupleValueEnd none (label (t! "b1")) (index 0),
       RecordTupleEnd none (some (label (t! "ReallyInner"))) none,
       RecordTupleValueEnd none (label (t! "b")) (index 1), RecordTupleValueBegin none (label (t! "d")) (index 2),
       I32 4, RecordTupleValueEnd none (label (t! "d")) (index 2),
       RecordTupleEnd none (some (label (t! "Outer"))) none] = true := by decide +kernel

def recordTupleTestsFlattenNestedInner : Item' :=
  { ident := t! "Inner", attrs := [],
    data := .struct (.named [(t! "b", []), (t! "c", [])]) }

def recordTupleTestsFlattenNestedReallyInner : Item' :=
  { ident := t! "ReallyInner", attrs := [],
    data := .struct (.named [(t! "b1", []), (t! "b2", [])]) }

/-- `flatten_nested`: `flatten/src/record_tuple.rs:472-530` -/
example : asserts (outer .recordTuple (streamed (rust names recordTupleTestsFlattenNestedInner 0 [(rust names recordTupleTestsFlattenNestedReallyInner 0 [(.int .i32 21), (.int .i32 22)]), (rust names recordTupleTestsFlattenNestedReallyInner 0 [(.int .i32 31), (.int .i32 32)])])))
      [RecordTupleBegin none (some (label (t! "Outer"))) none none,
       RecordTupleValueBegin none (label (t! "a")) (index 0), I32 1,
       RecordTupleValueEnd none (label (t! "a")) (index 0), RecordTupleValueBegin none (label (t! "b")) (index 1),
       RecordTupleBegin none (some (label (t! "ReallyInner"))) none (some 2),
       RecordTupleValueBegin none (label (t! "b1")) (index 0), I32 21,
       RecordTupleValueEnd none (label (t! "b1")) (index 0), RecordTupleValueBegin none (label (t! "b2")) (index 1),
       I32 22, RecordTupleValueEnd none (label (t! "b2")) (index 1),
       RecordTupleEnd none (some (label (t! "ReallyInner"))) none,
       RecordTupleValueEnd none (label (t! "b")) (index 1), RecordTupleValueBegin none (label (t! "c")) (index 2),
       RecordTupleBegin none (some (label (t! "ReallyInner"))) none (some 2),
       RecordTupleValueBegin none (label (t! "b1")) (index 0), I32 31,
       RecordTupleValueEnd none (label (t! "b1")) (index 0), RecordTupleValueBegin none (label (t! "b2")) (index 1),
       I32 32, RecordTupleValueEnd none (label (t! "b2")) (index 1),
       RecordTupleEnd none (some (label (t! "ReallyInner"))) none,
       RecordTupleValueEnd none (label (t! "c")) (index 2), RecordTupleValueBegin none (label (t! "d")) (index 3),
       I32 4, RecordTupleValueEnd none (label (t! "d")) (index 3),
       RecordTupleEnd none (some (label (t! "Outer"))) none] = true := by decide +kernel

def recordTupleTestsFlattenSiblingsA : Item' :=
  { ident := t! "A", attrs := [],
    data := .struct (.named [(t! "a", [])]) }

def recordTupleTestsFlattenSiblingsB : Item' :=
  { ident := t! "B", attrs := [],
    data := .struct (.named [(t! "b", [])]) }

def recordTupleTestsFlattenSiblingsC : Item' :=
  { ident := t! "C", attrs := [],
    data := .struct (.named [(t! "c", [])]) }

/-- `flatten_siblings`: `flatten/src/record_tuple.rs:532-573` -/
example : asserts (all .recordTuple (streamed (rust names recordTupleTestsFlattenSiblingsA 0 [(.int .i32 1)])) (streamed (rust names recordTupleTestsFlattenSiblingsB 0 [(.int .i32 2)])) (streamed (rust names recordTupleTestsFlattenSiblingsC 0 [(.int .i32 3)])))
      [RecordTupleBegin none (some (label (t! "Outer"))) none none,
       RecordTupleValueBegin none (label (t! "a")) (index 0), I32 1,
       RecordTupleValueEnd none (label (t! "a")) (index 0), RecordTupleValueBegin none (label (t! "b")) (index 1),
       I32 2, RecordTupleValueEnd none (label (t! "b")) (index 1),
       RecordTupleValueBegin none (label (t! "c")) (index 2), I32 3,
       RecordTupleValueEnd none (label (t! "c")) (index 2), RecordTupleEnd none (some (label (t! "Outer"))) none] = true := by decide +kernel

def recordTupleTestsFlattenSiblingsExoticExplicitIndexesA : Item' :=
  { ident := t! "A", attrs := [],
    data := .struct (.named [(t! "a", [sval [(t! "index", some (.neg (.int 4)))]])]) }

def recordTupleTestsFlattenSiblingsExoticExplicitIndexesB : Item' :=
  { ident := t! "B", attrs := [],
    data := .struct (.named [(t! "b", [])]) }

def recordTupleTestsFlattenSiblingsExoticExplicitIndexesC : Item' :=
  { ident := t! "C", attrs := [],
    data := .struct (.named [(t! "c", [])]) }

/-- `flatten_siblings_exotic_explicit_indexes`: `flatten/src/record_tuple.rs:575-617` -/
example : asserts (all .recordTuple (streamed (rust names recordTupleTestsFlattenSiblingsExoticExplicitIndexesA 0 [(.int .i32 1)])) (streamed (rust names recordTupleTestsFlattenSiblingsExoticExplicitIndexesB 0 [(.int .i32 2)])) (streamed (rust names recordTupleTestsFlattenSiblingsExoticExplicitIndexesC 0 [(.int .i32 3)])))
      [RecordTupleBegin none (some (label (t! "Outer"))) none none,
       RecordTupleValueBegin none (label (t! "a")) (index (-4)), I32 1,
       RecordTupleValueEnd none (label (t! "a")) (index (-4)),
       RecordTupleValueBegin none (label (t! "b")) (index (-3)), I32 2,
       RecordTupleValueEnd none (label (t! "b")) (index (-3)),
       RecordTupleValueBegin none (label (t! "c")) (index (-2)), I32 3,
       RecordTupleValueEnd none (label (t! "c")) (index (-2)), RecordTupleEnd none (some (label (t! "Outer"))) none] = true := by decide +kernel

/-- `flatten_map_complex`: `flatten/src/record_tuple.rs:619-649` -/
example : asserts (outer .recordTuple (streamed (.map [(.array [(.boxed (.str (t! "b1"))), (.boxed (.str (t! "b2")))]), (.array [(.boxed (.str (t! "c1"))), (.boxed (.str (t! "c2")))])] [(.int .i32 2), (.int .i32 3)])))
      [RecordTupleBegin none (some (label (t! "Outer"))) none none,
       RecordTupleValueBegin none (label (t! "a")) (index 0), I32 1,
       RecordTupleValueEnd none (label (t! "a")) (index 0), RecordTupleValueBegin none (label (t! "b1b2")) (index 1),
       I32 2, RecordTupleValueEnd none (label (t! "b1b2")) (index 1),
       RecordTupleValueBegin none (label (t! "c1c2")) (index 2), I32 3,
       RecordTupleValueEnd none (label (t! "c1c2")) (index 2), RecordTupleValueBegin none (label (t! "d")) (index 3),
       I32 4, RecordTupleValueEnd none (label (t! "d")) (index 3),
       RecordTupleEnd none (some (label (t! "Outer"))) none] = true := by decide +kernel

def recordTupleTestsFlattenEnumTagInner : Item' :=
  { ident := t! "Inner", attrs := [],
    data := .enum
      [{ ident := t! "A", attrs := [], fields := .unit, discr := none }] }

/-- `flatten_enum_tag`: `flatten/src/record_tuple.rs:651-679` -/
example : asserts (outer .recordTuple (streamed (rust names recordTupleTestsFlattenEnumTagInner 0 [])))
      [RecordTupleBegin none (some (label (t! "Outer"))) none none,
       RecordTupleValueBegin none (label (t! "a")) (index 0), I32 1,
       RecordTupleValueEnd none (label (t! "a")) (index 0), RecordTupleValueBegin none (label (t! "d")) (index 1),
       I32 4, RecordTupleValueEnd none (label (t! "d")) (index 1),
       RecordTupleEnd none (some (label (t! "Outer"))) none] = true := by decide +kernel

def recordTupleTestsFlattenExoticTupleExplicitIndexesInner : Item' :=
  { ident := t! "Inner", attrs := [],
    data := .struct (.unnamed [[sval [(t! "index", some (.lit (.int 3)))]], [sval [(t! "index", some (.lit (.int 4)))]]]) }

/-- `flatten_exotic_tuple_explicit_indexes`: `flatten/src/record_tuple.rs:681-713` -/
example : asserts (outer .recordTuple (streamed (rust names recordTupleTestsFlattenExoticTupleExplicitIndexesInner 0 [(.int .i32 2), (.int .i32 3)])))
      [RecordTupleBegin none (some (label (t! "Outer"))) none none,
       RecordTupleValueBegin none (label (t! "a")) (index 0), I32 1,
       RecordTupleValueEnd none (label (t! "a")) (index 0), RecordTupleValueBegin none (label (t! "3")) (index 3),
       I32 2, RecordTupleValueEnd none (label (t! "3")) (index 3),
       RecordTupleValueBegin none (label (t! "4")) (index 4), I32 3,
       RecordTupleValueEnd none (label (t! "4")) (index 4), RecordTupleValueBegin none (label (t! "d")) (index 5),
       I32 4, RecordTupleValueEnd none (label (t! "d")) (index 5),
       RecordTupleEnd none (some (label (t! "Outer"))) none] = true := by decide +kernel

def recordTupleTestsFlattenExoticEnumExplicitIndexesInner : Item' :=
  { ident := t! "Inner", attrs := [],
    data := .enum
      [{ ident := t! "B", attrs := [], fields := .named [(t! "b", [sval [(t! "index", some (.lit (.int 4)))]]), (t! "c", [sval [(t! "index", some (.lit (.int 6)))]])], discr := none }] }

/-- `flatten_exotic_enum_explicit_indexes`: `flatten/src/record_tuple.rs:715-754` -/
example : asserts (outer .recordTuple (streamed (rust names recordTupleTestsFlattenExoticEnumExplicitIndexesInner 0 [(.int .i32 2), (.int .i32 3)])))
      [RecordTupleBegin none (some (label (t! "Outer"))) none none,
       RecordTupleValueBegin none (label (t! "a")) (index 0), I32 1,
       RecordTupleValueEnd none (label (t! "a")) (index 0), RecordTupleValueBegin none (label (t! "b")) (index 4),
       I32 2, RecordTupleValueEnd none (label (t! "b")) (index 4),
       RecordTupleValueBegin none (label (t! "c")) (index 6), I32 3,
       RecordTupleValueEnd none (label (t! "c")) (index 6), RecordTupleValueBegin none (label (t! "d")) (index 7),
       I32 4, RecordTupleValueEnd none (label (t! "d")) (index 7),
       RecordTupleEnd none (some (label (t! "Outer"))) none] = true := by decide +kernel

def recordTupleTestsFlattenExoticNestedEnumNestedEnum : List Token :=
  [EnumBegin none (some (label (t! "Enum"))) none,
   EnumBegin none (some (label (t! "EnumInner"))) (some (indexTag 7 tags.VALUE_OFFSET)),
   TupleBegin none (some (label (t! "EnumInnerValue"))) (some (indexTag 0 tags.VALUE_OFFSET)) (some 1),
   TupleValueBegin none (indexTag 0 tags.VALUE_OFFSET), I32 2, TupleValueEnd none (indexTag 0 tags.VALUE_OFFSET),
   TupleEnd none (some (label (t! "EnumInnerValue"))) (some (indexTag 0 tags.VALUE_OFFSET)),
   EnumEnd none (some (label (t! "EnumInner"))) (some (indexTag 7 tags.VALUE_OFFSET)),
   EnumEnd none (some (label (t! "Enum"))) none]

/-- `flatten_exotic_nested_enum`: `flatten/src/record_tuple.rs:756-825` -/
example : asserts (outer .recordTuple (calls recordTupleTestsFlattenExoticNestedEnumNestedEnum))
      [RecordTupleBegin none (some (label (t! "Outer"))) none none,
       RecordTupleValueBegin none (label (t! "a")) (index 0), I32 1,
       RecordTupleValueEnd none (label (t! "a")) (index 0), RecordTupleValueBegin none (label (t! "1")) (index 1),
       I32 2, RecordTupleValueEnd none (label (t! "1")) (index 1),
       RecordTupleValueBegin none (label (t! "d")) (index 2), I32 4,
       RecordTupleValueEnd none (label (t! "d")) (index 2), RecordTupleEnd none (some (label (t! "Outer"))) none] = true := by decide +kernel

def recordTupleTestsFlattenExoticEnumEmptyEmptyEnum : List Token :=
  [EnumBegin none (some (label (t! "Enum"))) none, EnumEnd none (some (label (t! "Enum"))) none]

/-- `flatten_exotic_enum_empty`: `flatten/src/record_tuple.rs:827-862` -/
example : asserts (outer .recordTuple (calls recordTupleTestsFlattenExoticEnumEmptyEmptyEnum))
      [RecordTupleBegin none (some (label (t! "Outer"))) none none,
       RecordTupleValueBegin none (label (t! "a")) (index 0), I32 1,
       RecordTupleValueEnd none (label (t! "a")) (index 0), RecordTupleValueBegin none (label (t! "d")) (index 1),
       I32 4, RecordTupleValueEnd none (label (t! "d")) (index 1),
       RecordTupleEnd none (some (label (t! "Outer"))) none] = true := by decide +kernel

def recordTupleTestsFlattenExoticEnumNestedEmptyNestedEnum : List Token :=
  [EnumBegin none (some (label (t! "Enum"))) none,
   EnumBegin none (some (label (t! "EnumInner"))) (some (indexTag 7 tags.VALUE_OFFSET)),
   EnumBegin none (some (label (t! "EnumInnerInner"))) (some (indexTag 3 tags.VALUE_OFFSET)),
   EnumEnd none (some (label (t! "EnumInnerInner"))) (some (indexTag 3 tags.VALUE_OFFSET)),
   EnumEnd none (some (label (t! "EnumInner"))) (some (indexTag 7 tags.VALUE_OFFSET)),
   EnumEnd none (some (label (t! "Enum"))) none]

/-- `flatten_exotic_enum_nested_empty`: `flatten/src/record_tuple.rs:864-924` -/
example : asserts (outer .recordTuple (calls recordTupleTestsFlattenExoticEnumNestedEmptyNestedEnum))
      [RecordTupleBegin none (some (label (t! "Outer"))) none none,
       RecordTupleValueBegin none (label (t! "a")) (index 0), I32 1,
       RecordTupleValueEnd none (label (t! "a")) (index 0), RecordTupleValueBegin none (label (t! "d")) (index 1),
       I32 4, RecordTupleValueEnd none (label (t! "d")) (index 1),
       RecordTupleEnd none (some (label (t! "Outer"))) none] = true := by decide +kernel

/-- `flatten_primitive`: `flatten/src/record_tuple.rs:926-1059` -/
example : asserts (outer .recordTuple (streamed (.int .u128 1)))
      [RecordTupleBegin none (some (label (t! "Outer"))) none none,
       RecordTupleValueBegin none (label (t! "a")) (index 0), I32 1,
       RecordTupleValueEnd none (label (t! "a")) (index 0), RecordTupleValueBegin none (label (t! "d")) (index 1),
       I32 4, RecordTupleValueEnd none (label (t! "d")) (index 1),
       RecordTupleEnd none (some (label (t! "Outer"))) none] = true := by decide +kernel

/-- `flatten_primitive`: `flatten/src/record_tuple.rs:926-1059` -/
example : asserts (outer .recordTuple (streamed (.int .i128 (-1))))
      [RecordTupleBegin none (some (label (t! "Outer"))) none none,
       RecordTupleValueBegin none (label (t! "a")) (index 0), I32 1,
       RecordTupleValueEnd none (label (t! "a")) (index 0), RecordTupleValueBegin none (label (t! "d")) (index 1),
       I32 4, RecordTupleValueEnd none (label (t! "d")) (index 1),
       RecordTupleEnd none (some (label (t! "Outer"))) none] = true := by decide +kernel

/-- `flatten_primitive`: `flatten/src/record_tuple.rs:926-1059` -/
example : asserts (outer .recordTuple (streamed (.f64 4614253070214989087)))
      [RecordTupleBegin none (some (label (t! "Outer"))) none none,
       RecordTupleValueBegin none (label (t! "a")) (index 0), I32 1,
       RecordTupleValueEnd none (label (t! "a")) (index 0), RecordTupleValueBegin none (label (t! "d")) (index 1),
       I32 4, RecordTupleValueEnd none (label (t! "d")) (index 1),
       RecordTupleEnd none (some (label (t! "Outer"))) none] = true := by decide +kernel

/-- `flatten_primitive`: `flatten/src/record_tuple.rs:926-1059` -/
example : asserts (outer .recordTuple (streamed (.bool true)))
      [RecordTupleBegin none (some (label (t! "Outer"))) none none,
       RecordTupleValueBegin none (label (t! "a")) (index 0), I32 1,
       RecordTupleValueEnd none (label (t! "a")) (index 0), RecordTupleValueBegin none (label (t! "d")) (index 1),
       I32 4, RecordTupleValueEnd none (label (t! "d")) (index 1),
       RecordTupleEnd none (some (label (t! "Outer"))) none] = true := by decide +kernel

/-- `flatten_primitive`: `flatten/src/record_tuple.rs:926-1059` -/
example : asserts (outer .recordTuple (streamed (.boxed (.str (t! "Text")))))
      [RecordTupleBegin none (some (label (t! "Outer"))) none none,
       RecordTupleValueBegin none (label (t! "a")) (index 0), I32 1,
       RecordTupleValueEnd none (label (t! "a")) (index 0), RecordTupleValueBegin none (label (t! "d")) (index 1),
       I32 4, RecordTupleValueEnd none (label (t! "d")) (index 1),
       RecordTupleEnd none (some (label (t! "Outer"))) none] = true := by decide +kernel

/-- `flatten_primitive`: `flatten/src/record_tuple.rs:926-1059` -/
example : asserts (outer .recordTuple (streamed (.bytes [66, 105, 110, 97, 114, 121])))
      [RecordTupleBegin none (some (label (t! "Outer"))) none none,
       RecordTupleValueBegin none (label (t! "a")) (index 0), I32 1,
       RecordTupleValueEnd none (label (t! "a")) (index 0), RecordTupleValueBegin none (label (t! "d")) (index 1),
       I32 4, RecordTupleValueEnd none (label (t! "d")) (index 1),
       RecordTupleEnd none (some (label (t! "Outer"))) none] = true := by decide +kernel

def tupleTestsFlattenRecordInner : Item' :=
  { ident := t! "Inner", attrs := [sval [(t! "unindexed_fields", none)]],
    data := .struct (.named [(t! "b", []), (t! "c", [])]) }

/-- `flatten_record`: `flatten/src/tuple.rs:107-136` -/
example : asserts (outer .tuple (streamed (rust names tupleTestsFlattenRecordInner 0 [(.int .i32 2), (.int .i32 3)])))
      [TupleBegin none (some (label (t! "Outer"))) none none, TupleValueBegin none (index 0), I32 1,
       TupleValueEnd none (index 0), TupleValueBegin none (index 1), I32 2, TupleValueEnd none (index 1),
       TupleValueBegin none (index 2), I32 3, TupleValueEnd none (index 2), TupleValueBegin none (index 3), I32 4,
       TupleValueEnd none (index 3), TupleEnd none (some (label (t! "Outer"))) none] = true := by decide +kernel

/-- `flatten_tuple`: `flatten/src/tuple.rs:138-160` -/
example : asserts (outer .tuple (streamed (.tuple [(.int .i32 2), (.int .i32 3)])))
      [TupleBegin none (some (label (t! "Outer"))) none none, TupleValueBegin none (index 0), I32 1,
       TupleValueEnd none (index 0), TupleValueBegin none (index 1), I32 2, TupleValueEnd none (index 1),
       TupleValueBegin none (index 2), I32 3, TupleValueEnd none (index 2), TupleValueBegin none (index 3), I32 4,
       TupleValueEnd none (index 3), TupleEnd none (some (label (t! "Outer"))) none] = true := by decide +kernel

/-- `flatten_seq`: `flatten/src/tuple.rs:162-184` -/
example : asserts (outer .tuple (streamed (.array [(.int .i32 2), (.int .i32 3)])))
      [TupleBegin none (some (label (t! "Outer"))) none none, TupleValueBegin none (index 0), I32 1,
       TupleValueEnd none (index 0), TupleValueBegin none (index 1), I32 2, TupleValueEnd none (index 1),
       TupleValueBegin none (index 2), I32 3, TupleValueEnd none (index 2), TupleValueBegin none (index 3), I32 4,
       TupleValueEnd none (index 3), TupleEnd none (some (label (t! "Outer"))) none] = true := by decide +kernel

/-- `flatten_map`: `flatten/src/tuple.rs:186-215` -/
example : asserts (outer .tuple (streamed (.map [(.array [(.boxed (.str (t! "b1"))), (.boxed (.str (t! "b2")))]), (.array [(.boxed (.str (t! "c1"))), (.boxed (.str (t! "c2")))])] [(.int .i32 2), (.int .i32 3)])))
      [TupleBegin none (some (label (t! "Outer"))) none none, TupleValueBegin none (index 0), I32 1,
       TupleValueEnd none (index 0), TupleValueBegin none (index 1), I32 2, TupleValueEnd none (index 1),
       TupleValueBegin none (index 2), I32 3, TupleValueEnd none (index 2), TupleValueBegin none (index 3), I32 4,
       TupleValueEnd none (index 3), TupleEnd none (some (label (t! "Outer"))) none] = true := by decide +kernel

def tupleTestsFlattenRecordTupleInner : Item' :=
  { ident := t! "Inner", attrs := [],
    data := .struct (.named [(t! "b", []), (t! "c", [])]) }

/-- `flatten_record_tuple`: `flatten/src/tuple.rs:217-245` -/
example : asserts (outer .tuple (streamed (rust names tupleTestsFlattenRecordTupleInner 0 [(.int .i32 2), (.int .i32 3)])))
      [TupleBegin none (some (label (t! "Outer"))) none none, TupleValueBegin none (index 0), I32 1,
       TupleValueEnd none (index 0), TupleValueBegin none (index 1), I32 2, TupleValueEnd none (index 1),
       TupleValueBegin none (index 2), I32 3, TupleValueEnd none (index 2), TupleValueBegin none (index 3), I32 4,
       TupleValueEnd none (index 3), TupleEnd none (some (label (t! "Outer"))) none] = true := by decide +kernel

def tupleTestsFlattenEnumInner : Item' :=
  { ident := t! "Inner", attrs := [],
    data := .enum
      [{ ident := t! "A", attrs := [sval [(t! "label", some (.lit (.str (t! "b"))))]], fields := .unnamed [[]], discr := none },
       { ident := t! "B", attrs := [], fields := .named [(t! "b", []), (t! "c", [])], discr := none },
       { ident := t! "C", attrs := [], fields := .unnamed [[], []], discr := none }] }

/-- `flatten_enum`: `flatten/src/tuple.rs:247-319` -/
example : asserts (outer .tuple (streamed (rust names tupleTestsFlattenEnumInner 0 [(.int .i32 2)])))
      [TupleBegin none (some (label (t! "Outer"))) none none, TupleValueBegin none (index 0), I32 1,
       TupleValueEnd none (index 0), TupleValueBegin none (index 1), I32 2, TupleValueEnd none (index 1),
       TupleValueBegin none (index 2), I32 4, TupleValueEnd none (index 2),
       TupleEnd none (some (label (t! "Outer"))) none] = true := by decide +kernel

/-- `flatten_enum`: `flatten/src/tuple.rs:247-319` -/
example : asserts (outer .tuple (streamed (rust names tupleTestsFlattenEnumInner 1 [(.int .i32 2), (.int .i32 3)])))
      [TupleBegin none (some (label (t! "Outer"))) none none, TupleValueBegin none (index 0), I32 1,
       TupleValueEnd none (index 0), TupleValueBegin none (index 1), I32 2, TupleValueEnd none (index 1),
       TupleValueBegin none (index 2), I32 3, TupleValueEnd none (index 2), TupleValueBegin none (index 3), I32 4,
       TupleValueEnd none (index 3), TupleEnd none (some (label (t! "Outer"))) none] = true := by decide +kernel

/-- `flatten_enum`: `flatten/src/tuple.rs:247-319` -/
example : asserts (outer .tuple (streamed (rust names tupleTestsFlattenEnumInner 2 [(.int .i32 2), (.int .i32 3)])))
      [TupleBegin none (some (label (t! "Outer"))) none none, TupleValueBegin none (index 0), I32 1,
       TupleValueEnd none (index 0), TupleValueBegin none (index 1), I32 2, TupleValueEnd none (index 1),
       TupleValueBegin none (index 2), I32 3, TupleValueEnd none (index 2), TupleValueBegin none (index 3), I32 4,
       TupleValueEnd none (index 3), TupleEnd none (some (label (t! "Outer"))) none] = true := by decide +kernel

def mapTestsFlattenRecordInner : Item' :=
  { ident := t! "Inner", attrs := [sval [(t! "unindexed_fields", none)]],
    data := .struct (.named [(t! "b", []), (t! "c", [])]) }

/-- `flatten_record`: `flatten/src/map.rs:408-464` -/
example : asserts (outer .map (streamed (rust names mapTestsFlattenRecordInner 0 [(.int .i32 2), (.int .i32 3)])))
      [MapBegin none, MapKeyBegin, TextBegin (some 1), TextFragment (t! "a"), TextEnd, MapKeyEnd, MapValueBegin,
       I32 1, MapValueEnd, MapKeyBegin, TextBegin (some 1), TextFragment (t! "b"), TextEnd, MapKeyEnd, MapValueBegin,
       I32 2, MapValueEnd, MapKeyBegin, TextBegin (some 1), TextFragment (t! "c"), TextEnd, MapKeyEnd, MapValueBegin,
       I32 3, MapValueEnd, MapKeyBegin, TextBegin (some 1), TextFragment (t! "d"), TextEnd, MapKeyEnd, MapValueBegin,
       I32 4, MapValueEnd, MapEnd] = true := by decide +kernel

/-- `flatten_tuple`: `flatten/src/map.rs:466-515` -/
example : asserts (outer .map (streamed (.tuple [(.int .i32 2), (.int .i32 3)])))
      [MapBegin none, MapKeyBegin, TextBegin (some 1), TextFragment (t! "a"), TextEnd, MapKeyEnd, MapValueBegin,
       I32 1, MapValueEnd, MapKeyBegin, TextBegin (some 1), TextFragmentComputed (t! "1"), TextEnd, MapKeyEnd,
       MapValueBegin, I32 2, MapValueEnd, MapKeyBegin, TextBegin (some 1), TextFragmentComputed (t! "2"), TextEnd,
       MapKeyEnd, MapValueBegin, I32 3, MapValueEnd, MapKeyBegin, TextBegin (some 1), TextFragment (t! "d"), TextEnd,
       MapKeyEnd, MapValueBegin, I32 4, MapValueEnd, MapEnd] = true := by decide +kernel

/-- `flatten_seq`: `flatten/src/map.rs:517-566` -/
example : asserts (outer .map (streamed (.array [(.int .i32 2), (.int .i32 3)])))
      [MapBegin none, MapKeyBegin, TextBegin (some 1), TextFragment (t! "a"), TextEnd, MapKeyEnd, MapValueBegin,
       I32 1, MapValueEnd, MapKeyBegin, TextBegin (some 1), TextFragmentComputed (t! "1"), TextEnd, MapKeyEnd,
       MapValueBegin, I32 2, MapValueEnd, MapKeyBegin, TextBegin (some 1), TextFragmentComputed (t! "2"), TextEnd,
       MapKeyEnd, MapValueBegin, I32 3, MapValueEnd, MapKeyBegin, TextBegin (some 1), TextFragment (t! "d"), TextEnd,
       MapKeyEnd, MapValueBegin, I32 4, MapValueEnd, MapEnd] = true := by decide +kernel

/-- `flatten_map`: `flatten/src/map.rs:568-617` -/
example : asserts (outer .map (streamed (.map [(.boxed (.str (t! "b"))), (.boxed (.str (t! "c")))] [(.int .i32 2), (.int .i32 3)])))
      [MapBegin none, MapKeyBegin, TextBegin (some 1), TextFragment (t! "a"), TextEnd, MapKeyEnd, MapValueBegin,
       I32 1, MapValueEnd, MapKeyBegin, TextBegin (some 1), TextFragment (t! "b"), TextEnd, MapKeyEnd, MapValueBegin,
       I32 2, MapValueEnd, MapKeyBegin, TextBegin (some 1), TextFragment (t! "c"), TextEnd, MapKeyEnd, MapValueBegin,
       I32 3, MapValueEnd, MapKeyBegin, TextBegin (some 1), TextFragment (t! "d"), TextEnd, MapKeyEnd, MapValueBegin,
       I32 4, MapValueEnd, MapEnd] = true := by decide +kernel

/-- `flatten_map_complex`: `flatten/src/map.rs:619-690` -/
example : asserts (outer .map (streamed (.map [(.array [(.boxed (.str (t! "b1"))), (.boxed (.str (t! "b2")))]), (.array [(.boxed (.str (t! "c1"))), (.boxed (.str (t! "c2")))])] [(.int .i32 2), (.int .i32 3)])))
      [MapBegin none, MapKeyBegin, TextBegin (some 1), TextFragment (t! "a"), TextEnd, MapKeyEnd, MapValueBegin,
       I32 1, MapValueEnd, MapKeyBegin, TaggedBegin (some tags.CONSTANT_SIZE) none none, SeqBegin (some 2),
       SeqValueBegin, TextBegin (some 2), TextFragment (t! "b1"), TextEnd, SeqValueEnd, SeqValueBegin,
       TextBegin (some 2), TextFragment (t! "b2"), TextEnd, SeqValueEnd, SeqEnd,
       TaggedEnd (some tags.CONSTANT_SIZE) none none, MapKeyEnd, MapValueBegin, I32 2, MapValueEnd, MapKeyBegin,
       TaggedBegin (some tags.CONSTANT_SIZE) none none, SeqBegin (some 2), SeqValueBegin, TextBegin (some 2),
       TextFragment (t! "c1"), TextEnd, SeqValueEnd, SeqValueBegin, TextBegin (some 2), TextFragment (t! "c2"),
       TextEnd, SeqValueEnd, SeqEnd, TaggedEnd (some tags.CONSTANT_SIZE) none none, MapKeyEnd, MapValueBegin, I32 3,
       MapValueEnd, MapKeyBegin, TextBegin (some 1), TextFragment (t! "d"), TextEnd, MapKeyEnd, MapValueBegin, I32 4,
       MapValueEnd, MapEnd] = true := by decide +kernel

def mapTestsFlattenRecordTupleInner : Item' :=
  { ident := t! "Inner", attrs := [],
    data := .struct (.named [(t! "b", []), (t! "c", [])]) }

/-- `flatten_record_tuple`: `flatten/src/map.rs:692-747` -/
example : asserts (outer .map (streamed (rust names mapTestsFlattenRecordTupleInner 0 [(.int .i32 2), (.int .i32 3)])))
      [MapBegin none, MapKeyBegin, TextBegin (some 1), TextFragment (t! "a"), TextEnd, MapKeyEnd, MapValueBegin,
       I32 1, MapValueEnd, MapKeyBegin, TextBegin (some 1), TextFragment (t! "b"), TextEnd, MapKeyEnd, MapValueBegin,
       I32 2, MapValueEnd, MapKeyBegin, TextBegin (some 1), TextFragment (t! "c"), TextEnd, MapKeyEnd, MapValueBegin,
       I32 3, MapValueEnd, MapKeyBegin, TextBegin (some 1), TextFragment (t! "d"), TextEnd, MapKeyEnd, MapValueBegin,
       I32 4, MapValueEnd, MapEnd] = true := by decide +kernel

def mapTestsFlattenEnumInner : Item' :=
  { ident := t! "Inner", attrs := [],
    data := .enum
      [{ ident := t! "A", attrs := [sval [(t! "label", some (.lit (.str (t! "b"))))]], fields := .unnamed [[]], discr := none },
       { ident := t! "B", attrs := [], fields := .named [(t! "b", []), (t! "c", [])], discr := none },
       { ident := t! "C", attrs := [], fields := .unnamed [[], []], discr := none }] }

/-- `flatten_enum`: `flatten/src/map.rs:749-897` -/
example : asserts (outer .map (streamed (rust names mapTestsFlattenEnumInner 0 [(.int .i32 2)])))
      [MapBegin none, MapKeyBegin, TextBegin (some 1), TextFragment (t! "a"), TextEnd, MapKeyEnd, MapValueBegin,
       I32 1, MapValueEnd, MapKeyBegin, TextBegin (some 1), TextFragment (t! "b"), TextEnd, MapKeyEnd, MapValueBegin,
       I32 2, MapValueEnd, MapKeyBegin, TextBegin (some 1), TextFragment (t! "d"), TextEnd, MapKeyEnd, MapValueBegin,
       I32 4, MapValueEnd, MapEnd] = true := by decide +kernel

/-- `flatten_enum`: `flatten/src/map.rs:749-897` -/
example : asserts (outer .map (streamed (rust names mapTestsFlattenEnumInner 1 [(.int .i32 2), (.int .i32 3)])))
      [MapBegin none, MapKeyBegin, TextBegin (some 1), TextFragment (t! "a"), TextEnd, MapKeyEnd, MapValueBegin,
       I32 1, MapValueEnd, MapKeyBegin, TextBegin (some 1), TextFragment (t! "b"), TextEnd, MapKeyEnd, MapValueBegin,
       I32 2, MapValueEnd, MapKeyBegin, TextBegin (some 1), TextFragment (t! "c"), TextEnd, MapKeyEnd, MapValueBegin,
       I32 3, MapValueEnd, MapKeyBegin, TextBegin (some 1), TextFragment (t! "d"), TextEnd, MapKeyEnd, MapValueBegin,
       I32 4, MapValueEnd, MapEnd] = true := by decide +kernel

/-- `flatten_enum`: `flatten/src/map.rs:749-897` -/
example : asserts (outer .map (streamed (rust names mapTestsFlattenEnumInner 2 [(.int .i32 2), (.int .i32 3)])))
      [MapBegin none, MapKeyBegin, TextBegin (some 1), TextFragment (t! "a"), TextEnd, MapKeyEnd, MapValueBegin,
       I32 1, MapValueEnd, MapKeyBegin, TextBegin (some 1), TextFragmentComputed (t! "1"), TextEnd, MapKeyEnd,
       MapValueBegin, I32 2, MapValueEnd, MapKeyBegin, TextBegin (some 1), TextFragmentComputed (t! "2"), TextEnd,
       MapKeyEnd, MapValueBegin, I32 3, MapValueEnd, MapKeyBegin, TextBegin (some 1), TextFragment (t! "d"), TextEnd,
       MapKeyEnd, MapValueBegin, I32 4, MapValueEnd, MapEnd] = true := by decide +kernel

def seqTestsFlattenRecordInner : Item' :=
  { ident := t! "Inner", attrs := [sval [(t! "unindexed_fields", none)]],
    data := .struct (.named [(t! "b", []), (t! "c", [])]) }

/-- `flatten_record`: `flatten/src/seq.rs:81-110` -/
example : asserts (outer .seq (streamed (rust names seqTestsFlattenRecordInner 0 [(.int .i32 2), (.int .i32 3)])))
      [SeqBegin none, SeqValueBegin, I32 1, SeqValueEnd, SeqValueBegin, I32 2, SeqValueEnd, SeqValueBegin, I32 3,
       SeqValueEnd, SeqValueBegin, I32 4, SeqValueEnd, SeqEnd] = true := by decide +kernel

/-- `flatten_tuple`: `flatten/src/seq.rs:112-134` -/
example : asserts (outer .seq (streamed (.tuple [(.int .i32 2), (.int .i32 3)])))
      [SeqBegin none, SeqValueBegin, I32 1, SeqValueEnd, SeqValueBegin, I32 2, SeqValueEnd, SeqValueBegin, I32 3,
       SeqValueEnd, SeqValueBegin, I32 4, SeqValueEnd, SeqEnd] = true := by decide +kernel

/-- `flatten_seq`: `flatten/src/seq.rs:136-158` -/
example : asserts (outer .seq (streamed (.array [(.int .i32 2), (.int .i32 3)])))
      [SeqBegin none, SeqValueBegin, I32 1, SeqValueEnd, SeqValueBegin, I32 2, SeqValueEnd, SeqValueBegin, I32 3,
       SeqValueEnd, SeqValueBegin, I32 4, SeqValueEnd, SeqEnd] = true := by decide +kernel

/-- `flatten_map`: `flatten/src/seq.rs:160-190` -/
example : asserts (outer .seq (streamed (.map [(.array [(.boxed (.str (t! "b1"))), (.boxed (.str (t! "b2")))]), (.array [(.boxed (.str (t! "c1"))), (.boxed (.str (t! "c2")))])] [(.int .i32 2), (.int .i32 3)])))
      [SeqBegin none, SeqValueBegin, I32 1, SeqValueEnd, SeqValueBegin, I32 2, SeqValueEnd, SeqValueBegin, I32 3,
       SeqValueEnd, SeqValueBegin, I32 4, SeqValueEnd, SeqEnd] = true := by decide +kernel

def seqTestsFlattenRecordTupleInner : Item' :=
  { ident := t! "Inner", attrs := [],
    data := .struct (.named [(t! "b", []), (t! "c", [])]) }

/-- `flatten_record_tuple`: `flatten/src/seq.rs:192-220` -/
example : asserts (outer .seq (streamed (rust names seqTestsFlattenRecordTupleInner 0 [(.int .i32 2), (.int .i32 3)])))
      [SeqBegin none, SeqValueBegin, I32 1, SeqValueEnd, SeqValueBegin, I32 2, SeqValueEnd, SeqValueBegin, I32 3,
       SeqValueEnd, SeqValueBegin, I32 4, SeqValueEnd, SeqEnd] = true := by decide +kernel

def seqTestsFlattenEnumInner : Item' :=
  { ident := t! "Inner", attrs := [],
    data := .enum
      [{ ident := t! "A", attrs := [sval [(t! "label", some (.lit (.str (t! "b"))))]], fields := .unnamed [[]], discr := none },
       { ident := t! "B", attrs := [], fields := .named [(t! "b", []), (t! "c", [])], discr := none },
       { ident := t! "C", attrs := [], fields := .unnamed [[], []], discr := none }] }

/-- `flatten_enum`: `flatten/src/seq.rs:222-294` -/
example : asserts (outer .seq (streamed (rust names seqTestsFlattenEnumInner 0 [(.int .i32 2)])))
      [SeqBegin none, SeqValueBegin, I32 1, SeqValueEnd, SeqValueBegin, I32 2, SeqValueEnd, SeqValueBegin, I32 4,
       SeqValueEnd, SeqEnd] = true := by decide +kernel

/-- `flatten_enum`: `flatten/src/seq.rs:222-294` -/
example : asserts (outer .seq (streamed (rust names seqTestsFlattenEnumInner 1 [(.int .i32 2), (.int .i32 3)])))
      [SeqBegin none, SeqValueBegin, I32 1, SeqValueEnd, SeqValueBegin, I32 2, SeqValueEnd, SeqValueBegin, I32 3,
       SeqValueEnd, SeqValueBegin, I32 4, SeqValueEnd, SeqEnd] = true := by decide +kernel

/-- `flatten_enum`: `flatten/src/seq.rs:222-294` -/
example : asserts (outer .seq (streamed (rust names seqTestsFlattenEnumInner 2 [(.int .i32 2), (.int .i32 3)])))
      [SeqBegin none, SeqValueBegin, I32 1, SeqValueEnd, SeqValueBegin, I32 2, SeqValueEnd, SeqValueBegin, I32 3,
       SeqValueEnd, SeqValueBegin, I32 4, SeqValueEnd, SeqEnd] = true := by decide +kernel

end Sval.FlattenSuite
