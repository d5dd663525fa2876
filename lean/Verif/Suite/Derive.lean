import Verif.Suite.Tokens

set_option autoImplicit false

/-!
# The tests of `sval_derive`, on the model

Written by `suite/gen.py` from `derive/test/lib.rs` and `derive/test/compile_fail/*.rs`.
These are tests of the model, not proofs: each is an assertion of the project, on the model of the code that it tests.
-/

namespace Sval.DeriveSuite

open Derive (Names Item')
open Suite
open Suite.Tok

def DeriveStructBasicRecordTuple : Item' :=
  { ident := t! "RecordTuple", attrs := [],
    data := .struct (.named [(t! "a", [])]) }

/-- `basic`: `derive/test/lib.rs:9-27` -/
example : assertTokens (rust names DeriveStructBasicRecordTuple 0 [(.int .i32 42)])
      [RecordTupleBegin none (some (label (t! "RecordTuple"))) none (some 1),
       RecordTupleValueBegin none (label (t! "a")) (index 0), I32 42,
       RecordTupleValueEnd none (label (t! "a")) (index 0),
       RecordTupleEnd none (some (label (t! "RecordTuple"))) none] = true := by decide +kernel

def DeriveStructUncookedRecordTuple : Item' :=
  { ident := t! "RecordTuple", attrs := [],
    data := .struct (.named [(t! "type", [])]) }

/-- `uncooked`: `derive/test/lib.rs:29-47` -/
example : assertTokens (rust names DeriveStructUncookedRecordTuple 0 [(.int .i32 42)])
      [RecordTupleBegin none (some (label (t! "RecordTuple"))) none (some 1),
       RecordTupleValueBegin none (label (t! "type")) (index 0), I32 42,
       RecordTupleValueEnd none (label (t! "type")) (index 0),
       RecordTupleEnd none (some (label (t! "RecordTuple"))) none] = true := by decide +kernel

def DeriveStructGenericRecordTuple : Item' :=
  { ident := t! "RecordTuple", attrs := [],
    data := .struct (.named [(t! "a", [])]) }

/-- `generic`: `derive/test/lib.rs:49-67` -/
example : assertTokens (rust names DeriveStructGenericRecordTuple 0 [(.int .i32 42)])
      [RecordTupleBegin none (some (label (t! "RecordTuple"))) none (some 1),
       RecordTupleValueBegin none (label (t! "a")) (index 0), I32 42,
       RecordTupleValueEnd none (label (t! "a")) (index 0),
       RecordTupleEnd none (some (label (t! "RecordTuple"))) none] = true := by decide +kernel

def DeriveStructIndexedNames : Names :=
  { isPath := fun _ => true,
    tag := fun p => names.tag p,
    label := fun p => names.label p,
    index := fun p => if p = t! "B_INDEX" then index 3 else names.index p }

def DeriveStructIndexedRecordTuple : Item' :=
  { ident := t! "RecordTuple", attrs := [],
    data := .struct (.named [(t! "a", [sval [(t! "index", some (.lit (.int 1)))]]), (t! "b", [sval [(t! "index", some (.path (t! "B_INDEX")))]])]) }

/-- `indexed`: `derive/test/lib.rs:69-95` -/
example : assertTokens (rust DeriveStructIndexedNames DeriveStructIndexedRecordTuple 0 [(.int .i32 42), (.int .i32 57)])
      [RecordTupleBegin none (some (label (t! "RecordTuple"))) none (some 2),
       RecordTupleValueBegin none (label (t! "a")) (index 1), I32 42,
       RecordTupleValueEnd none (label (t! "a")) (index 1), RecordTupleValueBegin none (label (t! "b")) (index 3),
       I32 57, RecordTupleValueEnd none (label (t! "b")) (index 3),
       RecordTupleEnd none (some (label (t! "RecordTuple"))) none] = true := by decide +kernel

def DeriveStructUnlabeledTuple : Item' :=
  { ident := t! "Tuple", attrs := [sval [(t! "unlabeled_fields", none)]],
    data := .struct (.named [(t! "a", [])]) }

/-- `unlabeled`: `derive/test/lib.rs:97-116` -/
example : assertTokens (rust names DeriveStructUnlabeledTuple 0 [(.int .i32 42)])
      [TupleBegin none (some (label (t! "Tuple"))) none (some 1), TupleValueBegin none (index 0), I32 42,
       TupleValueEnd none (index 0), TupleEnd none (some (label (t! "Tuple"))) none] = true := by decide +kernel

def DeriveStructUnindexedRecord : Item' :=
  { ident := t! "Record", attrs := [sval [(t! "unindexed_fields", none)]],
    data := .struct (.named [(t! "a", [])]) }

/-- `unindexed`: `derive/test/lib.rs:118-137` -/
example : assertTokens (rust names DeriveStructUnindexedRecord 0 [(.int .i32 42)])
      [RecordBegin none (some (label (t! "Record"))) none (some 1), RecordValueBegin none (label (t! "a")), I32 42,
       RecordValueEnd none (label (t! "a")), RecordEnd none (some (label (t! "Record"))) none] = true := by decide +kernel

def DeriveStructUnlabeledUnindexedSeq : Item' :=
  { ident := t! "Seq", attrs := [sval [(t! "unlabeled_fields", none), (t! "unindexed_fields", none)]],
    data := .struct (.named [(t! "a", [])]) }

/-- `unlabeled_unindexed`: `derive/test/lib.rs:139-160` -/
example : assertTokens (rust names DeriveStructUnlabeledUnindexedSeq 0 [(.int .i32 42)])
      [TaggedBegin none (some (label (t! "Seq"))) none, SeqBegin (some 1), SeqValueBegin, I32 42, SeqValueEnd, SeqEnd,
       TaggedEnd none (some (label (t! "Seq"))) none] = true := by decide +kernel

def DeriveStructDataTaggedRecordTuple : Item' :=
  { ident := t! "RecordTuple", attrs := [],
    data := .struct (.named [(t! "a", [sval [(t! "data_tag", some (.path (t! "sval::tags::NUMBER")))]])]) }

/-- `data_tagged`: `derive/test/lib.rs:162-183` -/
example : assertTokens (rust names DeriveStructDataTaggedRecordTuple 0 [(.int .i32 42)])
      [RecordTupleBegin none (some (label (t! "RecordTuple"))) none (some 1),
       RecordTupleValueBegin none (label (t! "a")) (index 0), TaggedBegin (some tags.NUMBER) none none, I32 42,
       TaggedEnd (some tags.NUMBER) none none, RecordTupleValueEnd none (label (t! "a")) (index 0),
       RecordTupleEnd none (some (label (t! "RecordTuple"))) none] = true := by decide +kernel

def DeriveStructUnlabeledUnindexedDataTaggedSeq : Item' :=
  { ident := t! "Seq", attrs := [sval [(t! "unlabeled_fields", none), (t! "unindexed_fields", none)]],
    data := .struct (.named [(t! "a", [sval [(t! "data_tag", some (.lit (.str (t! "sval::tags::NUMBER"))))]])]) }

/-- `unlabeled_unindexed_data_tagged`: `derive/test/lib.rs:185-209` -/
example : assertTokens (rust names DeriveStructUnlabeledUnindexedDataTaggedSeq 0 [(.int .i32 42)])
      [TaggedBegin none (some (label (t! "Seq"))) none, SeqBegin (some 1), SeqValueBegin,
       TaggedBegin (some tags.NUMBER) none none, I32 42, TaggedEnd (some tags.NUMBER) none none, SeqValueEnd, SeqEnd,
       TaggedEnd none (some (label (t! "Seq"))) none] = true := by decide +kernel

def DeriveStructFlattenedInner : Item' :=
  { ident := t! "Inner", attrs := [],
    data := .struct (.named [(t! "b", []), (t! "c", [])]) }

def DeriveStructFlattenedRecordTuple : Item' :=
  { ident := t! "RecordTuple", attrs := [],
    data := .struct (.named [(t! "a", []), (t! "b", [sval [(t! "flatten", none)]]), (t! "d", [])]) }

/-- `flattened`: `derive/test/lib.rs:211-254` -/
example : assertFlat (flat names DeriveStructFlattenedRecordTuple 0 [(.plain (.int .i32 1)), (.plain (rust names DeriveStructFlattenedInner 0 [(.int .i32 2), (.int .i32 3)])), (.plain (.int .i32 4))])
      [RecordTupleBegin none (some (label (t! "RecordTuple"))) none none,
       RecordTupleValueBegin none (label (t! "a")) (index 0), I32 1,
       RecordTupleValueEnd none (label (t! "a")) (index 0), RecordTupleValueBegin none (label (t! "b")) (index 1),
       I32 2, RecordTupleValueEnd none (label (t! "b")) (index 1),
       RecordTupleValueBegin none (label (t! "c")) (index 2), I32 3,
       RecordTupleValueEnd none (label (t! "c")) (index 2), RecordTupleValueBegin none (label (t! "d")) (index 3),
       I32 4, RecordTupleValueEnd none (label (t! "d")) (index 3),
       RecordTupleEnd none (some (label (t! "RecordTuple"))) none] = true := by decide +kernel

def DeriveStructTaggedNames : Names :=
  { isPath := fun _ => true,
    tag := fun p => if p = t! "CONTAINER" then tag (t! "container") else if p = t! "FIELD" then tag (t! "field") else names.tag p,
    label := fun p => names.label p,
    index := fun p => names.index p }

def DeriveStructTaggedRecord : Item' :=
  { ident := t! "Record", attrs := [sval [(t! "tag", some (.path (t! "CONTAINER"))), (t! "label", some (.lit (.str (t! "record")))), (t! "index", some (.lit (.int 0)))]],
    data := .struct (.named [(t! "a", [sval [(t! "tag", some (.lit (.str (t! "FIELD")))), (t! "label", some (.lit (.str (t! "field0"))))]])]) }

/-- `tagged`: `derive/test/lib.rs:256-288` -/
example : assertTokens (rust DeriveStructTaggedNames DeriveStructTaggedRecord 0 [(.int .i32 42)])
      [RecordTupleBegin (some (tag (t! "container"))) (some (label (t! "record"))) (some (index 0)) (some 1),
       RecordTupleValueBegin (some (tag (t! "field"))) (label (t! "field0")) (index 0), I32 42,
       RecordTupleValueEnd (some (tag (t! "field"))) (label (t! "field0")) (index 0),
       RecordTupleEnd (some (tag (t! "container"))) (some (label (t! "record"))) (some (index 0))] = true := by decide +kernel

def DeriveStructEmptyRecord : Item' :=
  { ident := t! "Record", attrs := [],
    data := .struct (.named []) }

/-- `empty`: `derive/test/lib.rs:290-303` -/
example : assertTokens (rust names DeriveStructEmptyRecord 0 [])
      [RecordTupleBegin none (some (label (t! "Record"))) none (some 0),
       RecordTupleEnd none (some (label (t! "Record"))) none] = true := by decide +kernel

def DeriveStructSkipRecord : Item' :=
  { ident := t! "Record", attrs := [],
    data := .struct (.named [(t! "skipped", [sval [(t! "skip", none)]]), (t! "a", [])]) }

/-- `skip`: `derive/test/lib.rs:305-326` -/
example : assertTokens (rust names DeriveStructSkipRecord 0 [(.int .i32 1), (.int .i32 42)])
      [RecordTupleBegin none (some (label (t! "Record"))) none (some 1),
       RecordTupleValueBegin none (label (t! "a")) (index 0), I32 42,
       RecordTupleValueEnd none (label (t! "a")) (index 0), RecordTupleEnd none (some (label (t! "Record"))) none] = true := by decide +kernel

def DeriveTupleBasicTuple : Item' :=
  { ident := t! "Tuple", attrs := [],
    data := .struct (.unnamed [[], []]) }

/-- `basic`: `derive/test/lib.rs:332-351` -/
example : assertTokens (rust names DeriveTupleBasicTuple 0 [(.int .i32 42), (.int .i32 43)])
      [TupleBegin none (some (label (t! "Tuple"))) none (some 2), TupleValueBegin none (index 0), I32 42,
       TupleValueEnd none (index 0), TupleValueBegin none (index 1), I32 43, TupleValueEnd none (index 1),
       TupleEnd none (some (label (t! "Tuple"))) none] = true := by decide +kernel

def DeriveTupleLabeledNames : Names :=
  { isPath := fun _ => true,
    tag := fun p => names.tag p,
    label := fun p => if p = t! "B_LABEL" then label (t! "B") else names.label p,
    index := fun p => names.index p }

def DeriveTupleLabeledRecordTuple : Item' :=
  { ident := t! "RecordTuple", attrs := [],
    data := .struct (.unnamed [[sval [(t! "label", some (.lit (.str (t! "A"))))]], [sval [(t! "label", some (.path (t! "B_LABEL")))]]]) }

/-- `labeled`: `derive/test/lib.rs:353-374` -/
example : assertTokens (rust DeriveTupleLabeledNames DeriveTupleLabeledRecordTuple 0 [(.int .i32 42), (.int .i32 43)])
      [RecordTupleBegin none (some (label (t! "RecordTuple"))) none (some 2),
       RecordTupleValueBegin none (label (t! "A")) (index 0), I32 42,
       RecordTupleValueEnd none (label (t! "A")) (index 0), RecordTupleValueBegin none (label (t! "B")) (index 1),
       I32 43, RecordTupleValueEnd none (label (t! "B")) (index 1),
       RecordTupleEnd none (some (label (t! "RecordTuple"))) none] = true := by decide +kernel

def DeriveTupleIndexedTuple : Item' :=
  { ident := t! "Tuple", attrs := [],
    data := .struct (.unnamed [[sval [(t! "index", some (.lit (.int 1)))]], []]) }

/-- `indexed`: `derive/test/lib.rs:376-395` -/
example : assertTokens (rust names DeriveTupleIndexedTuple 0 [(.int .i32 42), (.int .i32 43)])
      [TupleBegin none (some (label (t! "Tuple"))) none (some 2), TupleValueBegin none (index 1), I32 42,
       TupleValueEnd none (index 1), TupleValueBegin none (index 2), I32 43, TupleValueEnd none (index 2),
       TupleEnd none (some (label (t! "Tuple"))) none] = true := by decide +kernel

def DeriveTupleUnindexedSeq : Item' :=
  { ident := t! "Seq", attrs := [sval [(t! "unindexed_fields", none)]],
    data := .struct (.unnamed [[], []]) }

/-- `unindexed`: `derive/test/lib.rs:397-419` -/
example : assertTokens (rust names DeriveTupleUnindexedSeq 0 [(.int .i32 42), (.int .i32 43)])
      [TaggedBegin none (some (label (t! "Seq"))) none, SeqBegin (some 2), SeqValueBegin, I32 42, SeqValueEnd,
       SeqValueBegin, I32 43, SeqValueEnd, SeqEnd, TaggedEnd none (some (label (t! "Seq"))) none] = true := by decide +kernel

def DeriveTupleFlattenedInner : Item' :=
  { ident := t! "Inner", attrs := [],
    data := .struct (.unnamed [[], []]) }

def DeriveTupleFlattenedTuple : Item' :=
  { ident := t! "Tuple", attrs := [],
    data := .struct (.unnamed [[], [sval [(t! "flatten", none)]], []]) }

/-- `flattened`: `derive/test/lib.rs:421-449` -/
example : assertFlat (flat names DeriveTupleFlattenedTuple 0 [(.plain (.int .i32 1)), (.plain (rust names DeriveTupleFlattenedInner 0 [(.int .i32 2), (.int .i32 3)])), (.plain (.int .i32 4))])
      [TupleBegin none (some (label (t! "Tuple"))) none none, TupleValueBegin none (index 0), I32 1,
       TupleValueEnd none (index 0), TupleValueBegin none (index 1), I32 2, TupleValueEnd none (index 1),
       TupleValueBegin none (index 2), I32 3, TupleValueEnd none (index 2), TupleValueBegin none (index 3), I32 4,
       TupleValueEnd none (index 3), TupleEnd none (some (label (t! "Tuple"))) none] = true := by decide +kernel

def DeriveTupleUnindexedFlattenedInner : Item' :=
  { ident := t! "Inner", attrs := [sval [(t! "unindexed_fields", none)]],
    data := .struct (.unnamed [[], []]) }

def DeriveTupleUnindexedFlattenedSeq : Item' :=
  { ident := t! "Seq", attrs := [sval [(t! "unindexed_fields", none)]],
    data := .struct (.unnamed [[], [sval [(t! "flatten", none)]], []]) }

/-- `unindexed_flattened`: `derive/test/lib.rs:451-483` -/
example : assertFlat (flat names DeriveTupleUnindexedFlattenedSeq 0 [(.plain (.int .i32 1)), (.plain (rust names DeriveTupleUnindexedFlattenedInner 0 [(.int .i32 2), (.int .i32 3)])), (.plain (.int .i32 4))])
      [TaggedBegin none (some (label (t! "Seq"))) none, SeqBegin none, SeqValueBegin, I32 1, SeqValueEnd,
       SeqValueBegin, I32 2, SeqValueEnd, SeqValueBegin, I32 3, SeqValueEnd, SeqValueBegin, I32 4, SeqValueEnd,
       SeqEnd, TaggedEnd none (some (label (t! "Seq"))) none] = true := by decide +kernel

def DeriveTupleTaggedNames : Names :=
  { isPath := fun _ => true,
    tag := fun p => if p = t! "CONTAINER" then tag (t! "container") else if p = t! "FIELD" then tag (t! "field") else names.tag p,
    label := fun p => names.label p,
    index := fun p => names.index p }

def DeriveTupleTaggedTuple : Item' :=
  { ident := t! "Tuple", attrs := [sval [(t! "tag", some (.lit (.str (t! "CONTAINER")))), (t! "label", some (.lit (.str (t! "tuple")))), (t! "index", some (.lit (.int 0)))]],
    data := .struct (.unnamed [[sval [(t! "tag", some (.lit (.str (t! "FIELD")))), (t! "index", some (.lit (.int 1)))]], [sval [(t! "tag", some (.lit (.str (t! "FIELD")))), (t! "index", some (.lit (.int 2)))]]]) }

/-- `tagged`: `derive/test/lib.rs:485-520` -/
example : assertTokens (rust DeriveTupleTaggedNames DeriveTupleTaggedTuple 0 [(.int .i32 42), (.int .i32 43)])
      [TupleBegin (some (tag (t! "container"))) (some (label (t! "tuple"))) (some (index 0)) (some 2),
       TupleValueBegin (some (tag (t! "field"))) (index 1), I32 42, TupleValueEnd (some (tag (t! "field"))) (index 1),
       TupleValueBegin (some (tag (t! "field"))) (index 2), I32 43, TupleValueEnd (some (tag (t! "field"))) (index 2),
       TupleEnd (some (tag (t! "container"))) (some (label (t! "tuple"))) (some (index 0))] = true := by decide +kernel

def DeriveTupleSkipTuple : Item' :=
  { ident := t! "Tuple", attrs := [],
    data := .struct (.unnamed [[sval [(t! "skip", none)]], []]) }

/-- `skip`: `derive/test/lib.rs:522-539` -/
example : assertTokens (rust names DeriveTupleSkipTuple 0 [(.int .i32 42), (.int .i32 43)])
      [TupleBegin none (some (label (t! "Tuple"))) none (some 1), TupleValueBegin none (index 0), I32 43,
       TupleValueEnd none (index 0), TupleEnd none (some (label (t! "Tuple"))) none] = true := by decide +kernel

def DeriveTupleEmptyTuple : Item' :=
  { ident := t! "Tuple", attrs := [],
    data := .struct (.unnamed []) }

/-- `empty`: `derive/test/lib.rs:541-554` -/
example : assertTokens (rust names DeriveTupleEmptyTuple 0 [])
      [TupleBegin none (some (label (t! "Tuple"))) none (some 0), TupleEnd none (some (label (t! "Tuple"))) none] = true := by decide +kernel

def DeriveNewtypeBasicTagged : Item' :=
  { ident := t! "Tagged", attrs := [],
    data := .struct (.unnamed [[]]) }

/-- `basic`: `derive/test/lib.rs:560-574` -/
example : assertTokens (rust names DeriveNewtypeBasicTagged 0 [(.int .i32 42)])
      [TaggedBegin none (some (label (t! "Tagged"))) none, I32 42, TaggedEnd none (some (label (t! "Tagged"))) none] = true := by decide +kernel

def DeriveNewtypeTransparentTagged : Item' :=
  { ident := t! "Tagged", attrs := [sval [(t! "transparent", none)]],
    data := .struct (.unnamed [[]]) }

/-- `transparent`: `derive/test/lib.rs:576-587` -/
example : assertTokens (rust names DeriveNewtypeTransparentTagged 0 [(.int .i32 42)])
      [I32 42] = true := by decide +kernel

def DeriveNewtypeTaggedNames : Names :=
  { isPath := fun _ => true,
    tag := fun p => if p = t! "CONTAINER" then tag (t! "container") else names.tag p,
    label := fun p => names.label p,
    index := fun p => names.index p }

def DeriveNewtypeTaggedTagged : Item' :=
  { ident := t! "Tagged", attrs := [sval [(t! "tag", some (.lit (.str (t! "CONTAINER")))), (t! "label", some (.lit (.str (t! "tagged")))), (t! "index", some (.lit (.int 0)))]],
    data := .struct (.unnamed [[]]) }

/-- `tagged`: `derive/test/lib.rs:589-614` -/
example : assertTokens (rust DeriveNewtypeTaggedNames DeriveNewtypeTaggedTagged 0 [(.int .i32 42)])
      [TaggedBegin (some (tag (t! "container"))) (some (label (t! "tagged"))) (some (index 0)), I32 42,
       TaggedEnd (some (tag (t! "container"))) (some (label (t! "tagged"))) (some (index 0))] = true := by decide +kernel

def DeriveUnitStructBasicTag : Item' :=
  { ident := t! "Tag", attrs := [],
    data := .struct (.unit) }

/-- `basic`: `derive/test/lib.rs:620-630` -/
example : assertTokens (rust names DeriveUnitStructBasicTag 0 [])
      [Tok.Tag none (some (label (t! "Tag"))) none] = true := by decide +kernel

def DeriveUnitStructUncookedtype : Item' :=
  { ident := t! "type", attrs := [],
    data := .struct (.unit) }

/-- `uncooked`: `derive/test/lib.rs:632-643` -/
example : assertTokens (rust names DeriveUnitStructUncookedtype 0 [])
      [Tok.Tag none (some (label (t! "type"))) none] = true := by decide +kernel

def DeriveEnumBasicEnum : Item' :=
  { ident := t! "Enum", attrs := [],
    data := .enum
      [{ ident := t! "Tag", attrs := [], fields := .unit, discr := none },
       { ident := t! "Tagged", attrs := [], fields := .unnamed [[]], discr := none },
       { ident := t! "Record", attrs := [], fields := .named [(t! "a", [])], discr := none },
       { ident := t! "Tuple", attrs := [], fields := .unnamed [[], []], discr := none }] }

/-- `basic`: `derive/test/lib.rs:649-741` -/
example : assertTokens (rust names DeriveEnumBasicEnum 0 [])
      [EnumBegin none (some (label (t! "Enum"))) none, Tok.Tag none (some (label (t! "Tag"))) (some (index 0)),
       EnumEnd none (some (label (t! "Enum"))) none] = true := by decide +kernel

/-- `basic`: `derive/test/lib.rs:649-741` -/
example : assertTokens (rust names DeriveEnumBasicEnum 1 [(.int .i32 42)])
      [EnumBegin none (some (label (t! "Enum"))) none, TaggedBegin none (some (label (t! "Tagged"))) (some (index 1)),
       I32 42, TaggedEnd none (some (label (t! "Tagged"))) (some (index 1)),
       EnumEnd none (some (label (t! "Enum"))) none] = true := by decide +kernel

/-- `basic`: `derive/test/lib.rs:649-741` -/
example : assertTokens (rust names DeriveEnumBasicEnum 2 [(.int .i32 42)])
      [EnumBegin none (some (label (t! "Enum"))) none,
       RecordTupleBegin none (some (label (t! "Record"))) (some (index 2)) (some 1),
       RecordTupleValueBegin none (label (t! "a")) (index 0), I32 42,
       RecordTupleValueEnd none (label (t! "a")) (index 0),
       RecordTupleEnd none (some (label (t! "Record"))) (some (index 2)),
       EnumEnd none (some (label (t! "Enum"))) none] = true := by decide +kernel

/-- `basic`: `derive/test/lib.rs:649-741` -/
example : assertTokens (rust names DeriveEnumBasicEnum 3 [(.int .i32 42), (.int .i32 43)])
      [EnumBegin none (some (label (t! "Enum"))) none,
       TupleBegin none (some (label (t! "Tuple"))) (some (index 3)) (some 2), TupleValueBegin none (index 0), I32 42,
       TupleValueEnd none (index 0), TupleValueBegin none (index 1), I32 43, TupleValueEnd none (index 1),
       TupleEnd none (some (label (t! "Tuple"))) (some (index 3)), EnumEnd none (some (label (t! "Enum"))) none] = true := by decide +kernel

def DeriveEnumUncookedEnum : Item' :=
  { ident := t! "Enum", attrs := [],
    data := .enum
      [{ ident := t! "type", attrs := [], fields := .unit, discr := none }] }

/-- `uncooked`: `derive/test/lib.rs:743-764` -/
example : assertTokens (rust names DeriveEnumUncookedEnum 0 [])
      [EnumBegin none (some (label (t! "Enum"))) none, Tok.Tag none (some (label (t! "type"))) (some (index 0)),
       EnumEnd none (some (label (t! "Enum"))) none] = true := by decide +kernel

def DeriveEnumUnlabeledEnum : Item' :=
  { ident := t! "Enum", attrs := [sval [(t! "unlabeled_variants", none)]],
    data := .enum
      [{ ident := t! "Tag", attrs := [], fields := .unit, discr := none },
       { ident := t! "Tagged", attrs := [], fields := .unnamed [[]], discr := none },
       { ident := t! "Record", attrs := [], fields := .named [(t! "a", [])], discr := none },
       { ident := t! "Tuple", attrs := [], fields := .unnamed [[], []], discr := none }] }

/-- `unlabeled`: `derive/test/lib.rs:766-829` -/
example : assertTokens (rust names DeriveEnumUnlabeledEnum 0 [])
      [EnumBegin none (some (label (t! "Enum"))) none, Tok.Tag none none (some (index 0)),
       EnumEnd none (some (label (t! "Enum"))) none] = true := by decide +kernel

/-- `unlabeled`: `derive/test/lib.rs:766-829` -/
example : assertTokens (rust names DeriveEnumUnlabeledEnum 1 [(.int .i32 42)])
      [EnumBegin none (some (label (t! "Enum"))) none, TaggedBegin none none (some (index 1)), I32 42,
       TaggedEnd none none (some (index 1)), EnumEnd none (some (label (t! "Enum"))) none] = true := by decide +kernel

/-- `unlabeled`: `derive/test/lib.rs:766-829` -/
example : assertTokens (rust names DeriveEnumUnlabeledEnum 2 [(.int .i32 42)])
      [EnumBegin none (some (label (t! "Enum"))) none, RecordTupleBegin none none (some (index 2)) (some 1),
       RecordTupleValueBegin none (label (t! "a")) (index 0), I32 42,
       RecordTupleValueEnd none (label (t! "a")) (index 0), RecordTupleEnd none none (some (index 2)),
       EnumEnd none (some (label (t! "Enum"))) none] = true := by decide +kernel

/-- `unlabeled`: `derive/test/lib.rs:766-829` -/
example : assertTokens (rust names DeriveEnumUnlabeledEnum 3 [(.int .i32 42), (.int .i32 43)])
      [EnumBegin none (some (label (t! "Enum"))) none, TupleBegin none none (some (index 3)) (some 2),
       TupleValueBegin none (index 0), I32 42, TupleValueEnd none (index 0), TupleValueBegin none (index 1), I32 43,
       TupleValueEnd none (index 1), TupleEnd none none (some (index 3)),
       EnumEnd none (some (label (t! "Enum"))) none] = true := by decide +kernel

def DeriveEnumUnindexedEnum : Item' :=
  { ident := t! "Enum", attrs := [sval [(t! "unindexed_variants", none)]],
    data := .enum
      [{ ident := t! "Tag", attrs := [], fields := .unit, discr := none },
       { ident := t! "Tagged", attrs := [], fields := .unnamed [[]], discr := none },
       { ident := t! "Record", attrs := [], fields := .named [(t! "a", [])], discr := none },
       { ident := t! "Tuple", attrs := [], fields := .unnamed [[], []], discr := none }] }

/-- `unindexed`: `derive/test/lib.rs:831-894` -/
example : assertTokens (rust names DeriveEnumUnindexedEnum 0 [])
      [EnumBegin none (some (label (t! "Enum"))) none, Tok.Tag none (some (label (t! "Tag"))) none,
       EnumEnd none (some (label (t! "Enum"))) none] = true := by decide +kernel

/-- `unindexed`: `derive/test/lib.rs:831-894` -/
example : assertTokens (rust names DeriveEnumUnindexedEnum 1 [(.int .i32 42)])
      [EnumBegin none (some (label (t! "Enum"))) none, TaggedBegin none (some (label (t! "Tagged"))) none, I32 42,
       TaggedEnd none (some (label (t! "Tagged"))) none, EnumEnd none (some (label (t! "Enum"))) none] = true := by decide +kernel

/-- `unindexed`: `derive/test/lib.rs:831-894` -/
example : assertTokens (rust names DeriveEnumUnindexedEnum 2 [(.int .i32 42)])
      [EnumBegin none (some (label (t! "Enum"))) none,
       RecordTupleBegin none (some (label (t! "Record"))) none (some 1),
       RecordTupleValueBegin none (label (t! "a")) (index 0), I32 42,
       RecordTupleValueEnd none (label (t! "a")) (index 0), RecordTupleEnd none (some (label (t! "Record"))) none,
       EnumEnd none (some (label (t! "Enum"))) none] = true := by decide +kernel

/-- `unindexed`: `derive/test/lib.rs:831-894` -/
example : assertTokens (rust names DeriveEnumUnindexedEnum 3 [(.int .i32 42), (.int .i32 43)])
      [EnumBegin none (some (label (t! "Enum"))) none, TupleBegin none (some (label (t! "Tuple"))) none (some 2),
       TupleValueBegin none (index 0), I32 42, TupleValueEnd none (index 0), TupleValueBegin none (index 1), I32 43,
       TupleValueEnd none (index 1), TupleEnd none (some (label (t! "Tuple"))) none,
       EnumEnd none (some (label (t! "Enum"))) none] = true := by decide +kernel

def DeriveEnumUnlabeledUnindexedEnum : Item' :=
  { ident := t! "Enum", attrs := [sval [(t! "unlabeled_variants", none), (t! "unindexed_variants", none)]],
    data := .enum
      [{ ident := t! "Tag", attrs := [], fields := .unit, discr := none },
       { ident := t! "Tagged", attrs := [], fields := .unnamed [[]], discr := none },
       { ident := t! "Record", attrs := [], fields := .named [(t! "a", [])], discr := none },
       { ident := t! "Tuple", attrs := [], fields := .unnamed [[], []], discr := none }] }

/-- `unlabeled_unindexed`: `derive/test/lib.rs:896-959` -/
example : assertTokens (rust names DeriveEnumUnlabeledUnindexedEnum 0 [])
      [EnumBegin none (some (label (t! "Enum"))) none, Tok.Tag none none none,
       EnumEnd none (some (label (t! "Enum"))) none] = true := by decide +kernel

/-- `unlabeled_unindexed`: `derive/test/lib.rs:896-959` -/
example : assertTokens (rust names DeriveEnumUnlabeledUnindexedEnum 1 [(.int .i32 42)])
      [EnumBegin none (some (label (t! "Enum"))) none, TaggedBegin none none none, I32 42, TaggedEnd none none none,
       EnumEnd none (some (label (t! "Enum"))) none] = true := by decide +kernel

/-- `unlabeled_unindexed`: `derive/test/lib.rs:896-959` -/
example : assertTokens (rust names DeriveEnumUnlabeledUnindexedEnum 2 [(.int .i32 42)])
      [EnumBegin none (some (label (t! "Enum"))) none, RecordTupleBegin none none none (some 1),
       RecordTupleValueBegin none (label (t! "a")) (index 0), I32 42,
       RecordTupleValueEnd none (label (t! "a")) (index 0), RecordTupleEnd none none none,
       EnumEnd none (some (label (t! "Enum"))) none] = true := by decide +kernel

/-- `unlabeled_unindexed`: `derive/test/lib.rs:896-959` -/
example : assertTokens (rust names DeriveEnumUnlabeledUnindexedEnum 3 [(.int .i32 42), (.int .i32 43)])
      [EnumBegin none (some (label (t! "Enum"))) none, TupleBegin none none none (some 2),
       TupleValueBegin none (index 0), I32 42, TupleValueEnd none (index 0), TupleValueBegin none (index 1), I32 43,
       TupleValueEnd none (index 1), TupleEnd none none none, EnumEnd none (some (label (t! "Enum"))) none] = true := by decide +kernel

def DeriveEnumTaggedNames : Names :=
  { isPath := fun _ => true,
    tag := fun p => if p = t! "CONTAINER" then tag (t! "container") else if p = t! "VARIANT" then tag (t! "variant") else if p = t! "FIELD" then tag (t! "field") else names.tag p,
    label := fun p => names.label p,
    index := fun p => names.index p }

def DeriveEnumTaggedEnum : Item' :=
  { ident := t! "Enum", attrs := [sval [(t! "tag", some (.lit (.str (t! "CONTAINER")))), (t! "label", some (.lit (.str (t! "enum")))), (t! "index", some (.lit (.int 0)))]],
    data := .enum
      [{ ident := t! "Tag", attrs := [sval [(t! "tag", some (.lit (.str (t! "VARIANT")))), (t! "label", some (.lit (.str (t! "tag")))), (t! "index", some (.neg (.int 1)))]], fields := .unit, discr := none },
       { ident := t! "Tagged", attrs := [sval [(t! "tag", some (.lit (.str (t! "VARIANT")))), (t! "label", some (.lit (.str (t! "tagged")))), (t! "index", some (.neg (.int 2)))]], fields := .unnamed [[]], discr := none },
       { ident := t! "Record", attrs := [sval [(t! "tag", some (.lit (.str (t! "VARIANT")))), (t! "label", some (.lit (.str (t! "record")))), (t! "index", some (.neg (.int 3)))]], fields := .named [(t! "a", [sval [(t! "tag", some (.lit (.str (t! "FIELD")))), (t! "label", some (.lit (.str (t! "field"))))]])], discr := none },
       { ident := t! "Tuple", attrs := [sval [(t! "tag", some (.lit (.str (t! "VARIANT")))), (t! "label", some (.lit (.str (t! "tuple")))), (t! "index", some (.neg (.int 4)))]], fields := .unnamed [[sval [(t! "tag", some (.lit (.str (t! "FIELD")))), (t! "index", some (.lit (.int 1)))]], [sval [(t! "tag", some (.lit (.str (t! "FIELD")))), (t! "index", some (.lit (.int 2)))]]], discr := none }] }

/-- `tagged`: `derive/test/lib.rs:961-1100` -/
example : assertTokens (rust DeriveEnumTaggedNames DeriveEnumTaggedEnum 0 [])
      [EnumBegin (some (tag (t! "container"))) (some (label (t! "enum"))) (some (index 0)),
       Tok.Tag (some (tag (t! "variant"))) (some (label (t! "tag"))) (some (index (-1))),
       EnumEnd (some (tag (t! "container"))) (some (label (t! "enum"))) (some (index 0))] = true := by decide +kernel

/-- `tagged`: `derive/test/lib.rs:961-1100` -/
example : assertTokens (rust DeriveEnumTaggedNames DeriveEnumTaggedEnum 1 [(.int .i32 42)])
      [EnumBegin (some (tag (t! "container"))) (some (label (t! "enum"))) (some (index 0)),
       TaggedBegin (some (tag (t! "variant"))) (some (label (t! "tagged"))) (some (index (-2))), I32 42,
       TaggedEnd (some (tag (t! "variant"))) (some (label (t! "tagged"))) (some (index (-2))),
       EnumEnd (some (tag (t! "container"))) (some (label (t! "enum"))) (some (index 0))] = true := by decide +kernel

/-- `tagged`: `derive/test/lib.rs:961-1100` -/
example : assertTokens (rust DeriveEnumTaggedNames DeriveEnumTaggedEnum 2 [(.int .i32 42)])
      [EnumBegin (some (tag (t! "container"))) (some (label (t! "enum"))) (some (index 0)),
       RecordTupleBegin (some (tag (t! "variant"))) (some (label (t! "record"))) (some (index (-3))) (some 1),
       RecordTupleValueBegin (some (tag (t! "field"))) (label (t! "field")) (index 0), I32 42,
       RecordTupleValueEnd (some (tag (t! "field"))) (label (t! "field")) (index 0),
       RecordTupleEnd (some (tag (t! "variant"))) (some (label (t! "record"))) (some (index (-3))),
       EnumEnd (some (tag (t! "container"))) (some (label (t! "enum"))) (some (index 0))] = true := by decide +kernel

/-- `tagged`: `derive/test/lib.rs:961-1100` -/
example : assertTokens (rust DeriveEnumTaggedNames DeriveEnumTaggedEnum 3 [(.int .i32 42), (.int .i32 43)])
      [EnumBegin (some (tag (t! "container"))) (some (label (t! "enum"))) (some (index 0)),
       TupleBegin (some (tag (t! "variant"))) (some (label (t! "tuple"))) (some (index (-4))) (some 2),
       TupleValueBegin (some (tag (t! "field"))) (index 1), I32 42, TupleValueEnd (some (tag (t! "field"))) (index 1),
       TupleValueBegin (some (tag (t! "field"))) (index 2), I32 43, TupleValueEnd (some (tag (t! "field"))) (index 2),
       TupleEnd (some (tag (t! "variant"))) (some (label (t! "tuple"))) (some (index (-4))),
       EnumEnd (some (tag (t! "container"))) (some (label (t! "enum"))) (some (index 0))] = true := by decide +kernel

def DeriveEnumSkipEnum : Item' :=
  { ident := t! "Enum", attrs := [],
    data := .enum
      [{ ident := t! "Record", attrs := [], fields := .named [(t! "skipped", [sval [(t! "skip", none)]]), (t! "a", [])], discr := none },
       { ident := t! "Tuple", attrs := [], fields := .unnamed [[sval [(t! "skip", none)]], []], discr := none }] }

/-- `skip`: `derive/test/lib.rs:1102-1161` -/
example : assertTokens (rust names DeriveEnumSkipEnum 0 [(.int .i32 1), (.int .i32 42)])
      [EnumBegin none (some (label (t! "Enum"))) none,
       RecordTupleBegin none (some (label (t! "Record"))) (some (index 0)) (some 1),
       RecordTupleValueBegin none (label (t! "a")) (index 0), I32 42,
       RecordTupleValueEnd none (label (t! "a")) (index 0),
       RecordTupleEnd none (some (label (t! "Record"))) (some (index 0)),
       EnumEnd none (some (label (t! "Enum"))) none] = true := by decide +kernel

/-- `skip`: `derive/test/lib.rs:1102-1161` -/
example : assertTokens (rust names DeriveEnumSkipEnum 1 [(.int .i32 42), (.int .i32 43)])
      [EnumBegin none (some (label (t! "Enum"))) none,
       TupleBegin none (some (label (t! "Tuple"))) (some (index 1)) (some 1), TupleValueBegin none (index 0), I32 43,
       TupleValueEnd none (index 0), TupleEnd none (some (label (t! "Tuple"))) (some (index 1)),
       EnumEnd none (some (label (t! "Enum"))) none] = true := by decide +kernel

def DeriveEnumDiscriminantEnum : Item' :=
  { ident := t! "Enum", attrs := [],
    data := .enum
      [{ ident := t! "A", attrs := [], fields := .unit, discr := some (.neg (.int 3), -3) },
       { ident := t! "B", attrs := [sval [(t! "index", some (.neg (.int 2)))]], fields := .unit, discr := some (.lit (.int 4), 4) },
       { ident := t! "C", attrs := [], fields := .unnamed [[]], discr := some (.neg (.int 1), -1) }] }

/-- `discriminant`: `derive/test/lib.rs:1163-1221` -/
example : assertTokens (rust names DeriveEnumDiscriminantEnum 0 [])
      [EnumBegin none (some (label (t! "Enum"))) none, Tok.Tag none (some (label (t! "A"))) (some (index (-3))),
       EnumEnd none (some (label (t! "Enum"))) none] = true := by decide +kernel

/-- `discriminant`: `derive/test/lib.rs:1163-1221` -/
example : assertTokens (rust names DeriveEnumDiscriminantEnum 1 [])
      [EnumBegin none (some (label (t! "Enum"))) none, Tok.Tag none (some (label (t! "B"))) (some (index (-2))),
       EnumEnd none (some (label (t! "Enum"))) none] = true := by decide +kernel

/-- `discriminant`: `derive/test/lib.rs:1163-1221` -/
example : assertTokens (rust names DeriveEnumDiscriminantEnum 2 [(.int .i32 42)])
      [EnumBegin none (some (label (t! "Enum"))) none, TaggedBegin none (some (label (t! "C"))) (some (index (-1))),
       I32 42, TaggedEnd none (some (label (t! "C"))) (some (index (-1))),
       EnumEnd none (some (label (t! "Enum"))) none] = true := by decide +kernel

def DeriveEnumDynamicDynamic : Item' :=
  { ident := t! "Dynamic", attrs := [sval [(t! "dynamic", none)]],
    data := .enum
      [{ ident := t! "Tag", attrs := [], fields := .unit, discr := none },
       { ident := t! "I32", attrs := [], fields := .unnamed [[]], discr := none },
       { ident := t! "Bool", attrs := [], fields := .unnamed [[]], discr := none },
       { ident := t! "Record", attrs := [], fields := .named [(t! "a", [])], discr := none },
       { ident := t! "Tuple", attrs := [], fields := .unnamed [[], []], discr := none }] }

/-- `dynamic`: `derive/test/lib.rs:1232-1288` -/
example : assertTokens (rust names DeriveEnumDynamicDynamic 0 [])
      [Tok.Tag none (some (label (t! "Tag"))) none] = true := by decide +kernel

/-- `dynamic`: `derive/test/lib.rs:1232-1288` -/
example : assertTokens (rust names DeriveEnumDynamicDynamic 2 [(.bool true)])
      [Tok.Bool true] = true := by decide +kernel

/-- `dynamic`: `derive/test/lib.rs:1232-1288` -/
example : assertTokens (rust names DeriveEnumDynamicDynamic 1 [(.int .i32 42)])
      [I32 42] = true := by decide +kernel

/-- `dynamic`: `derive/test/lib.rs:1232-1288` -/
example : assertTokens (rust names DeriveEnumDynamicDynamic 3 [(.int .i32 42)])
      [RecordTupleBegin none none none (some 1), RecordTupleValueBegin none (label (t! "a")) (index 0), I32 42,
       RecordTupleValueEnd none (label (t! "a")) (index 0), RecordTupleEnd none none none] = true := by decide +kernel

/-- `dynamic`: `derive/test/lib.rs:1232-1288` -/
example : assertTokens (rust names DeriveEnumDynamicDynamic 4 [(.int .i32 42), (.int .i32 43)])
      [TupleBegin none none none (some 2), TupleValueBegin none (index 0), I32 42, TupleValueEnd none (index 0),
       TupleValueBegin none (index 1), I32 43, TupleValueEnd none (index 1), TupleEnd none none none] = true := by decide +kernel

def failEnumDynamicUnindexedVariants : Item' :=
  { ident := t! "Enum", attrs := [sval [(t! "dynamic", none), (t! "unindexed_variants", none)]],
    data := .enum
      [{ ident := t! "A", attrs := [], fields := .unit, discr := none },
       { ident := t! "B", attrs := [], fields := .unit, discr := none },
       { ident := t! "C", attrs := [], fields := .unit, discr := none }] }

/-- `compile_fail`: `derive/test/compile_fail/enum_dynamic_unindexed_variants.rs:1-13` -/
example : (Derive.derive names true failEnumDynamicUnindexedVariants).isNone = true := by decide +kernel

def failEnumDynamicUnlabeledVariants : Item' :=
  { ident := t! "Enum", attrs := [sval [(t! "dynamic", none), (t! "unlabeled_variants", none)]],
    data := .enum
      [{ ident := t! "A", attrs := [], fields := .unit, discr := none },
       { ident := t! "B", attrs := [], fields := .unit, discr := none },
       { ident := t! "C", attrs := [], fields := .unit, discr := none }] }

/-- `compile_fail`: `derive/test/compile_fail/enum_dynamic_unlabeled_variants.rs:1-13` -/
example : (Derive.derive names true failEnumDynamicUnlabeledVariants).isNone = true := by decide +kernel

def failEnumUnindexedFields : Item' :=
  { ident := t! "Enum", attrs := [sval [(t! "unindexed_fields", none)]],
    data := .enum
      [{ ident := t! "A", attrs := [], fields := .unit, discr := none },
       { ident := t! "B", attrs := [], fields := .unit, discr := none },
       { ident := t! "C", attrs := [], fields := .unit, discr := none }] }

/-- `compile_fail`: `derive/test/compile_fail/enum_unindexed_fields.rs:1-13` -/
example : (Derive.derive names true failEnumUnindexedFields).isNone = true := by decide +kernel

def failEnumUnlabeledFields : Item' :=
  { ident := t! "Enum", attrs := [sval [(t! "unlabeled_fields", none)]],
    data := .enum
      [{ ident := t! "A", attrs := [], fields := .unit, discr := none },
       { ident := t! "B", attrs := [], fields := .unit, discr := none },
       { ident := t! "C", attrs := [], fields := .unit, discr := none }] }

/-- `compile_fail`: `derive/test/compile_fail/enum_unlabeled_fields.rs:1-13` -/
example : (Derive.derive names true failEnumUnlabeledFields).isNone = true := by decide +kernel

def failNewtypeDataTag : Item' :=
  { ident := t! "Newtype", attrs := [],
    data := .struct (.unnamed [[sval [(t! "data_tag", some (.lit (.str (t! "sval::tags::NUMBER"))))]]]) }

/-- `compile_fail`: `derive/test/compile_fail/newtype_data_tag.rs:1-8` -/
example : (Derive.derive names true failNewtypeDataTag).isNone = true := by decide +kernel

def failNewtypeIndex : Item' :=
  { ident := t! "Newtype", attrs := [],
    data := .struct (.unnamed [[sval [(t! "index", some (.lit (.int 1)))]]]) }

/-- `compile_fail`: `derive/test/compile_fail/newtype_index.rs:1-8` -/
example : (Derive.derive names true failNewtypeIndex).isNone = true := by decide +kernel

def failNewtypeLabel : Item' :=
  { ident := t! "Newtype", attrs := [],
    data := .struct (.unnamed [[sval [(t! "label", some (.lit (.str (t! "value"))))]]]) }

/-- `compile_fail`: `derive/test/compile_fail/newtype_label.rs:1-8` -/
example : (Derive.derive names true failNewtypeLabel).isNone = true := by decide +kernel

def failNewtypeTag : Item' :=
  { ident := t! "Newtype", attrs := [],
    data := .struct (.unnamed [[sval [(t! "tag", some (.lit (.str (t! "sval::tags::NUMBER"))))]]]) }

/-- `compile_fail`: `derive/test/compile_fail/newtype_tag.rs:1-8` -/
example : (Derive.derive names true failNewtypeTag).isNone = true := by decide +kernel

def failRecordAsSeqIncompleteIndexes : Item' :=
  { ident := t! "Record", attrs := [sval [(t! "unindexed_fields", none), (t! "unlabeled_fields", none)]],
    data := .struct (.named [(t! "a", [sval [(t! "index", some (.lit (.int 1)))]]), (t! "b", []), (t! "c", [])]) }

/-- `compile_fail`: `derive/test/compile_fail/record_as_seq_incomplete_indexes.rs:1-14` -/
example : (Derive.derive names true failRecordAsSeqIncompleteIndexes).isNone = true := by decide +kernel

def failRecordAsSeqIncompleteLabels : Item' :=
  { ident := t! "Record", attrs := [sval [(t! "unindexed_fields", none), (t! "unlabeled_fields", none)]],
    data := .struct (.named [(t! "a", [sval [(t! "label", some (.lit (.str (t! "a"))))]]), (t! "b", []), (t! "c", [])]) }

/-- `compile_fail`: `derive/test/compile_fail/record_as_seq_incomplete_labels.rs:1-14` -/
example : (Derive.derive names true failRecordAsSeqIncompleteLabels).isNone = true := by decide +kernel

def failRecordAsTupleIncompleteLabels : Item' :=
  { ident := t! "Record", attrs := [sval [(t! "unlabeled_fields", none)]],
    data := .struct (.named [(t! "a", [sval [(t! "label", some (.lit (.str (t! "a"))))]]), (t! "b", []), (t! "c", [])]) }

/-- `compile_fail`: `derive/test/compile_fail/record_as_tuple_incomplete_labels.rs:1-14` -/
example : (Derive.derive names true failRecordAsTupleIncompleteLabels).isNone = true := by decide +kernel

def failTupleIncompleteLabels : Item' :=
  { ident := t! "Tuple", attrs := [],
    data := .struct (.unnamed [[sval [(t! "label", some (.lit (.str (t! "a"))))]], [], []]) }

/-- `compile_fail`: `derive/test/compile_fail/tuple_incomplete_labels.rs:1-8` -/
example : (Derive.derive names true failTupleIncompleteLabels).isNone = true := by decide +kernel

def failTupleTransparent : Item' :=
  { ident := t! "Tuple", attrs := [sval [(t! "transparent", none)]],
    data := .struct (.unnamed [[], [], []]) }

/-- `compile_fail`: `derive/test/compile_fail/tuple_transparent.rs:1-9` -/
example : (Derive.derive names true failTupleTransparent).isNone = true := by decide +kernel

def failUnion : Item' :=
  { ident := t! "Union", attrs := [],
    data := .union }

/-- `compile_fail`: `derive/test/compile_fail/union.rs:1-11` -/
example : (Derive.derive names true failUnion).isNone = true := by decide +kernel

end Sval.DeriveSuite
