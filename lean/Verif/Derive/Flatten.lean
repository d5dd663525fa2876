import Verif.Flatten.Model
import Verif.Rust.Model

set_option autoImplicit false

/-!
# Derived types with flattened fields

What the generated code does depends on the index that `sval_flatten` returns, and the value of a flattened field is
streamed to another stream, so this is given as running on a stream, for any stream.
-/

namespace Sval.Derive

open Nested (Item)
open Rust (RV)

/-- `Value::stream`, on any stream. -/
abbrev Streamer := (σ : Type) → (Token → σ → Res Unit σ) → σ → Outcome σ

/-- Code that makes these calls. -/
def run (q : List Item) : Streamer := fun _ S s => drive S (Nested.prog q) s

/-- Code with `?` after it, followed by more code. -/
def andThen {σ τ : Type} (o : Outcome σ) (g : σ → τ) (f : σ → Outcome τ) : Outcome τ :=
  match o with
  | .done true s => f s
  | .done false s => .done false (g s)
  | .panicked => .panicked

/-- Code followed by more code. -/
def Streamer.then (x y : Streamer) : Streamer := fun σ S s => andThen (x σ S s) id (y σ S)

section
variable (alloc : Bool) (ryu : UInt64 → Text)

/-- The function called for a flattened field. -/
def flattenKind : Target → Flatten.Kind
  | .recordTuple => .recordTuple
  | .record => .record
  | .tuple => .tuple
  | .seq => .seq

/-- `flatten_to_record_tuple` and so on, of a value: `flatten/src/record_tuple.rs:13-31` and the like. -/
def flattenWith (kind : Flatten.Kind) {σ : Type} (S : Token → σ → Res Unit σ) (x : Streamer) (off : Int) (s : σ) :
    Outcome (σ × Int) :=
  let cfg : Flatten.Cfg := { kind, alloc, ryu }
  match x _ (Flatten.call cfg S) (Flatten.begin off s) with
  | .done ok st => .done ok (st.s, st.ctl.alloc.current)
  | .panicked => .panicked

/-- The value of a field: `derive_macros/src/stream/stream_record_tuple.rs:109-121` -/
def valueTo (dataTag : Option Tag) (x : Streamer) : Streamer :=
  match dataTag with
  | some t => (run [.tok (.taggedBegin { tag := some t })]).then (x.then (run [.tok (.taggedEnd { tag := some t })]))
  | none => x

/-- The call before the value of a field, and the one after: `derive_macros/src/stream/stream_record_tuple.rs:123-187` -/
def fieldCalls (n : Int) (p : Plan) : Token × Token :=
  match p.label, p.slot with
  | some l, some i => (.recordTupleValueBegin p.tag l (i.at n), .recordTupleValueEnd p.tag l (i.at n))
  | none, some i => (.tupleValueBegin p.tag (i.at n), .tupleValueEnd p.tag (i.at n))
  | some l, none => (.recordValueBegin p.tag l, .recordValueEnd p.tag l)
  | none, none => (.seqValueBegin, .seqValueEnd)

/-- A field that is not flattened: `derive_macros/src/stream/stream_record_tuple.rs:123-187` -/
def fieldTo (n : Int) (p : Plan) (x : Streamer) : Streamer :=
  (run [.tok (fieldCalls n p).1]).then ((valueTo p.dataTag x).then (run [.tok (fieldCalls n p).2]))

/-- A field, with the variable `__sval_index` afterwards: `derive_macros/src/stream/stream_record_tuple.rs:123-187`. A data
tag on a flattened field is not used. -/
def anyFieldTo {σ : Type} (S : Token → σ → Res Unit σ) (n : Int) (p : Plan) (x : Streamer) (s : σ) : Outcome (σ × Int) :=
  if p.flatten then
    match p.target with
    | .seq => andThen (flattenWith alloc ryu .seq S x 0 s) (fun r => (r.1, n)) fun r => .done true (r.1, n)
    | t => flattenWith alloc ryu (flattenKind t) S x n s
  else andThen (fieldTo n p x σ S s) (fun s => (s, n)) fun s => .done true (s, p.after n)

/-- The fields. -/
def fieldsTo {σ : Type} (S : Token → σ → Res Unit σ) : Int → List Plan → List Streamer → σ → Outcome (σ × Int)
  | n, p :: ps, x :: xs, s => andThen (anyFieldTo alloc ryu S n p x s) id fun r => fieldsTo S r.2 ps xs r.1
  | n, _, _, s => .done true (s, n)

/-- `stream_record_tuple`: `derive_macros/src/stream/stream_record_tuple.rs:28-262` -/
def structTo (named : Bool) (at' : Attrs) (m : Meta) (fs : List Field) (xs : List Streamer) : Streamer := fun σ S s =>
  let ps := plans at' {} fs
  andThen (run (beginItems (target named ps) m (count ps)) σ S s) id fun s =>
    andThen (fieldsTo alloc ryu S 0 ps (kept fs xs) s) (·.1) fun r => run (endItems (target named ps) m) σ S r.1

/-- The arm of the match for a variant: `derive_macros/src/derive/derive_enum.rs:147-198`. The fields of those with
one unnamed field, or without fields, have no attributes. -/
def armTo (d : EnumDef) (v : Variant) (s : Option Slot) (xs : List Streamer) : Streamer :=
  let m := variantMeta d v s
  match v.shape with
  | .unit => run [.tok (.tag m)]
  | .newtype =>
    let x : Streamer := xs.head?.getD (run [])
    if d.dyn then x else (run [.tok (.taggedBegin m)]).then (x.then (run [.tok (.taggedEnd m)]))
  | .named fs => structTo alloc ryu true v.attrs m fs xs
  | .unnamed fs => structTo alloc ryu false v.attrs m fs xs

/-- `derive_enum`: `derive_macros/src/derive/derive_enum.rs:201-238` -/
def enumTo (d : EnumDef) (i : Nat) (xs : List Streamer) : Streamer :=
  match d.variants[i]?, (variantSlots d {} d.variants)[i]? with
  | some v, some s =>
    if d.dyn then armTo alloc ryu d v s xs
    else (run [.tok (.enumBegin (enumMeta d))]).then
      ((armTo alloc ryu d v s xs).then (run [.tok (.enumEnd (enumMeta d))]))
  | _, _ => run []

/-- The loop over elements: `src/data/seq.rs:7-11` -/
def elemsTo : List Streamer → Streamer
  | [] => run []
  | x :: xs => (run [.tok .seqValueBegin]).then (x.then ((run [.tok .seqValueEnd]).then (elemsTo xs)))

end

/-- Values of Rust types some of which have flattened fields. -/
inductive FV where
  /-- without flattened fields -/
  | plain (v : RV)
  | some (v : FV)
  | slice (vs : List FV)
  | struct (named : Bool) (ident : Text) (at' : Attrs) (fs : List Field) (vs : List FV)
  | enum (d : EnumDef) (i : Nat) (vs : List FV)

mutual
/-- `Value::stream` -/
def stream (alloc : Bool) (ryu : UInt64 → Text) : FV → Streamer
  | .plain v => run (Rust.items v)
  -- `src/data/option.rs:15-38`
  | .some v => (run [.tok (.taggedBegin Serde.someMeta)]).then
      ((stream alloc ryu v).then (run [.tok (.taggedEnd Serde.someMeta)]))
  -- `src/data/seq.rs:3-15`
  | .slice vs => (run [.tok (.seqBegin (Option.some vs.length))]).then
      ((elemsTo (streams alloc ryu vs)).then (run [.tok .seqEnd]))
  | .struct named ident at' fs vs => structTo alloc ryu named at' (structMeta ident at') fs (streams alloc ryu vs)
  | .enum d i vs => enumTo alloc ryu d i (streams alloc ryu vs)

def streams (alloc : Bool) (ryu : UInt64 → Text) : List FV → List Streamer
  | [] => []
  | v :: vs => stream alloc ryu v :: streams alloc ryu vs
end

end Sval.Derive
