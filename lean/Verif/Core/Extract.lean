import Verif.Core.LowerLemmas
import Verif.Core.Prog

set_option autoImplicit false

/-!
# Extracting scalars from values: `src/value.rs`, module `default_value`

Each extractor is a private `Stream` that overrides a few methods, answers every other required
method with an error, and relies on the default methods for the rest.
-/

namespace Sval

/-- A stream that implements only the required methods. -/
def Caps.minimal : Caps :=
  { u8 := false, u16 := false, u32 := false, u64 := false, u128 := false, i8 := false, i16 := false,
    i32 := false, i128 := false, f32 := false, textFragment := false, binary := false,
    binaryFragment := false, map := false, enum := false, tagged := false, tag := false,
    tagHint := false, record := false, tuple := false, recordTuple := false }

/-- A result as the new state and whether the call succeeded. -/
def Res.pair {ε σ : Type} (s : σ) : Res ε σ → σ × Bool
  | .ok s' => (s', true)
  | .err _ s' => (s', false)
  | .panic => (s, false)

/-- A stream with implemented methods `step` and the defaults, as a stream for `exec`. -/
def stepS {σ : Type} (c : Caps) (step : Token → σ → Res Unit σ) (t : Token) (s : σ) : σ × Bool :=
  (run step (Low.tok c t) s).pair s

/-- `let mut extract = ..; value.stream(&mut extract).ok()?; extract.0` -/
def extract {σ : Type} (c : Caps) (step : Token → σ → Res Unit σ) (init : σ) (p : Prog) : Option σ :=
  let r := exec (stepS c step) p .base init
  if r.2 then some r.1 else none

namespace Ext

/-- `src/value.rs:392-437` -/
def boolStep : Token → Option Bool → Res Unit (Option Bool)
  | .bool b, _ => .ok (some b)
  | _, s => .err () s
/-- `src/value.rs:389-442` -/
def toBool (p : Prog) : Option Bool := (extract .minimal boolStep none p).join

/-- `src/value.rs:450-499` -/
def f32Step : Token → Option UInt32 → Res Unit (Option UInt32)
  | .f32 b, _ => .ok (some b)
  | _, s => .err () s
/-- `src/value.rs:447-504` -/
def toF32 (p : Prog) : Option UInt32 := (extract { Caps.minimal with f32 := true } f32Step none p).join

/-- `src/value.rs:512-557` -/
def f64Step : Token → Option UInt64 → Res Unit (Option UInt64)
  | .f64 b, _ => .ok (some b)
  | _, s => .err () s
/-- `src/value.rs:509-562` -/
def toF64 (p : Prog) : Option UInt64 := (extract .minimal f64Step none p).join

/-- `src/value.rs:598-647` -/
def i128Step : Token → Option Int → Res Unit (Option Int)
  | .int .i128 v, _ => .ok (some v)
  | _, s => .err () s
/-- `src/value.rs:595-652` -/
def toI128 (p : Prog) : Option Int := (extract { Caps.minimal with i128 := true } i128Step none p).join

/-- `src/value.rs:688-737` -/
def u128Step : Token → Option Int → Res Unit (Option Int)
  | .int .u128 v, _ => .ok (some v)
  | _, s => .err () s
/-- `src/value.rs:685-742` -/
def toU128 (p : Prog) : Option Int := (extract { Caps.minimal with u128 := true } u128Step none p).join

/-- `TryFrom` between integer types: succeeds exactly on representable values. -/
def tryInto (t : IntTy) (v : Int) : Option Int := if t.fits v then some v else none

/-- Is the width signed? -/
def signed : IntTy → Bool
  | .i8 | .i16 | .i32 | .i64 | .i128 => true
  | _ => false

/-- The ten `default_value::to_i8 .. to_u128`: `src/value.rs:567-590`, `595-652`, `657-680`,
`685-742`, for a value whose own `to_i128` and `to_u128` are the defaults. -/
def toInt (t : IntTy) (p : Prog) : Option Int :=
  match t with
  | .i128 => toI128 p
  | .u128 => toU128 p
  | t => if signed t then (toI128 p).bind (tryInto t) else (toU128 p).bind (tryInto t)

/-- State of the text and binary extractors: `src/value.rs:748-751`. -/
structure Frags (α : Type) where
  extracted : Option α := none
  seen : Bool := false

/-- `src/value.rs:753-811` -/
def textStep : Token → Frags Text → Res Unit (Frags Text)
  | .textBegin _, s => .ok s
  | .textFragment f, s =>
    if s.seen then .ok { s with extracted := none } else .ok { extracted := some f, seen := true }
  | .textFragmentComputed _, _ => .err () { extracted := none, seen := true }
  | .textEnd, s => .ok s
  | _, s => .err () s
/-- `src/value.rs:747-821` -/
def toText (p : Prog) : Option Text :=
  (extract { Caps.minimal with textFragment := true } textStep {} p).bind (·.extracted)

/-- `src/value.rs:832-902` -/
def binaryStep : Token → Frags Bytes → Res Unit (Frags Bytes)
  | .binaryBegin _, s => .ok s
  | .binaryFragment f, s =>
    if s.seen then .ok { s with extracted := none } else .ok { extracted := some f, seen := true }
  | .binaryFragmentComputed _, _ => .err () { extracted := none, seen := true }
  | .binaryEnd, s => .ok s
  | _, s => .err () s
/-- `src/value.rs:826-912` -/
def toBinary (p : Prog) : Option Bytes :=
  (extract { Caps.minimal with binary := true, binaryFragment := true } binaryStep {} p).bind
    (·.extracted)

/-- State of the tag extractor, `src/value.rs:270-273`. -/
structure TagSt where
  value : Option Tag := none
  set : Bool := false
deriving DecidableEq

/-- `Extract::set`, `src/value.rs:276-285`. -/
def TagSt.doSet (s : TagSt) (t : Option Tag) : TagSt × Bool :=
  if s.set then (s, false) else ({ value := t, set := true }, true)

/-- The tag extractor, `src/value.rs:288-374`. It overrides `tag` and the `begin` methods of
tagged values, enums, records and tuples but not the matching `end` methods, so the defaults for those
are spelled out here: `tagged_end`, `enum_end` and `tag_hint` succeed (`src/stream.rs:1344-1387`,
`1427-1432`), record and tuple contents and ends fall back on sequences, which are errors.
Integers fall back on `i64`, or on a `NUMBER` tagged text whose `text_begin` is an error. -/
def tagStep : Token → TagSt → TagSt × Bool
  | .tag m, s => s.doSet m.tag
  | .taggedBegin m, s => s.doSet m.tag
  | .enumBegin m, s => s.doSet m.tag
  | .recordBegin m _, s => s.doSet m.tag
  | .tupleBegin m _, s => s.doSet m.tag
  | .recordTupleBegin m _, s => s.doSet m.tag
  | .int t v, s =>
    if t != .i128 && t != .u128 && t != .u64 || IntTy.i64.fits v then s.doSet (some tags.NUMBER)
    else ((s.doSet (some tags.NUMBER)).1, false)
  | .f32 _, s => s.doSet (some tags.NUMBER)
  | .f64 _, s => s.doSet (some tags.NUMBER)
  | .taggedEnd _, s => (s, true)
  | .enumEnd _, s => (s, true)
  | .tagHint _, s => (s, true)
  | _, s => (s, false)
/-- `src/value.rs:269-384` -/
def tag (p : Prog) : Option Tag := (exec tagStep p .base {}).1.value

end Ext

/-- `impl Value for Option<T>`, the `Some` case: `src/data/option.rs:17-30`. -/
def someMeta : Meta :=
  { tag := some tags.RUST_OPTION_SOME,
    label := some { text := t! "Some", tag := some tags.VALUE_IDENT },
    index := some { val := 1, tag := some tags.VALUE_OFFSET } }
/-- `src/data/option.rs:31-37` -/
def noneMeta : Meta :=
  { tag := some tags.RUST_OPTION_NONE,
    label := some { text := t! "None", tag := some tags.VALUE_IDENT },
    index := some { val := 0, tag := some tags.VALUE_OFFSET } }
/-- `?` after a call. -/
def Prog.andThen (k : Prog) : Bool → Prog
  | true => k
  | false => .ret false
/-- `impl Value for Option`: `src/data/option.rs:15-38` -/
def optionProg : Option Prog → Prog
  | some p =>
    .call (.taggedBegin someMeta) (.andThen (.value p (.andThen (.call (.taggedEnd someMeta) .ret))))
  | none => .call (.tag noneMeta) .ret

/-- The part of the `Value` trait that is not `stream`, as a table of results: `src/value.rs:6-139`. -/
structure Extracts where
  tag : Option Tag
  toBool : Option Bool
  toF32 : Option UInt32
  toF64 : Option UInt64
  toInt : IntTy → Option Int
  toText : Option Text
  toBinary : Option Bytes

/-- All methods defaulted: `src/value.rs:16-138`. -/
def Extracts.default (p : Prog) : Extracts where
  tag := Ext.tag p
  toBool := Ext.toBool p
  toF32 := Ext.toF32 p
  toF64 := Ext.toF64 p
  toInt := fun t => Ext.toInt t p
  toText := Ext.toText p
  toBinary := Ext.toBinary p

/-- `impl Value for $ty` of the integer types: `src/data/number.rs:17-53` overrides the conversion to
the same type. (For `i128` and `u128` the narrower conversions call the overridden method.) -/
def Extracts.ofInt (t : IntTy) (v : Int) : Extracts :=
  let d := Extracts.default (.call (.int t v) .ret)
  { d with toInt := fun u =>
      if u = t then some v
      else if t = .i128 ∧ Ext.signed u then Ext.tryInto u v
      else if t = .u128 ∧ ¬ Ext.signed u then Ext.tryInto u v
      else d.toInt u }

/-- `impl Value for Option<T>`: `src/data/option.rs:41-114`; `tag` is not overridden. -/
def Extracts.option (v : Option (Prog × Extracts)) : Extracts where
  tag := Ext.tag (optionProg (v.map (·.1)))
  toBool := v.bind (·.2.toBool)
  toF32 := v.bind (·.2.toF32)
  toF64 := v.bind (·.2.toF64)
  toInt := fun t => v.bind (·.2.toInt t)
  toText := v.bind (·.2.toText)
  toBinary := v.bind (·.2.toBinary)

end Sval
