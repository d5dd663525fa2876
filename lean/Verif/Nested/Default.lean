import Verif.Nested.Model

set_option autoImplicit false

/-!
# The provided methods of recursive streams

`nested/src/lib.rs:925-1301`, `default_stream`: what the methods of `Stream`, `StreamSeq`, `StreamMap`, `StreamTuple`,
`StreamRecord` and `StreamEnum` do that an implementation does not have to have. A call that no implementation ends is a
panic here: `full` makes calls to a given depth.

The methods for references, `value_ref` and so on, hand over a `Ref` to the others, and are not apart from them here.
-/

namespace Sval.Nested

/-- Which of the provided methods does an implementation have? `value` and `value_computed` of `Stream` are always the
provided ones. -/
structure Impl where
  int : IntTy → Bool := fun _ => false
  f32 : Bool := false
  /-- `binary_computed` -/
  binary : Bool := false
  tag : Bool := false
  /-- `tagged_computed` -/
  tagged : Bool := false
  /-- the methods for borrowed data, for all methods with `_computed` the implementation has -/
  borrowed : Bool := false

/-- Is it a method that the implementation has? -/
def Impl.has (I : Impl) : Cb → Bool
  | .scalar (.int .i64 _) => true
  | .scalar (.int t _) => I.int t
  | .scalar (.f32 _) => I.f32
  | .text b _ => !b || I.borrowed
  | .binary b _ => I.binary && (!b || I.borrowed)
  | .tag _ => I.tag
  | .tagged _ a => I.tagged && (!a.borrowed || I.borrowed)
  | .value _ => false
  | .seqValue a | .mapKey a | .mapValue a | .tupleValue _ _ a | .recordValue _ _ a | .variantTagged _ a =>
    !a.borrowed || I.borrowed
  | _ => true

/-- A value that is handed over as computed. -/
def Arg.computed (a : Arg) : Arg := { a with borrowed := false }

/-- `sval::stream_number` of an integer: `src/data/number.rs:59-66`. Its digits are a `Display`, which makes the calls of
`src/data/text.rs:45-51`. -/
def numberItems (v : Int) : List Item :=
  [.tok (.taggedBegin { tag := some tags.NUMBER }),
   .comp (.tok (.textBegin none) :: ((intDecFrags v).map (fun s => .tok (.textFragmentComputed s)) ++ [.tok .textEnd])),
   .tok (.taggedEnd { tag := some tags.NUMBER })]

/-- `impl Value for str`, `src/data/text.rs:103-108`: the text, borrowed. -/
def strProg (s : Text) : List Item := [.tok (.textBegin (some (utf8Len s))), .tok (.textFragment s), .tok .textEnd]

/-- `Tag` in `default_stream::tag`: `nested/src/lib.rs:1099-1119` -/
def tagItems (m : Meta) : List Item :=
  if m.tag = some tags.RUST_OPTION_NONE then [.tok .null]
  else
    match m.label with
    | some l =>
      match l.asStaticStr with
      | some s => [.val (strProg s)]
      | none => [.comp (strProg l.text)]
    | none => [.tok .null]

section
variable {σ : Type}

/-- The result of an outcome: the stream is consumed. -/
def result : Outcome σ → Res Unit σ
  | .done true s => .ok s
  | .done false s => .err () s
  | .panicked => .panic

/-- Call one method after the other: `?`. -/
def each (C : Cb → σ → Res Unit σ) : List Cb → σ → Res Unit σ
  | [], s => .ok s
  | c :: X, s => (C c s).bind (each C X)

/-- A byte, `impl Value for u8`, as an element. -/
def byteArg (b : UInt8) : Arg := ⟨false, .ofToks [.int .u8 b.toNat]⟩

/-- `default_stream`: the method `c`, for an implementation whose methods are `C`. -/
def provided (C : Cb → σ → Res Unit σ) (c : Cb) : σ → Res Unit σ :=
  match c with
  -- 969-985
  | .scalar (.int .i8 v) => C (.scalar (.int .i16 v))
  | .scalar (.int .i16 v) => C (.scalar (.int .i32 v))
  | .scalar (.int .i32 v) => C (.scalar (.int .i64 v))
  -- 990-998
  | .scalar (.int .i128 v) =>
    if IntTy.i64.fits v then C (.scalar (.int .i64 v)) else fun s => result (stream C false (prog (numberItems v)) s)
  -- 1003-1026
  | .scalar (.int .u8 v) => C (.scalar (.int .u16 v))
  | .scalar (.int .u16 v) => C (.scalar (.int .u32 v))
  | .scalar (.int .u32 v) => C (.scalar (.int .u64 v))
  | .scalar (.int .u64 v) => C (.scalar (.int .u128 v))
  -- 1031-1039
  | .scalar (.int .u128 v) =>
    if IntTy.i64.fits v then C (.scalar (.int .i64 v)) else fun s => result (stream C false (prog (numberItems v)) s)
  -- 1044-1046
  | .scalar (.f32 b) => C (.scalar (.f64 (widen b)))
  -- 1051-1053
  | .text true s => C (.text false s)
  -- 1058-1060
  | .binary true s => C (.binary false s)
  -- 1065-1073
  | .binary false s => each C (.seqBegin (some s.length) :: (s.map fun b => .seqValue (byteArg b)) ++ [.seqEnd])
  -- 1078-1128
  | .tag m => C (.tagged m ⟨true, prog (tagItems m)⟩)
  -- 1133-1141, 1159-1169
  | .tagged m a => if a.borrowed then C (.tagged m a.computed) else C (.value a)
  -- 935-942, 957-964
  | .value a => fun s => result (stream C (!a.borrowed) a.prog s)
  -- 1174-1179
  | .seqValue a => C (.seqValue a.computed)
  -- 1194-1199
  | .mapKey a => C (.mapKey a.computed)
  -- 1214-1219
  | .mapValue a => C (.mapValue a.computed)
  -- 1234-1241
  | .tupleValue t i a => C (.tupleValue t i a.computed)
  -- 1258-1265
  | .recordValue t l a => C (.recordValue t l a.computed)
  -- 1282-1290
  | .variantTagged m a => C (.variantTagged m a.computed)
  -- required methods
  | _ => fun _ => .panic

/-- A recursive stream with the methods `C` of an implementation, and the provided ones for those it does not have. -/
def full (I : Impl) (C : Cb → σ → Res Unit σ) : Nat → Cb → σ → Res Unit σ
  | 0, c => if I.has c then C c else fun _ => .panic
  | n + 1, c => if I.has c then C c else provided (full I C n) c

end

end Sval.Nested
