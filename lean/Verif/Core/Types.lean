set_option autoImplicit false

/-!
# Basic vocabulary: tags, labels, indexes, and the calls of the `Stream` trait

Text is modelled as `List Char` (a Rust `&str` is a sequence of Unicode scalar values), binary as
`List UInt8`.
-/

namespace Sval

/-- `str` as its characters, and `[u8]`. -/
abbrev Text := List Char
abbrev Bytes := List UInt8

/-- `t! "abc"` is the explicit character list `['a', 'b', 'c']`, so that it reduces in the kernel. -/
macro "t! " s:str : term => do
  let cs := s.getString.toList.map fun c => Lean.Syntax.mkCharLit c
  `(([$(cs.toArray),*] : List Char))

/-- Length in bytes of the UTF-8 encoding: `str::len`. -/
def utf8Len (s : Text) : Nat := (s.map Char.utf8Size).sum

/-- `src/data.rs:208-212` `Tag`. The `id` is a function of `data`, so a tag is its string here;
`Verif/Core/Data.lean` models the hash id, `C12_tag_identity` proves that this is faithful for equality. -/
structure Tag where
  name : Text
deriving DecidableEq, Repr

namespace tags
/-- `src/data/tags.rs:14` -/
def RUST_OPTION_SOME : Tag := ⟨t! "RUST_OPTION_SOME"⟩
/-- `src/data/tags.rs:23` -/
def RUST_OPTION_NONE : Tag := ⟨t! "RUST_OPTION_NONE"⟩
/-- `src/data/tags.rs:32` -/
def RUST_UNIT : Tag := ⟨t! "RUST_UNIT"⟩
/-- `src/data/tags.rs:59` -/
def NUMBER : Tag := ⟨t! "NUMBER"⟩
/-- `src/data/tags.rs:75` -/
def CONSTANT_SIZE : Tag := ⟨t! "CONSTANT_SIZE"⟩
/-- `src/data/tags.rs:86` -/
def VALUE_IDENT : Tag := ⟨t! "VALUE_IDENT"⟩
/-- `src/data/tags.rs:97` -/
def VALUE_OFFSET : Tag := ⟨t! "VALUE_OFFSET"⟩
/-- `json/src/tags.rs` -/
def JSON_TEXT : Tag := ⟨t! "JSON_TEXT"⟩
/-- `json/src/tags.rs` -/
def JSON_VALUE : Tag := ⟨t! "JSON_VALUE"⟩
/-- `json/src/tags.rs` -/
def JSON_NUMBER : Tag := ⟨t! "JSON_NUMBER"⟩
end tags

/-- Which field of a `Label` backs its text: `src/data.rs:29-42`
(`backing_field_static`, `backing_field_owned`, or neither). -/
inductive Backing where
  | static | computed | owned
deriving DecidableEq, Repr

/-- `src/data.rs:29-42` `Label`; the raw pointer `value_computed` is modelled by the text it
points to. -/
structure Label where
  text : Text
  backing : Backing := .static
  tag : Option Tag := none
deriving DecidableEq, Repr

/-- `src/data.rs:314` `Index(i128, Option<Tag>)`. -/
structure Index where
  val : Int
  tag : Option Tag := none
deriving DecidableEq, Repr

/-- The ten integer widths of the `Stream` trait. -/
inductive IntTy where
  | u8 | u16 | u32 | u64 | u128 | i8 | i16 | i32 | i64 | i128
deriving DecidableEq, Repr

/-- Smallest value of a width (`MIN`). -/
def IntTy.min : IntTy → Int
  | .u8 | .u16 | .u32 | .u64 | .u128 => 0
  | .i8 => -2 ^ 7
  | .i16 => -2 ^ 15
  | .i32 => -2 ^ 31
  | .i64 => -2 ^ 63
  | .i128 => -2 ^ 127

/-- Largest value of a width (`MAX`). -/
def IntTy.max : IntTy → Int
  | .u8 => 2 ^ 8 - 1
  | .u16 => 2 ^ 16 - 1
  | .u32 => 2 ^ 32 - 1
  | .u64 => 2 ^ 64 - 1
  | .u128 => 2 ^ 128 - 1
  | .i8 => 2 ^ 7 - 1
  | .i16 => 2 ^ 15 - 1
  | .i32 => 2 ^ 31 - 1
  | .i64 => 2 ^ 63 - 1
  | .i128 => 2 ^ 127 - 1

/-- A mathematical integer is representable in a width. -/
def IntTy.fits (t : IntTy) (v : Int) : Bool := decide (t.min ≤ v) && decide (v ≤ t.max)

theorem IntTy.fits_iff (t : IntTy) (v : Int) : t.fits v = true ↔ t.min ≤ v ∧ v ≤ t.max := by
  unfold IntTy.fits
  rw [Bool.and_eq_true, decide_eq_true_iff, decide_eq_true_iff]

/-- The optional `(tag, label, index)` triple most structural calls carry. -/
structure Meta where
  tag : Option Tag := none
  label : Option Label := none
  index : Option Index := none
deriving DecidableEq, Repr

/-- One constructor per method of `Stream` that carries data: `src/stream.rs:6-454`, the same
vocabulary as `test/src/lib.rs` `Token`. `value`/`value_computed` are in `Core/Prog.lean`. -/
inductive Token where
  | null
  | bool (v : Bool)
  | int (t : IntTy) (v : Int)
  | f32 (bits : UInt32)
  | f64 (bits : UInt64)
  | textBegin (n : Option Nat)
  | textFragment (s : Text)
  | textFragmentComputed (s : Text)
  | textEnd
  | binaryBegin (n : Option Nat)
  | binaryFragment (s : Bytes)
  | binaryFragmentComputed (s : Bytes)
  | binaryEnd
  | mapBegin (n : Option Nat)
  | mapKeyBegin
  | mapKeyEnd
  | mapValueBegin
  | mapValueEnd
  | mapEnd
  | seqBegin (n : Option Nat)
  | seqValueBegin
  | seqValueEnd
  | seqEnd
  | enumBegin (m : Meta)
  | enumEnd (m : Meta)
  | taggedBegin (m : Meta)
  | taggedEnd (m : Meta)
  | tag (m : Meta)
  | tagHint (t : Tag)
  | recordBegin (m : Meta) (n : Option Nat)
  | recordValueBegin (t : Option Tag) (l : Label)
  | recordValueEnd (t : Option Tag) (l : Label)
  | recordEnd (m : Meta)
  | tupleBegin (m : Meta) (n : Option Nat)
  | tupleValueBegin (t : Option Tag) (i : Index)
  | tupleValueEnd (t : Option Tag) (i : Index)
  | tupleEnd (m : Meta)
  | recordTupleBegin (m : Meta) (n : Option Nat)
  | recordTupleValueBegin (t : Option Tag) (l : Label) (i : Index)
  | recordTupleValueEnd (t : Option Tag) (l : Label) (i : Index)
  | recordTupleEnd (m : Meta)
deriving DecidableEq, Repr

/-- Result of driving a stream: success, an error (the state at that moment is kept so that
partial effects stay visible), or a Rust panic. -/
inductive Res (ε σ : Type) where
  | ok (s : σ)
  | err (e : ε) (s : σ)
  | panic
deriving DecidableEq, Repr

namespace Res
variable {ε σ τ : Type}

/-- Rust's `?` on a `&mut` state. -/
def bind (r : Res ε σ) (f : σ → Res ε σ) : Res ε σ :=
  match r with
  | ok s => f s
  | err e s => err e s
  | panic => panic

@[simp] theorem bind_ok (s : σ) (f : σ → Res ε σ) : (ok s : Res ε σ).bind f = f s := rfl
@[simp] theorem bind_err (e : ε) (s : σ) (f : σ → Res ε σ) : (err e s).bind f = err e s := rfl
@[simp] theorem bind_panic (f : σ → Res ε σ) : (panic : Res ε σ).bind f = panic := rfl

theorem bind_assoc (r : Res ε σ) (f g : σ → Res ε σ) :
    (r.bind f).bind g = r.bind (fun s => (f s).bind g) := by
  cases r <;> rfl

@[simp] theorem bind_pure (r : Res ε σ) : r.bind ok = r := by cases r <;> rfl

/-- Did the operation succeed? -/
def isOk : Res ε σ → Bool
  | ok _ => true
  | _ => false

end Res

/-- A stream is a state machine over calls. Driving it with a list of calls stops at the first
failure, as code written with `?` does. -/
def run {ε σ : Type} (step : Token → σ → Res ε σ) : List Token → σ → Res ε σ
  | [], s => .ok s
  | t :: ts, s => (step t s).bind (run step ts)

section
variable {ε σ : Type} (step : Token → σ → Res ε σ)

@[simp] theorem run_nil (s : σ) : run step [] s = .ok s := rfl
@[simp] theorem run_cons (t : Token) (ts : List Token) (s : σ) :
    run step (t :: ts) s = (step t s).bind (run step ts) := rfl

theorem run_append (xs ys : List Token) (s : σ) :
    run step (xs ++ ys) s = (run step xs s).bind (run step ys) := by
  induction xs generalizing s with
  | nil => rfl
  | cons x xs ih =>
    simp only [List.cons_append, run_cons, Res.bind_assoc]
    congr 1
    funext s'
    exact ih s'
end

end Sval
