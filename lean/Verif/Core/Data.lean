import Verif.Core.Types

set_option autoImplicit false

/-!
# `Index`, `Tag` and `Label`: `src/data.rs`
-/

namespace Sval

/-! ## Index -/

/-- The integer types an `Index` converts from and to. -/
inductive IxTy where
  | usize | u32 | u64 | isize | i32 | i64
deriving DecidableEq, Repr

/-- Width in bits; `pw` is the pointer width of the target (16, 32 or 64). -/
def IxTy.bits (pw : Nat) : IxTy → Nat
  | .usize | .isize => pw
  | .u32 | .i32 => 32
  | .u64 | .i64 => 64

/-- Is the type signed? -/
def IxTy.signed : IxTy → Bool
  | .isize | .i32 | .i64 => true
  | _ => false

/-- `MIN` and `MAX`. -/
def IxTy.min (pw : Nat) (t : IxTy) : Int := if t.signed then -(2 ^ (t.bits pw - 1) : Nat) else 0
def IxTy.max (pw : Nat) (t : IxTy) : Int :=
  if t.signed then (2 ^ (t.bits pw - 1) : Nat) - 1 else (2 ^ t.bits pw : Nat) - 1

/-- Rust's `v as T` between integer types: two's complement truncation to `bits` bits. -/
def asInt (signed : Bool) (bits : Nat) (v : Int) : Int :=
  let m := v % (2 ^ bits : Nat)
  if signed ∧ m ≥ (2 ^ (bits - 1) : Nat) then m - (2 ^ bits : Nat) else m

/-- `as i128`. -/
def castI128 (v : Int) : Int := asInt true 128 v

namespace Index

/-- `src/data.rs:358-405`: `new`, `new_u32`, `new_u64`, `new_i32`, `new_i64`, `new_isize`, and the
`From` impls at 316-356; all are `Index(index as i128, None)`. The argument is a value of the type. -/
def ofInt (v : Int) : Index := { val := castI128 v }

/-- `src/data.rs:411-477`: `to_usize`, `to_u32`, `to_u64`, `to_isize`, `to_i32`, `to_i64`. -/
def toTy (pw : Nat) (t : IxTy) (i : Index) : Option Int :=
  if i.val ≥ castI128 (t.min pw) ∧ i.val ≤ castI128 (t.max pw) then
    some (asInt t.signed (t.bits pw) i.val)
  else none

/-- `src/data.rs:486-489` `with_tag`. -/
def withTag (i : Index) (t : Tag) : Index := { i with tag := some t }

/-- `src/data.rs:514-519` `eq`. -/
def beq (a b : Index) : Bool := a.val == b.val

/-- `src/data.rs:523-528` `partial_cmp`, `src/data.rs:536-541` `cmp`. -/
def cmp (a b : Index) : Ordering := compare a.val b.val

/-- `src/data.rs:530-534` `hash`: what is fed to the hasher. -/
def hashInput (a : Index) : Int := a.val

end Index

/-! ## Tag -/

/-- `src/data.rs:208-212` `Tag`, with its id. -/
structure RawTag where
  id : UInt64
  data : Text
deriving DecidableEq, Repr

/-- UTF-8 bytes of a text: `str::as_bytes`. -/
def utf8 (s : Text) : Bytes := s.flatMap String.utf8EncodeChar

namespace RawTag

/-- `src/data.rs:234` -/
def K : UInt64 := 0x517cc1b727220a95

/-- `hash = (hash.rotate_left(5) ^ i).wrapping_mul(K)`. -/
def mix (h i : UInt64) : UInt64 := (((h <<< 5) ||| (h >>> 59)) ^^^ i) * K

/-- `uN::from_ne_bytes` on a little-endian target (`le = true`) or a big-endian one. -/
def fromNe (le : Bool) (bs : List UInt8) : UInt64 :=
  (if le then bs.reverse else bs).foldl (fun acc b => (acc <<< 8) ||| b.toUInt64) 0

/-- `[bytes[b + 0], .., bytes[b + n - 1]]`; `none` is an out-of-bounds panic. -/
def slice (bytes : Bytes) (b : Nat) : Nat → Option (List UInt8)
  | 0 => some []
  | n + 1 => do
    let x ← bytes[b]?
    let xs ← slice bytes (b + 1) n
    some (x :: xs)

/-- The `while b + 8 <= bytes.len()` loop: `src/data.rs:239-256`. `fuel` bounds the iterations. -/
def loop8 (le : Bool) (bytes : Bytes) : Nat → UInt64 → Nat → Option (UInt64 × Nat)
  | 0, h, b => some (h, b)
  | fuel + 1, h, b =>
    if b + 8 ≤ bytes.length then do
      let i ← slice bytes b 8
      loop8 le bytes fuel (mix h (fromNe le i)) (b + 8)
    else some (h, b)

/-- One `if b + n <= bytes.len()` block: `src/data.rs:258-282`. -/
def block (le : Bool) (bytes : Bytes) (n : Nat) (hb : UInt64 × Nat) : Option (UInt64 × Nat) :=
  if hb.2 + n ≤ bytes.length then do
    let i ← slice bytes hb.2 n
    some (mix hb.1 (fromNe le i), hb.2 + n)
  else some hb

/-- `src/data.rs:223-285` `compute_id`; the fuel is one more than the length, so never runs out. -/
def computeId (le : Bool) (bytes : Bytes) : Option UInt64 := do
  let hb ← loop8 le bytes (bytes.length + 1) 0 0
  let hb ← block le bytes 4 hb
  let hb ← block le bytes 2 hb
  let hb ← block le bytes 1 hb
  some hb.1

/-- `src/data.rs:218-291` `Tag::new`; `none` is a panic. -/
def new (le : Bool) (data : Text) : Option RawTag := do
  let id ← computeId le (utf8 data)
  some { id, data }

/-- `src/data.rs:296-301` `cloned`, and the derived `Clone`. -/
def cloned (t : RawTag) : RawTag := { id := t.id, data := t.data }

/-- The derived `PartialEq`: `src/data.rs:208`. -/
def beq (a b : RawTag) : Bool := a.id == b.id && a.data == b.data

end RawTag

/-! ## Label -/

namespace Label

/-- `src/data.rs:81-90` -/
def new (s : Text) : Label := { text := s, backing := .static }
/-- `src/data.rs:96-105` -/
def newComputed (s : Text) : Label := { text := s, backing := .computed }
/-- `src/data.rs:605-615` -/
def newOwned (s : Text) : Label := { text := s, backing := .owned }
/-- `src/data.rs:135-138` -/
def withTag (l : Label) (t : Tag) : Label := { l with tag := some t }
/-- `src/data.rs:124-126` -/
def asStaticStr (l : Label) : Option Text := if l.backing = .static then some l.text else none
/-- `src/data.rs:569-584` -/
def clone (l : Label) : Label := if l.backing = .owned then newOwned l.text else l
/-- `src/data.rs:592-598`, and `try_to_owned` at 158-169 with `alloc`. -/
def toOwned (l : Label) : Label := if l.backing = .static then new l.text else newOwned l.text
/-- `src/data.rs:158-169` `try_to_owned` without `alloc`; `none` is an error. -/
def tryToOwnedNoAlloc (l : Label) : Option Label := l.asStaticStr.map new
/-- `src/data.rs:174-179` `eq`. -/
def beq (a b : Label) : Bool := a.text == b.text
/-- `src/data.rs:181-185` `hash`: what is fed to the hasher. -/
def hashInput (l : Label) : Text := l.text

end Label

end Sval
