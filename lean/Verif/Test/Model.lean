import Verif.Core.ExtractLemmas
import Verif.Core.Float
import Verif.Core.Data

set_option autoImplicit false

/-!
# `sval_test`: `test/src/lib.rs`

Tokens are `Token`, the calls of a stream. What the messages of failed assertions say is not modelled: computing one is
part of a panic, and may be one itself.
-/

namespace Sval.Test

/-- `label.map(|label| label.to_owned())`, `test/src/lib.rs:645`, and `tag.cloned()`, `index.cloned()`. -/
def ownMeta (m : Meta) : Meta := { m with label := m.label.map Label.toOwned }

/-- The token a call is recorded as: `test/src/lib.rs:476-850`. -/
def token : Token → Token
  | .enumBegin m => .enumBegin (ownMeta m)
  | .enumEnd m => .enumEnd (ownMeta m)
  | .taggedBegin m => .taggedBegin (ownMeta m)
  | .taggedEnd m => .taggedEnd (ownMeta m)
  | .tag m => .tag (ownMeta m)
  | .recordBegin m n => .recordBegin (ownMeta m) n
  | .recordValueBegin t l => .recordValueBegin t l.toOwned
  | .recordValueEnd t l => .recordValueEnd t l.toOwned
  | .recordEnd m => .recordEnd (ownMeta m)
  | .tupleBegin m n => .tupleBegin (ownMeta m) n
  | .tupleEnd m => .tupleEnd (ownMeta m)
  | .recordTupleBegin m n => .recordTupleBegin (ownMeta m) n
  | .recordTupleValueBegin t l i => .recordTupleValueBegin t l.toOwned i
  | .recordTupleValueEnd t l i => .recordTupleValueEnd t l.toOwned i
  | .recordTupleEnd m => .recordTupleEnd (ownMeta m)
  | t => t

/-- `TokenBuf` as a stream: every method pushes a token and succeeds, `test/src/lib.rs:461-463`,
`test/src/lib.rs:476-850`. -/
def push (t : Token) (s : List Token) : List Token × Bool := (s ++ [token t], true)

/-- `==` of `f32`. -/
def eqF32 (a b : UInt32) : Bool :=
  let nan (x : UInt32) : Bool := f32Exp x = 255 && f32Frac x != 0
  let zero (x : UInt32) : Bool := f32Exp x = 0 && f32Frac x = 0
  !nan a && !nan b && (a = b || zero a && zero b)

/-- `==` of `f64`. -/
def eqF64 (a b : UInt64) : Bool :=
  let nan (x : UInt64) : Bool := f64Exp x = 2047 && f64Frac x != 0
  let zero (x : UInt64) : Bool := f64Exp x = 0 && f64Frac x = 0
  !nan a && !nan b && (a = b || zero a && zero b)

/-- `==` of `Option`. -/
def eqOpt {α : Type} (eq : α → α → Bool) : Option α → Option α → Bool
  | some a, some b => eq a b
  | none, none => true
  | _, _ => false

/-- `==` of the tag, label and index of a token. Tags are equal if their names are, see C12. -/
def eqMeta (a b : Meta) : Bool := a.tag = b.tag && eqOpt Label.beq a.label b.label && eqOpt Index.beq a.index b.index

/-- The derived `PartialEq` of `Token`, `test/src/lib.rs:74`. -/
def eqToken : Token → Token → Bool
  | .null, .null => true
  | .bool a, .bool b => a = b
  | .int t a, .int u b => t = u && a = b
  | .f32 a, .f32 b => eqF32 a b
  | .f64 a, .f64 b => eqF64 a b
  | .textBegin a, .textBegin b => a = b
  | .textFragment a, .textFragment b => a = b
  | .textFragmentComputed a, .textFragmentComputed b => a = b
  | .textEnd, .textEnd => true
  | .binaryBegin a, .binaryBegin b => a = b
  | .binaryFragment a, .binaryFragment b => a = b
  | .binaryFragmentComputed a, .binaryFragmentComputed b => a = b
  | .binaryEnd, .binaryEnd => true
  | .mapBegin a, .mapBegin b => a = b
  | .mapKeyBegin, .mapKeyBegin => true
  | .mapKeyEnd, .mapKeyEnd => true
  | .mapValueBegin, .mapValueBegin => true
  | .mapValueEnd, .mapValueEnd => true
  | .mapEnd, .mapEnd => true
  | .seqBegin a, .seqBegin b => a = b
  | .seqValueBegin, .seqValueBegin => true
  | .seqValueEnd, .seqValueEnd => true
  | .seqEnd, .seqEnd => true
  | .enumBegin a, .enumBegin b => eqMeta a b
  | .enumEnd a, .enumEnd b => eqMeta a b
  | .taggedBegin a, .taggedBegin b => eqMeta a b
  | .taggedEnd a, .taggedEnd b => eqMeta a b
  | .tag a, .tag b => eqMeta a b
  | .tagHint a, .tagHint b => a = b
  | .recordBegin a m, .recordBegin b n => eqMeta a b && m = n
  | .recordValueBegin t l, .recordValueBegin u k => t = u && l.beq k
  | .recordValueEnd t l, .recordValueEnd u k => t = u && l.beq k
  | .recordEnd a, .recordEnd b => eqMeta a b
  | .tupleBegin a m, .tupleBegin b n => eqMeta a b && m = n
  | .tupleValueBegin t i, .tupleValueBegin u j => t = u && i.beq j
  | .tupleValueEnd t i, .tupleValueEnd u j => t = u && i.beq j
  | .tupleEnd a, .tupleEnd b => eqMeta a b
  | .recordTupleBegin a m, .recordTupleBegin b n => eqMeta a b && m = n
  | .recordTupleValueBegin t l i, .recordTupleValueBegin u k j => t = u && l.beq k && i.beq j
  | .recordTupleValueEnd t l i, .recordTupleValueEnd u k j => t = u && l.beq k && i.beq j
  | .recordTupleEnd a, .recordTupleEnd b => eqMeta a b
  | _, _ => false

/-- `==` of slices. -/
def eqTokens : List Token → List Token → Bool
  | [], [] => true
  | a :: as, b :: bs => eqToken a b && eqTokens as bs
  | _, _ => false

/-- `assert_tokens`: does it return, rather than panic? `test/src/lib.rs:11-41`, as other crates see it. -/
def assertTokens (p : Prog) (tokens : List Token) : Bool :=
  let r := exec push p .base []
  if r.2 then eqTokens tokens r.1 else false

/-- `assert_valid`: `test/src/lib.rs:47-53`. -/
def assertValid (p : Prog) : Bool :=
  let r := exec push p .base []
  if !r.2 then false else true

/-- `assert_invalid`: `test/src/lib.rs:59-69`. -/
def assertInvalid (p : Prog) : Bool :=
  let r := exec push p .base []
  if r.2 then false else true

/-- `AsValue`: `test/src/lib.rs:330-433`. -/
def asValue (tokens : List Token) : Prog := Prog.ofToks tokens

end Sval.Test
