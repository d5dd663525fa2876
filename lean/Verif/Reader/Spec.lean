import Verif.Reader.Model
import Verif.Json.Grammar

set_option autoImplicit false

/-!
# What the JSON reader should do

The documents are those of the grammar in `Json/Grammar.lean`, which knows nothing about sval.
-/

namespace Sval.Reader

open Json (J NumLit)

/-- A number is text tagged twice. -/
def numV (t : Text) : V :=
  .tagged { tag := some tags.JSON_NUMBER } (.tagged { tag := some tags.NUMBER } (.text (some (utf8Len t)) [.borrowed t]))

/-- A string is text, in any number of borrowed fragments. -/
def StrV (s : Text) (v : V) : Prop := ∃ fs : List Text, fs.flatten = s ∧ v = .text none (fs.map .borrowed)

mutual
/-- `Tree j v`: the value `v` is the document `j`. -/
def Tree : J → V → Prop
  | .null, v => v = .null
  | .bool b, v => v = .bool b
  | .num q, v => ∃ t, NumLit t q ∧ v = numV t
  | .str s, v => StrV s v
  | .arr xs, v => ∃ vs, v = .seq none vs ∧ Trees xs vs
  | .obj kvs, v => ∃ vs, v = .map none vs ∧ TreesM kvs vs
def Trees : List J → List V → Prop
  | [], vs => vs = []
  | x :: xs, vs => ∃ v vs', vs = v :: vs' ∧ Tree x v ∧ Trees xs vs'
def TreesM : List (Text × J) → List (V × V) → Prop
  | [], vs => vs = []
  | (k, x) :: xs, vs => ∃ kv v vs', vs = (kv, v) :: vs' ∧ StrV k kv ∧ Tree x v ∧ TreesM xs vs'
end

mutual
/-- How deep arrays and objects are nested. -/
def nesting : J → Nat
  | .arr xs => nestings xs + 1
  | .obj kvs => nestingsM kvs + 1
  | _ => 0
def nestings : List J → Nat
  | [] => 0
  | x :: xs => max (nesting x) (nestings xs)
def nestingsM : List (Text × J) → Nat
  | [] => 0
  | (_, x) :: xs => max (nesting x) (nestingsM xs)
end

mutual
/-- Is there room for the brackets of a document in the counters of the reader, `u64`? Those of objects, `m`, and of arrays,
`n`, start at zero, and an object or array adds one and the other counter to its own. -/
def room (m n : Nat) : J → Bool
  | .arr xs => decide (m + n + 1 < 2 ^ 64) && rooms m (n + (m + 1)) xs
  | .obj kvs => decide (m + n + 1 < 2 ^ 64) && roomsM (m + (n + 1)) n kvs
  | _ => true
def rooms (m n : Nat) : List J → Bool
  | [] => true
  | x :: xs => room m n x && rooms m n xs
def roomsM (m n : Nat) : List (Text × J) → Bool
  | [] => true
  | (_, x) :: xs => room m n x && roomsM m n xs
end

/-- A value without brackets. -/
def flat : J → Bool
  | .arr _ | .obj _ => false
  | _ => true

mutual
/-- The documents whose brackets the counters of the reader can hold. With overflow checks those there is `room` for.
Without them also those with values in a bracket that does not change its counter, because the other is as high as it gets:
one more than that is zero. -/
def holds (checks : Bool) (m n : Nat) : J → Bool
  | .arr xs =>
    if checks = false ∧ m + 1 = 2 ^ 64 then xs.all flat
    else decide (m + n + 1 < 2 ^ 64) && holdss checks m (n + (m + 1)) xs
  | .obj kvs =>
    if checks = false ∧ n + 1 = 2 ^ 64 then kvs.all fun kv => flat kv.2
    else decide (m + n + 1 < 2 ^ 64) && holdsM checks (m + (n + 1)) n kvs
  | _ => true
def holdss (checks : Bool) (m n : Nat) : List J → Bool
  | [] => true
  | x :: xs => holds checks m n x && holdss checks m n xs
def holdsM (checks : Bool) (m n : Nat) : List (Text × J) → Bool
  | [] => true
  | (_, x) :: xs => holds checks m n x && holdsM checks m n xs
end

/-- The part of JSON the reader knows, as a scan over the text (the argument says whether it is inside of a string): in
strings no escapes but `\n`, `\r`, `\"` and `\\`; outside of strings no `E`. -/
def plain : Bool → Text → Bool
  | _, [] => true
  | false, c :: r => if c = '"' then plain true r else c != 'E' && plain false r
  | true, '"' :: r => plain false r
  | true, '\\' :: e :: r => (e == 'n' || e == 'r' || e == '"' || e == '\\') && plain true r
  | true, _ :: r => plain true r

/-- A document without the whitespace between its parts, as a scan over the text. -/
def squeeze : Bool → Text → Text
  | _, [] => []
  | false, c :: r =>
    if c = '"' then c :: squeeze true r
    else if c = ' ' ∨ c = '\t' ∨ c = '\n' ∨ c = '\r' then squeeze false r
    else c :: squeeze false r
  | true, '"' :: r => '"' :: squeeze false r
  | true, '\\' :: e :: r => '\\' :: e :: squeeze true r
  | true, c :: r => c :: squeeze true r

/-! ## Brackets -/

/-- The brackets among calls. -/
def bracket : Token → Option Op
  | .mapBegin _ => some (.push .map)
  | .mapEnd => some (.pop .map)
  | .seqBegin _ => some (.push .seq)
  | .seqEnd => some (.pop .seq)
  | _ => none

end Sval.Reader
