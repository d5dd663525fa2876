import Verif.Json.Number

set_option autoImplicit false

/-!
# What a value means as JSON

A specification, independent of the formatter: `value v` is the JSON document that stands for `v`,
`none` if the value has none (an enum around something that is not a variant, a key that is not a
scalar, special text that does not keep its promise). `Env` only says how a finite float is spelled.

`safe` marks the values on which the formatter does what `value` says; what it excludes are the bugs
shown in `Props/Json.lean`.
-/

namespace Sval.Json

/-- The name of a variant: its label, or else its index. -/
def idOf (m : Meta) : Option Text :=
  match m.label with
  | some l => some l.text
  | none => m.index.bind fun i => if -2 ^ 63 ≤ i.val ∧ i.val ≤ 2 ^ 63 - 1 then some (intDec i.val) else none

/-- A variant with a name is an object with one entry. -/
def wrap (m : Meta) (j : J) : J :=
  match idOf m with
  | some k => .obj [(k, j)]
  | none => j

/-- A text that spells a JSON number. -/
def numOf (t : Text) : Option J :=
  match pNum t with
  | some (n, []) => some (.num n.val)
  | _ => none

/-- A text in the grammar of `sval::tags::NUMBER`. -/
def pNumber (t : Text) : Option Num :=
  let s := pExpSign t
  let d := s.2.takeWhile isDigit
  if d = [] then none
  else match pFrac (s.2.dropWhile isDigit) with
    | none => none
    | some (f, r) =>
      match pExp r with
      | some (e, []) => some { sign := s.1, int := d, frac := f, exp := e }
      | _ => none

def lowerC (c : Char) : Char := if 65 ≤ c.toNat ∧ c.toNat ≤ 90 then Char.ofNat (c.toNat + 32) else c

/-- The spellings of the floats that are not numbers. They are outside the grammar of NUMBER. -/
def isNan (t : Text) : Bool :=
  decide ((pExpSign t).2.map lowerC ∈ [t! "nan", t! "snan", t! "inf", t! "infinity"])

def numberOf (t : Text) : Option J :=
  match pNumber t with
  | some n => some (.num n.val)
  | none => if isNan t then some .null else none

/-- A text that spells a string between quotes. -/
def strOf (t : Text) : Option Text :=
  match pStr (t.length + 1) (t ++ ['"']) with
  | some (s, []) => some s
  | _ => none

/-- The special tags are for text. -/
def textOf : V → Option Text
  | .text _ fs => some (fragsText fs)
  | .hint _ v => textOf v
  | _ => none

def isSpecialTag (t : Option Tag) : Bool :=
  t = some tags.NUMBER || t = some tags.JSON_VALUE || t = some tags.JSON_NUMBER || t = some tags.JSON_TEXT

/-- The document in specially tagged text. -/
def specialJ (t : Option Tag) (s : Text) : Option J :=
  if t = some tags.NUMBER then numberOf s
  else if t = some tags.JSON_VALUE then parse s
  else if t = some tags.JSON_NUMBER then numOf s
  else (strOf s).map .str

def tagJ (m : Meta) : J :=
  if m.tag = some tags.RUST_OPTION_NONE then .null
  else match m.label with
    | some l => .str l.text
    | none =>
      match m.index with
      | some i => if -2 ^ 63 ≤ i.val ∧ i.val ≤ 2 ^ 63 - 1 then .num i.val else .null
      | none => .null

/-! ## Keys -/

/-- The spelling JSON has for a number in the NUMBER grammar. -/
def numberKey (t : Text) : Option Text :=
  match pNumber t with
  | some n => some n.norm.text
  | none => if isNan t then some (t! "null") else none

def specialKey (t : Option Tag) (s : Text) : Option Text :=
  if t = some tags.NUMBER then numberKey s
  else if t = some tags.JSON_VALUE then (parse s).map fun _ => s
  else if t = some tags.JSON_NUMBER then (numOf s).map fun _ => s
  else strOf s

def tagKey (m : Meta) : Text :=
  if m.tag = some tags.RUST_OPTION_NONE then t! "null" else (idOf m).getD (t! "null")

section
variable (env : Env)

mutual
/-- The text of a scalar key. -/
def keyText : V → Option Text
  | .null => some (t! "null")
  | .bool b => some (if b then t! "true" else t! "false")
  | .int _ v => some (intDec v)
  | .f32 b => if f32Finite b then (numOf (env.f32 b)).map fun _ => env.f32 b else some (t! "null")
  | .f64 b => if f64Finite b then (numOf (env.f64 b)).map fun _ => env.f64 b else some (t! "null")
  | .text _ fs => some (fragsText fs)
  | .tag m => some (tagKey m)
  | .tagged m v => if isSpecialTag m.tag then (textOf v).bind (specialKey m.tag) else keyText v
  | .enum _ v => keyVariant v
  | .hint _ v => keyText v
  | _ => none
/-- A variant without content, or without a name, can be a key. -/
def keyVariant : V → Option Text
  | .tag m => some (tagKey m)
  | .tagged m v =>
    if idOf m = none then
      if isSpecialTag m.tag then (textOf v).bind (specialKey m.tag) else keyText v
    else none
  | .enum m v => if idOf m = none then keyVariant v else none
  | .hint _ v => keyVariant v
  | _ => none
end

/-! ## Values -/

/-- Entries that must need no escaping: `sval::tags::VALUE_IDENT`, `src/data/tags.rs:77-86`. -/
def labelText (l : Label) : Option Text :=
  if l.tag = some tags.VALUE_IDENT ∧ l.text.all rawOk = false then none else some l.text

def consO {α : Type} (x : Option α) (xs : Option (List α)) : Option (List α) :=
  x.bind fun x => xs.map (x :: ·)

def pairO (k : Option Text) (j : Option J) : Option (Text × J) := k.bind fun k => j.map (k, ·)

mutual
def value : V → Option J
  | .null => some .null
  | .bool b => some (.bool b)
  | .int _ v => some (.num v)
  | .f32 b => if f32Finite b then numOf (env.f32 b) else some .null
  | .f64 b => if f64Finite b then numOf (env.f64 b) else some .null
  | .text _ fs => some (.str (fragsText fs))
  | .binary _ fs => some (.arr ((fragsBytes fs).map fun b => .num (b.toNat : Int)))
  | .seq _ xs => (values xs).map .arr
  | .map _ kvs => (entries kvs).map .obj
  | .tag m => some (tagJ m)
  | .tagged m v => if isSpecialTag m.tag then (textOf v).bind (specialJ m.tag) else value v
  | .enum _ v => variant v
  | .record _ _ fs => (fields fs).map .obj
  | .tuple _ _ fs => (items fs).map .arr
  | .recordTuple _ _ fs => (fieldsRT fs).map .obj
  | .hint _ v => value v
/-- What an enum holds. -/
def variant : V → Option J
  | .tag m => some (tagJ m)
  | .tagged m v =>
    (if isSpecialTag m.tag then (textOf v).bind (specialJ m.tag) else value v).map (wrap m)
  | .enum m v => (variant v).map (wrap m)
  | .record m _ fs => (fields fs).map fun x => wrap m (.obj x)
  | .tuple m _ fs => (items fs).map fun x => wrap m (.arr x)
  | .recordTuple m _ fs => (fieldsRT fs).map fun x => wrap m (.obj x)
  | .hint _ v => variant v
  | _ => none
def values : List V → Option (List J)
  | [] => some []
  | x :: xs => consO (value x) (values xs)
def entries : List (V × V) → Option (List (Text × J))
  | [] => some []
  | (k, v) :: r => consO (pairO (keyText env k) (value v)) (entries r)
def fields : List (Option Tag × Label × V) → Option (List (Text × J))
  | [] => some []
  | (_, l, v) :: r => consO (pairO (labelText l) (value v)) (fields r)
def items : List (Option Tag × Index × V) → Option (List J)
  | [] => some []
  | (_, _, v) :: r => consO (value v) (items r)
def fieldsRT : List (Option Tag × Label × Index × V) → Option (List (Text × J))
  | [] => some []
  | (_, l, _, v) :: r => consO (pairO (labelText l) (value v)) (fieldsRT r)
end
end

/-! ## The values the formatter gets right -/

/-- The numbers the formatter gets wrong: `Num.ZeroExp`. -/
def zeroExp (t : Text) : Bool :=
  match pNumber t with
  | some n => n.int.all (· == '0') && n.frac.isNone && n.exp.isSome
  | none => false

def safeText (t : Option Tag) (v : V) : Bool :=
  match textOf v with
  | some s => !(t = some tags.NUMBER && zeroExp s)
  | none => true

/-- Does the value, after hints, start with a name? -/
def named : V → Bool
  | .tagged m _ | .enum m _ | .record m _ _ | .tuple m _ _ | .recordTuple m _ _ => (idOf m).isSome
  | .hint _ v => named v
  | _ => false

/-- Keys: raw JSON in a key is not escaped. -/
def safeKey : V → Bool
  | .tagged m v =>
    if isSpecialTag m.tag then
      safeText m.tag v && (m.tag != some tags.JSON_VALUE || ((textOf v).getD []).all rawOk)
    else safeKey v
  | .enum _ v => safeKey v
  | .hint _ v => safeKey v
  | _ => true

mutual
def safe : V → Bool
  | .seq _ xs => safes xs
  | .map _ kvs => safeEntries kvs
  | .tagged m v => if isSpecialTag m.tag then safeText m.tag v else safe v
  | .enum _ v => safeVariant v
  | .record _ _ fs => safeFields fs
  | .tuple _ _ fs => safeItems fs
  | .recordTuple _ _ fs => safeRT fs
  | .hint _ v => safe v
  | _ => true
/-- In an enum: a number or raw JSON cannot have a name; an enum without a name cannot hold a variant
with one. -/
def safeVariant : V → Bool
  | .tagged m v =>
    if isSpecialTag m.tag then safeText m.tag v && (m.tag = some tags.JSON_TEXT || (idOf m).isNone) else safe v
  | .enum m v => safeVariant v && ((idOf m).isSome || !named v)
  | .record _ _ fs => safeFields fs
  | .tuple _ _ fs => safeItems fs
  | .recordTuple _ _ fs => safeRT fs
  | .hint _ v => safeVariant v
  | _ => true
def safes : List V → Bool
  | [] => true
  | x :: xs => safe x && safes xs
/-- In a map: a key with a name cannot be followed by a value with one. -/
def safeEntries : List (V × V) → Bool
  | [] => true
  | (k, v) :: r => safeKey k && safe v && !(named k && named v) && safeEntries r
def safeFields : List (Option Tag × Label × V) → Bool
  | [] => true
  | (_, _, v) :: r => safe v && safeFields r
def safeItems : List (Option Tag × Index × V) → Bool
  | [] => true
  | (_, _, v) :: r => safe v && safeItems r
def safeRT : List (Option Tag × Label × Index × V) → Bool
  | [] => true
  | (_, _, _, v) :: r => safe v && safeRT r
end

end Sval.Json
