import Verif.Core.Decimal

set_option autoImplicit false

/-!
# JSON, independently of sval

A specification, not a model: the grammar of RFC 8259 with the data a document stands for, and a
parser for it. `Val` is the grammar; the parser is proved sound and complete for it, so that a text
stands for at most one document.

Numbers stand for rational numbers; strings for texts (a lone surrogate stands for nothing); objects
for lists of entries in order, repeated keys included.
-/

namespace Sval.Json

inductive J where
  | null
  | bool (b : Bool)
  | num (q : Rat)
  | str (s : Text)
  | arr (xs : List J)
  | obj (kvs : List (Text × J))

/-! ## Numbers -/

/-- The parts of a decimal number, `sign int (. frac)? (e sign digits)?`. -/
structure Num where
  sign : Text
  int : Text
  frac : Option Text
  exp : Option (Char × Text × Text)
deriving DecidableEq

namespace Num

def fracText : Option Text → Text
  | none => []
  | some f => '.' :: f

def expText : Option (Char × Text × Text) → Text
  | none => []
  | some (c, s, d) => c :: (s ++ d)

def text (n : Num) : Text := n.sign ++ (n.int ++ (fracText n.frac ++ expText n.exp))

/-- Digits. -/
def IsDigits (s : Text) : Prop := s ≠ [] ∧ s.all isDigit = true

def FracOk (f : Option Text) : Prop := ∀ d, f = some d → IsDigits d
def ExpOk (e : Option (Char × Text × Text)) : Prop :=
  ∀ c s d, e = some (c, s, d) → (c = 'e' ∨ c = 'E') ∧ (s = [] ∨ s = ['+'] ∨ s = ['-']) ∧ IsDigits d

/-- RFC 8259: no plus sign, no leading zeroes. -/
def IsJson (n : Num) : Prop :=
  (n.sign = [] ∨ n.sign = ['-']) ∧ IsDigits n.int ∧ (n.int.head? = some '0' → n.int = ['0']) ∧
    FracOk n.frac ∧ ExpOk n.exp

/-- The grammar documented for `sval::tags::NUMBER`, `src/data/tags.rs:41-45`. -/
def IsNumber (n : Num) : Prop :=
  (n.sign = [] ∨ n.sign = ['+'] ∨ n.sign = ['-']) ∧ IsDigits n.int ∧ FracOk n.frac ∧ ExpOk n.exp

def expVal : Option (Char × Text × Text) → Int
  | none => 0
  | some (_, s, d) => if s = ['-'] then -(digitsVal d : Int) else digitsVal d

/-- The number spelled. -/
def val (n : Num) : Rat :=
  (if n.sign = ['-'] then -1 else 1) * (digitsVal (n.int ++ n.frac.getD []) : Rat) *
    (10 : Rat) ^ (expVal n.exp - (n.frac.getD []).length)

end Num

def NumLit (t : Text) (q : Rat) : Prop := ∃ n : Num, n.IsJson ∧ n.text = t ∧ n.val = q

/-! ## Strings -/

def hexVal (c : Char) : Option Nat :=
  if 48 ≤ c.toNat ∧ c.toNat ≤ 57 then some (c.toNat - 48)
  else if 97 ≤ c.toNat ∧ c.toNat ≤ 102 then some (c.toNat - 87)
  else if 65 ≤ c.toNat ∧ c.toNat ≤ 70 then some (c.toNat - 55)
  else none

def hex4 (a b c d : Char) : Option Nat := do
  let a ← hexVal a
  let b ← hexVal b
  let c ← hexVal c
  let d ← hexVal d
  some (((a * 16 + b) * 16 + c) * 16 + d)

def escOf : Char → Option Char
  | '"' => some '"'
  | '\\' => some '\\'
  | '/' => some '/'
  | 'b' => some (Char.ofNat 8)
  | 'f' => some (Char.ofNat 12)
  | 'n' => some (Char.ofNat 10)
  | 'r' => some (Char.ofNat 13)
  | 't' => some (Char.ofNat 9)
  | _ => none

/-- A character that may stand in a string as it is. -/
def rawOk (c : Char) : Bool := decide (32 ≤ c.toNat) && c != '"' && c != '\\'

/-- `StrLit t s`: between quotes, `t` spells `s`. -/
inductive StrLit : Text → Text → Prop
  | nil : StrLit [] []
  | raw (c : Char) {t s : Text} : rawOk c = true → StrLit t s → StrLit (c :: t) (c :: s)
  | esc (e c : Char) {t s : Text} : escOf e = some c → StrLit t s → StrLit ('\\' :: e :: t) (c :: s)
  | uni (a b c d : Char) (n : Nat) {t s : Text} : hex4 a b c d = some n → (n < 0xD800 ∨ 0xDFFF < n) →
      StrLit t s → StrLit ('\\' :: 'u' :: a :: b :: c :: d :: t) (Char.ofNat n :: s)
  | pair (a b c d a' b' c' d' : Char) (n n' : Nat) {t s : Text} :
      hex4 a b c d = some n → (0xD800 ≤ n ∧ n ≤ 0xDBFF) →
      hex4 a' b' c' d' = some n' → (0xDC00 ≤ n' ∧ n' ≤ 0xDFFF) → StrLit t s →
      StrLit ('\\' :: 'u' :: a :: b :: c :: d :: '\\' :: 'u' :: a' :: b' :: c' :: d' :: t)
        (Char.ofNat (0x10000 + (n - 0xD800) * 0x400 + (n' - 0xDC00)) :: s)

/-! ## Documents -/

def isWs (c : Char) : Bool := c == ' ' || c == '\t' || c == '\n' || c == '\r'
def Ws (t : Text) : Prop := t.all isWs = true

mutual
/-- `Val j t`: the text `t` is a JSON value that stands for `j`. -/
def Val : J → Text → Prop
  | .null, t => t = t! "null"
  | .bool b, t => t = if b then t! "true" else t! "false"
  | .num q, t => NumLit t q
  | .str s, t => ∃ u, StrLit u s ∧ t = '"' :: (u ++ ['"'])
  | .arr xs, t => ∃ u, Elems xs u ∧ t = '[' :: (u ++ [']'])
  | .obj kvs, t => ∃ u, Members kvs u ∧ t = '{' :: (u ++ ['}'])
def Elems : List J → Text → Prop
  | [], t => Ws t
  | [x], t => ∃ w u w', Ws w ∧ Val x u ∧ Ws w' ∧ t = w ++ (u ++ w')
  | x :: y :: xs, t => ∃ w u w' r, Ws w ∧ Val x u ∧ Ws w' ∧ Elems (y :: xs) r ∧ t = w ++ (u ++ (w' ++ ',' :: r))
def Members : List (Text × J) → Text → Prop
  | [], t => Ws t
  | [(k, x)], t => ∃ w k' w1 w2 u w', Ws w ∧ StrLit k' k ∧ Ws w1 ∧ Ws w2 ∧ Val x u ∧ Ws w' ∧
      t = w ++ ('"' :: (k' ++ '"' :: (w1 ++ ':' :: (w2 ++ (u ++ w')))))
  | (k, x) :: y :: xs, t => ∃ w k' w1 w2 u w' r, Ws w ∧ StrLit k' k ∧ Ws w1 ∧ Ws w2 ∧ Val x u ∧ Ws w' ∧
      Members (y :: xs) r ∧ t = w ++ ('"' :: (k' ++ '"' :: (w1 ++ ':' :: (w2 ++ (u ++ (w' ++ ',' :: r))))))
end

/-- A document: a value with whitespace around it. -/
def Doc (j : J) (t : Text) : Prop := ∃ w u w', Ws w ∧ Val j u ∧ Ws w' ∧ t = w ++ (u ++ w')

/-! ## A parser -/

def ws (t : Text) : Text := t.dropWhile isWs

def pSign : Text → Text × Text
  | '-' :: r => (['-'], r)
  | r => ([], r)

def pInt (t : Text) : Option (Text × Text) :=
  let d := t.takeWhile isDigit
  if d = [] ∨ (d.head? = some '0' ∧ d ≠ ['0']) then none else some (d, t.dropWhile isDigit)

def pFrac : Text → Option (Option Text × Text)
  | '.' :: r =>
    let d := r.takeWhile isDigit
    if d = [] then none else some (some d, r.dropWhile isDigit)
  | r => some (none, r)

def pExpSign : Text → Text × Text
  | '+' :: r => (['+'], r)
  | '-' :: r => (['-'], r)
  | r => ([], r)

def pExp : Text → Option (Option (Char × Text × Text) × Text)
  | [] => some (none, [])
  | c :: r =>
    if c = 'e' ∨ c = 'E' then
      let s := pExpSign r
      let d := s.2.takeWhile isDigit
      if d = [] then none else some (some (c, s.1, d), s.2.dropWhile isDigit)
    else some (none, c :: r)

def pNum (t : Text) : Option (Num × Text) := do
  let s := pSign t
  let (i, t) ← pInt s.2
  let (f, t) ← pFrac t
  let (e, t) ← pExp t
  some ({ sign := s.1, int := i, frac := f, exp := e }, t)

/-- A string after its opening quote. -/
def pStr : Nat → Text → Option (Text × Text)
  | 0, _ => none
  | _, [] => none
  | n + 1, c :: r =>
    if c = '"' then some ([], r)
    else if c = '\\' then
      match r with
      | 'u' :: a :: b :: c :: d :: r =>
        match hex4 a b c d with
        | none => none
        | some k =>
          if k < 0xD800 ∨ 0xDFFF < k then (pStr n r).map fun x => (Char.ofNat k :: x.1, x.2)
          else if k ≤ 0xDBFF then
            match r with
            | '\\' :: 'u' :: a :: b :: c :: d :: r =>
              match hex4 a b c d with
              | none => none
              | some k' =>
                if 0xDC00 ≤ k' ∧ k' ≤ 0xDFFF then
                  (pStr n r).map fun x => (Char.ofNat (0x10000 + (k - 0xD800) * 0x400 + (k' - 0xDC00)) :: x.1, x.2)
                else none
            | _ => none
          else none
      | e :: r =>
        match escOf e with
        | none => none
        | some c => (pStr n r).map fun x => (c :: x.1, x.2)
      | [] => none
    else if rawOk c then (pStr n r).map fun x => (c :: x.1, x.2)
    else none

mutual
def pVal : Nat → Text → Option (J × Text)
  | 0, _ => none
  | n + 1, t =>
    match t with
    | '"' :: r => (pStr (r.length + 1) r).map fun x => (.str x.1, x.2)
    | '[' :: r =>
      match ws r with
      | ']' :: r => some (.arr [], r)
      | r => (pElems n r).map fun x => (.arr x.1, x.2)
    | '{' :: r =>
      match ws r with
      | '}' :: r => some (.obj [], r)
      | r => (pMembers n r).map fun x => (.obj x.1, x.2)
    | 'n' :: 'u' :: 'l' :: 'l' :: r => some (.null, r)
    | 't' :: 'r' :: 'u' :: 'e' :: r => some (.bool true, r)
    | 'f' :: 'a' :: 'l' :: 's' :: 'e' :: r => some (.bool false, r)
    | t => (pNum t).map fun x => (.num x.1.val, x.2)
/-- Elements from the first one on, up to and with the closing bracket. -/
def pElems : Nat → Text → Option (List J × Text)
  | 0, _ => none
  | n + 1, t =>
    match pVal n t with
    | none => none
    | some (j, r) =>
      match ws r with
      | ',' :: r => (pElems n (ws r)).map fun x => (j :: x.1, x.2)
      | ']' :: r => some ([j], r)
      | _ => none
def pMembers : Nat → Text → Option (List (Text × J) × Text)
  | 0, _ => none
  | n + 1, t =>
    match t with
    | '"' :: r =>
      match pStr (r.length + 1) r with
      | none => none
      | some (k, r) =>
        match ws r with
        | ':' :: r =>
          match pVal n (ws r) with
          | none => none
          | some (j, r) =>
            match ws r with
            | ',' :: r => (pMembers n (ws r)).map fun x => ((k, j) :: x.1, x.2)
            | '}' :: r => some ([(k, j)], r)
            | _ => none
        | _ => none
    | _ => none
end

/-- Parse a document. -/
def parse (t : Text) : Option J :=
  match pVal (2 * t.length + 2) (ws t) with
  | some (j, r) => if ws r = [] then some j else none
  | none => none

end Sval.Json
