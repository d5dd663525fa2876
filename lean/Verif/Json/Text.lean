import Verif.Json.Spec
import Verif.Json.Escape

set_option autoImplicit false

/-!
# The text of a value

A specification, like `Json/Spec`: not which document stands for a value, but how it is spelled. There is no
whitespace; texts and labels are escaped as little as possible; raw JSON is copied; numbers in text are brought into the
grammar of JSON.
-/

namespace Sval.Json

/-- A character of a string: only what must be is escaped, by a letter if there is one. -/
def escC (c : Char) : Text :=
  if c = '"' then t! "\\\""
  else if c = '\\' then t! "\\\\"
  else if c = '\x08' then t! "\\b"
  else if c = '\t' then t! "\\t"
  else if c = '\n' then t! "\\n"
  else if c = '\x0c' then t! "\\f"
  else if c = '\r' then t! "\\r"
  else if c.toNat < 32 then t! "\\u00" ++ [if c.toNat < 16 then '0' else '1', (t! "0123456789abcdef").getD (c.toNat % 16) '0']
  else [c]

def escT (t : Text) : Text := t.flatMap escC

/-- Pieces with commas in between. -/
def commas : List Text → Text
  | [] => []
  | [t] => t
  | t :: ts => t ++ ',' :: commas ts

def brackets (ts : List Text) : Text := '[' :: (commas ts ++ [']'])

def braces (ts : List Text) : Text := '{' :: (commas ts ++ ['}'])

/-- `"k":` -/
def keyLit (k : Text) : Text := '"' :: (k ++ ['"', ':'])

def quoteT (t : Text) : Text := '"' :: (t ++ ['"'])

/-- The name of a variant between quotes. -/
def nameT (m : Meta) : Text :=
  match m.label with
  | some l => escT l.text
  | none => (idOf m).getD []

def wrapT (m : Meta) (t : Text) : Text := if (idOf m).isSome then braces [keyLit (nameT m) ++ t] else t

/-- Fields that need no escaping are copied. -/
def labelT (l : Label) : Text := if l.tag = some tags.VALUE_IDENT then l.text else escT l.text

def tagT (m : Meta) : Text :=
  if m.tag = some tags.RUST_OPTION_NONE then t! "null"
  else match m.label with
    | some l => quoteT (escT l.text)
    | none => (idOf m).getD (t! "null")

def tagKeyT (m : Meta) : Text :=
  if m.tag = some tags.RUST_OPTION_NONE then t! "null"
  else match m.label with
    | some l => escT l.text
    | none => (idOf m).getD (t! "null")

def specialKeyT (t : Option Tag) (s : Text) : Text := if t = some tags.NUMBER then (numberKey s).getD [] else s

def specialT (t : Option Tag) (s : Text) : Text := if t = some tags.JSON_TEXT then quoteT s else specialKeyT t s

section
variable (env : Env)

/-- A key between quotes. -/
def keyT : V → Text
  | .null => t! "null"
  | .bool b => if b then t! "true" else t! "false"
  | .int _ v => intDec v
  | .f32 b => if f32Finite b then env.f32 b else t! "null"
  | .f64 b => if f64Finite b then env.f64 b else t! "null"
  | .text _ fs => escT (fragsText fs)
  | .tag m => tagKeyT m
  | .tagged m v => if isSpecialTag m.tag then specialKeyT m.tag ((textOf v).getD []) else keyT v
  | .enum _ v => keyT v
  | .hint _ v => keyT v
  | _ => []

mutual
def valueT : V → Text
  | .null => t! "null"
  | .bool b => if b then t! "true" else t! "false"
  | .int _ v => intDec v
  | .f32 b => if f32Finite b then env.f32 b else t! "null"
  | .f64 b => if f64Finite b then env.f64 b else t! "null"
  | .text _ fs => quoteT (escT (fragsText fs))
  | .binary _ fs => brackets ((fragsBytes fs).map fun b => intDec b.toNat)
  | .seq _ xs => brackets (valuesT xs)
  | .map _ kvs => braces (entriesT kvs)
  | .tag m => tagT m
  | .tagged m v => if isSpecialTag m.tag then specialT m.tag ((textOf v).getD []) else valueT v
  | .enum _ v => variantT v
  | .record _ _ fs => braces (fieldsT fs)
  | .tuple _ _ fs => brackets (itemsT fs)
  | .recordTuple _ _ fs => braces (fieldsRTT fs)
  | .hint _ v => valueT v
def variantT : V → Text
  | .tag m => tagT m
  | .tagged m v => wrapT m (if isSpecialTag m.tag then specialT m.tag ((textOf v).getD []) else valueT v)
  | .enum m v => wrapT m (variantT v)
  | .record m _ fs => wrapT m (braces (fieldsT fs))
  | .tuple m _ fs => wrapT m (brackets (itemsT fs))
  | .recordTuple m _ fs => wrapT m (braces (fieldsRTT fs))
  | .hint _ v => variantT v
  | _ => []
def valuesT : List V → List Text
  | [] => []
  | x :: xs => valueT x :: valuesT xs
def entriesT : List (V × V) → List Text
  | [] => []
  | (k, v) :: r => (keyLit (keyT env k) ++ valueT v) :: entriesT r
def fieldsT : List (Option Tag × Label × V) → List Text
  | [] => []
  | (_, l, v) :: r => (keyLit (labelT l) ++ valueT v) :: fieldsT r
def itemsT : List (Option Tag × Index × V) → List Text
  | [] => []
  | (_, _, v) :: r => valueT v :: itemsT r
def fieldsRTT : List (Option Tag × Label × Index × V) → List Text
  | [] => []
  | (_, l, _, v) :: r => (keyLit (labelT l) ++ valueT v) :: fieldsRTT r
end
end

theorem escC_ascii : ∀ n < 128, escapeChar (Char.ofNat n) = escC (Char.ofNat n) := by decide

theorem escC_eq (c : Char) : escapeChar c = escC c := by
  by_cases h : c.toNat < 128
  · have := escC_ascii c.toNat h
    rwa [Char.ofNat_toNat] at this
  · have hz : escapeOf c = 0 := by simp [escapeOf, h]
    have hn : ∀ d : Char, d.toNat < 128 → c ≠ d := fun d hd e => h (e ▸ hd)
    rw [escapeChar, if_pos hz, escC, if_neg (hn _ (by decide)), if_neg (hn _ (by decide)), if_neg (hn _ (by decide)),
      if_neg (hn _ (by decide)), if_neg (hn _ (by decide)), if_neg (hn _ (by decide)), if_neg (hn _ (by decide)),
      if_neg (by omega)]

theorem escape_eq (t : Text) : escape t = escT t := by
  have : escapeChar = escC := funext escC_eq
  rw [escape, escT, this]

end Sval.Json
