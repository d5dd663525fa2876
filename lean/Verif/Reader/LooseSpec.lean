import Verif.Reader.Spec

set_option autoImplicit false

/-!
# The language the JSON reader accepts

The reader keeps no more of the place it is at than the brackets and one of six positions, so it accepts more than JSON.
This is a grammar of what it accepts, which knows nothing about the reader.
-/

namespace Sval.Reader

open Json (isWs Ws)

/-- What can be in a string: any character but a quote and a backslash, and four escapes. -/
inductive Body : Text → Prop
  | nil : Body []
  | raw (c : Char) {t : Text} : c ≠ '\\' → c ≠ '"' → Body t → Body (c :: t)
  | esc (e : Char) {t : Text} : e ∈ ['n', 'r', '"', '\\'] → Body t → Body ('\\' :: e :: t)

/-- A string. -/
def Str (t : Text) : Prop := ∃ b, Body b ∧ t = '"' :: (b ++ ['"'])

/-- A string without an end, if it does not stop right behind the quote or an escape. -/
def Unclosed (t : Text) : Prop := ∃ b c, Body b ∧ c ≠ '\\' ∧ c ≠ '"' ∧ t = '"' :: (b ++ [c])

/-- A number: a digit or a minus, and then anything that could be in a number. -/
def Number (t : Text) : Prop :=
  ∃ c r, t = c :: r ∧ (c = '-' ∨ isDigit c = true) ∧ ∀ d ∈ r, isDigit d = true ∨ d ∈ ['-', '+', '.', 'e']

/-- The parts of a text. -/
inductive Part where
  | item
  | items
  | elems
  | members
deriving DecidableEq, Repr

/-- The grammar. The brackets around a part are given, innermost first; `R` says inside of which brackets there can be
another one. -/
inductive Loose (R : List Kind → Prop) : Part → List Kind → Text → Prop
  | str {st : List Kind} {t : Text} : Str t → Loose R .item st t
  | number {st : List Kind} {t : Text} : Number t → Loose R .item st t
  | word {st : List Kind} {t : Text} : t ∈ [t! "true", t! "false", t! "null"] → Loose R .item st t
  | seqEmpty {st : List Kind} {w : Text} : R st → Ws w → Loose R .item st ('[' :: (w ++ [']']))
  /-- An array starts with an item. -/
  | seq {st : List Kind} {w a b : Text} : R st → Ws w → Loose R .item (.seq :: st) a → Loose R .elems (.seq :: st) b →
      Loose R .item st ('[' :: (w ++ (a ++ (b ++ [']']))))
  | mapEmpty {st : List Kind} {w : Text} : R st → Ws w → Loose R .item st ('{' :: (w ++ ['}']))
  /-- An object starts with a string. -/
  | map {st : List Kind} {w a b : Text} : R st → Ws w → Str a → Loose R .members (.map :: st) b →
      Loose R .item st ('{' :: (w ++ (a ++ (b ++ ['}']))))
  /-- Any number of items, with or without whitespace in between. -/
  | itemsNil {st : List Kind} : Loose R .items st []
  | itemsWs {st : List Kind} {c : Char} {t : Text} : isWs c = true → Loose R .items st t → Loose R .items st (c :: t)
  | items {st : List Kind} {a b : Text} : Loose R .item st a → Loose R .items st b → Loose R .items st (a ++ b)
  /-- Any number of items and commas. -/
  | elemsNil {st : List Kind} : Loose R .elems st []
  | elemsWs {st : List Kind} {c : Char} {t : Text} : isWs c = true → Loose R .elems st t → Loose R .elems st (c :: t)
  | elemsComma {st : List Kind} {t : Text} : Loose R .elems st t → Loose R .elems st (',' :: t)
  | elems {st : List Kind} {a b : Text} : Loose R .item st a → Loose R .elems st b → Loose R .elems st (a ++ b)
  /-- Any number of strings, a colon, any number of items; and the same again behind a comma. -/
  | membersWs {st : List Kind} {c : Char} {t : Text} : isWs c = true → Loose R .members st t → Loose R .members st (c :: t)
  | membersKey {st : List Kind} {a b : Text} : Str a → Loose R .members st b → Loose R .members st (a ++ b)
  | membersLast {st : List Kind} {b : Text} : Loose R .items st b → Loose R .members st (':' :: b)
  | membersMore {st : List Kind} {b c : Text} : Loose R .items st b → Loose R .members st c →
      Loose R .members st (':' :: (b ++ ',' :: c))

/-- The whole text: any number of items, and maybe a string without an end. -/
def LooseDoc (R : List Kind → Prop) (t : Text) : Prop :=
  ∃ a b, t = a ++ b ∧ Loose R .items [] a ∧ (b = [] ∨ Unclosed b)

/-- There is room for one more bracket in the counters of the reader. -/
def Room (st : List Kind) : Prop := (enc st).map + (enc st).seq + 1 < 2 ^ 64

/-- Does a text end inside of a string, right behind its quote or behind an escape? As a scan over the text: the flag says
whether it is inside of a string. -/
def dangling : Bool → Text → Bool
  | b, [] => b
  | false, c :: r => if c = '"' then dangling true r else dangling false r
  | true, '"' :: r => dangling false r
  | true, '\\' :: _ :: r => dangling true r
  | true, _ :: r => r != [] && dangling true r

/-- What closes brackets and strings, and ends keys. -/
def Closers (u : Text) : Prop := ∀ c ∈ u, c ∈ ['"', ':', ']', '}']

end Sval.Reader
