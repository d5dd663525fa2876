import Verif.Buffer.Model
import Verif.Nested.Model

set_option autoImplicit false

/-!
# `TextBuf` and `BinaryBuf` as values
-/

namespace Sval.Buf

open Nested (Item)

/-- `impl Value for str`, `src/data/text.rs:103-108` -/
def strItems (s : Text) : List Item := [.tok (.textBegin (some (utf8Len s))), .tok (.textFragment s), .tok .textEnd]

/-- `impl Value for BinarySlice`, `src/data/binary.rs:45-49` -/
def sliceItems (s : Bytes) : List Item := [.tok (.binaryBegin (some s.length)), .tok (.binaryFragment s), .tok .binaryEnd]

/-- `impl Value for TextBuf`, `buffer/src/fragments.rs:248-252`: all of it is borrowed from the buffer. -/
def Cow.textItems (c : Cow Char) : List Item := strItems c.content

/-- `impl ValueRef for TextBuf`, `buffer/src/fragments.rs:254-267` -/
def Cow.textRefItems (c : Cow Char) : List Item :=
  match c.asBorrowed with
  | some v => [.val (strItems v)]
  | none => [.tok (.textBegin (some (utf8Len c.content))), .tok (.textFragmentComputed c.content), .tok .textEnd]

/-- `impl Value for BinaryBuf`, `buffer/src/fragments.rs:484-488` -/
def Cow.binaryItems (c : Cow UInt8) : List Item := sliceItems c.content

/-- `impl ValueRef for BinaryBuf`, `buffer/src/fragments.rs:490-497` -/
def Cow.binaryRefItems (c : Cow UInt8) : List Item :=
  match c.asBorrowed with
  | some v => [.val (sliceItems v)]
  | none => [.comp (sliceItems c.content)]

/-- `TextBuf::clear`, `buffer/src/fragments.rs:64-66`, and `BinaryBuf::clear`, `buffer/src/fragments.rs:311-313`. -/
def Cow.clear {α : Type} (_ : Cow α) : Cow α := .new

/-- `From<&str>` and `From<&[u8]>`, `buffer/src/fragments.rs:232-239`, `buffer/src/fragments.rs:460-475`. -/
def Cow.from {α : Type} (s : List α) : Cow α := .borrowed s

end Sval.Buf
