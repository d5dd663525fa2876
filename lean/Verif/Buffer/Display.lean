import Verif.Buffer.Model

set_option autoImplicit false

/-!
# `TextBuf::push_display`
-/

namespace Sval.Buf

/-- An implementation of `fmt::Display`: it writes text, sees whether that worked, and returns a result. -/
inductive Disp where
  | ret (ok : Bool)
  | write (s : Text) (k : Bool → Disp)

/-- `Error::invalid_value` is the other error that `push_display` returns. -/
inductive DispErr where
  | push (e : Err)
  | formattingFailed
deriving DecidableEq, Repr

/-- `Writer` in `push_display`, `buffer/src/fragments.rs:94-109`: the buffer, and the last error. -/
def writeDisplay (alloc : Bool) : Disp → Cow Char × Option Err → (Cow Char × Option Err) × Bool
  | .ret ok, s => (s, ok)
  | .write f k, s =>
    match s.1.pushComputed alloc f with
    | .ok c => writeDisplay alloc (k true) (c, s.2)
    | .error e => writeDisplay alloc (k false) (s.1, some e)

/-- `TextBuf::push_display`, `buffer/src/fragments.rs:93-121` -/
def pushDisplay (alloc : Bool) (c : Cow Char) (d : Disp) : Cow Char × Except DispErr Unit :=
  let r := writeDisplay alloc d (c, none)
  (r.1.1,
    if r.2 then .ok ()
    else match r.1.2 with
      | some e => .error (.push e)
      | none => .error .formattingFailed)

/-- `TextBuf::collect_display`, `buffer/src/fragments.rs:53-58` -/
def collectDisplay (alloc : Bool) (d : Disp) : Except DispErr (Cow Char) :=
  match pushDisplay alloc .new d with
  | (c, .ok ()) => .ok c
  | (_, .error e) => .error e

end Sval.Buf
