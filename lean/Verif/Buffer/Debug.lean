import Verif.Buffer.Model
import Verif.Core.Guard

set_option autoImplicit false

/-! # Buffers in builds with debug assertions -/

namespace Sval.Buf

/-- A call, in a build where `Error::no_alloc` may panic: `buffer/src/error.rs:59-81`. Nothing else makes such an error. -/
def stepD (alloc panics : Bool) (t : Token) (s : St) : Res Err St :=
  match step alloc t s with
  | .err .noAlloc s' => if panics then .panic else .err .noAlloc s'
  | r => r

/-- In a build where it does not panic. -/
theorem stepD_quiet (alloc : Bool) (t : Token) (s : St) : stepD alloc false t s = step alloc t s := by
  unfold stepD
  split
  · rename_i h; rw [h]; rfl
  · rfl

/-- `collect`, as `Buf.collect`, in such a build. -/
def collectD (alloc panics computed : Bool) (p : Prog) : Collected :=
  let r := exec (guarded (stepD alloc panics)) p (if computed then .computed .base else .base) ({}, false)
  if r.1.2 then .panic
  else if r.2 then .ok r.1.1
  else match r.1.1.err with
    | some e => .err e
    | none => .err .valueFailed

end Sval.Buf
