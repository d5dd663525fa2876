import Verif.Core.Tree

set_option autoImplicit false

/-!
# Values up to fragmentation
-/

namespace Sval

mutual
/-- The value with every text and every binary in one computed fragment, and without their size hints. -/
def merge : V → V
  | .text _ fs => .text none [.computed (fragsText fs)]
  | .binary _ fs => .binary none [.computed (fragsBytes fs)]
  | .seq n xs => .seq n (mergeSeq xs)
  | .map n kvs => .map n (mergeMap kvs)
  | .tagged m v => .tagged m (merge v)
  | .enum m v => .enum m (merge v)
  | .record m n fs => .record m n (mergeRec fs)
  | .tuple m n fs => .tuple m n (mergeTup fs)
  | .recordTuple m n fs => .recordTuple m n (mergeRT fs)
  | .hint t v => .hint t (merge v)
  | v => v
def mergeSeq : List V → List V
  | [] => []
  | x :: xs => merge x :: mergeSeq xs
def mergeMap : List (V × V) → List (V × V)
  | [] => []
  | (k, v) :: r => (merge k, merge v) :: mergeMap r
def mergeRec : List (Option Tag × Label × V) → List (Option Tag × Label × V)
  | [] => []
  | (t, l, v) :: r => (t, l, merge v) :: mergeRec r
def mergeTup : List (Option Tag × Index × V) → List (Option Tag × Index × V)
  | [] => []
  | (t, i, v) :: r => (t, i, merge v) :: mergeTup r
def mergeRT : List (Option Tag × Label × Index × V) → List (Option Tag × Label × Index × V)
  | [] => []
  | (t, l, i, v) :: r => (t, l, i, merge v) :: mergeRT r
end

end Sval
