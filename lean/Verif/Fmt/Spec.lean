import Verif.Fmt.Model

set_option autoImplicit false

/-!
# What `sval_fmt` should write

The layout of a value, as characters with the kind of token each belongs to. It knows nothing of flags,
fragments or separate writes.
-/

namespace Sval.Fmt

/-- Characters with the kind of token they belong to. -/
abbrev Out := List (Kind × Char)

def lay (k : Kind) (t : Text) : Out := t.map fun c => (k, c)

def Out.text (o : Out) : Text := o.map Prod.snd

/-- Items separated by a comma and a space. -/
def commas : List Out → Out
  | [] => []
  | [x] => x
  | x :: y :: r => x ++ lay .punct (t! ",") ++ lay .ws (t! " ") ++ commas (y :: r)

def brackets (xs : List Out) : Out := lay .punct (t! "[") ++ commas xs ++ lay .punct (t! "]")
def parens (xs : List Out) : Out := lay .punct (t! "(") ++ commas xs ++ lay .punct (t! ")")
def braces (xs : List Out) : Out :=
  if xs = [] then lay .punct (t! "{}")
  else lay .punct (t! "{") ++ lay .ws (t! " ") ++ commas xs ++ lay .ws (t! " ") ++ lay .punct (t! "}")

/-- `key: value` -/
def entry (k v : Out) : Out := k ++ lay .punct (t! ":") ++ lay .ws (t! " ") ++ v

/-- A tag without a value: its label, or a unit. -/
def name (m : Meta) : Out :=
  match m.label with
  | some l => lay .ident l.text
  | none => lay .atom (t! "()")

/-- A value with its label in front. -/
def labelled (m : Meta) (x : Out) : Out :=
  match m.label with
  | some l => lay .ident l.text ++ x
  | none => x

/-- A record with its label in front. -/
def recordOut (m : Meta) (fs : List Out) : Out :=
  match m.label with
  | some l => lay .ident l.text ++ lay .ws (t! " ") ++ braces fs
  | none => braces fs

/-- A text with all characters escaped that `char::escape_debug` escapes. -/
def escape (env : Env) (t : Text) : Text := t.flatMap (escapeDebug env)

section
variable (env : Env) (again : Meta → V → Out)

mutual
/-- The layout of a value. `num` says that a text is written as a number: it is inside `NUMBER`. `again` is
what is written after the variant of an enum; it should be nothing. -/
def layout (num : Bool) : V → Out
  | .null => lay .atom (t! "()")
  | .bool b => lay .atom (if b then t! "true" else t! "false")
  | .int _ v => lay .number (intDec v)
  | .f32 b => lay .number (env.f32 b)
  | .f64 b => lay .number (env.f64 b)
  | .text _ fs =>
    if num then lay .number (fragsText fs) else lay .text ('"' :: (escape env (fragsText fs) ++ ['"']))
  | .binary _ fs => brackets ((fragsBytes fs).map fun b => lay .number (intDec b.toNat))
  | .seq _ xs => brackets (layoutSeq xs)
  | .map _ kvs => braces (layoutMap kvs)
  | .tag m => name m
  | .tagged m v =>
    match m.label with
    | some l => lay .ident l.text ++ parens [layout (num || decide (m.tag = some tags.NUMBER)) v]
    | none => layout (num || decide (m.tag = some tags.NUMBER)) v
  | .enum m v => layout num v ++ again m v
  | .record m _ fs => recordOut m (layoutRec fs)
  | .tuple m _ fs => labelled m (parens (layoutTup fs))
  | .recordTuple m _ fs => recordOut m (layoutRT fs)
  | .hint _ v => layout num v
def layoutSeq : List V → List Out
  | [] => []
  | x :: xs => layout false x :: layoutSeq xs
def layoutMap : List (V × V) → List Out
  | [] => []
  | (k, v) :: r => entry (layout false k) (layout false v) :: layoutMap r
def layoutRec : List (Option Tag × Label × V) → List Out
  | [] => []
  | (_, l, v) :: r => entry (lay .ident l.text) (layout false v) :: layoutRec r
def layoutTup : List (Option Tag × Index × V) → List Out
  | [] => []
  | (_, _, v) :: r => layout false v :: layoutTup r
def layoutRT : List (Option Tag × Label × Index × V) → List Out
  | [] => []
  | (_, l, _, v) :: r => entry (lay .ident l.text) (layout false v) :: layoutRT r
end
end

/-- Does the value end in a container with nothing in it (or is it a bare scalar, for `e = true`)? -/
def hollow (e : Bool) : V → Bool
  | .null | .bool _ | .int _ _ | .f32 _ | .f64 _ | .text _ _ => e
  | .binary _ fs => (fragsBytes fs).isEmpty
  | .seq _ xs => xs.isEmpty
  | .map _ kvs => kvs.isEmpty
  | .tag _ => false
  | .tagged _ v => hollow false v
  | .enum _ _ => false
  | .record _ _ fs => fs.isEmpty
  | .tuple _ _ fs => fs.isEmpty
  | .recordTuple _ _ fs => fs.isEmpty
  | .hint _ v => hollow e v

/-- Nothing after the variant of an enum. -/
def once : Meta → V → Out := fun _ _ => []

/-- The defect: the tag of the enum after a variant with nothing in it. -/
def twice : Meta → V → Out := fun m v => if hollow true v then name m else []

mutual
/-- No enum has a variant with nothing in it. -/
def solid : V → Bool
  | .null | .bool _ | .int _ _ | .f32 _ | .f64 _ | .text _ _ | .binary _ _ | .tag _ => true
  | .seq _ xs => solidSeq xs
  | .map _ kvs => solidMap kvs
  | .tagged _ v => solid v
  | .enum _ v => !hollow true v && solid v
  | .record _ _ fs => solidRec fs
  | .tuple _ _ fs => solidTup fs
  | .recordTuple _ _ fs => solidRT fs
  | .hint _ v => solid v
def solidSeq : List V → Bool
  | [] => true
  | x :: xs => solid x && solidSeq xs
def solidMap : List (V × V) → Bool
  | [] => true
  | (k, v) :: r => solid k && solid v && solidMap r
def solidRec : List (Option Tag × Label × V) → Bool
  | [] => true
  | (_, _, v) :: r => solid v && solidRec r
def solidTup : List (Option Tag × Index × V) → Bool
  | [] => true
  | (_, _, v) :: r => solid v && solidTup r
def solidRT : List (Option Tag × Label × Index × V) → Bool
  | [] => true
  | (_, _, _, v) :: r => solid v && solidRT r
end

theorem layout_solid (env : Env) (v : V) (h : solid v = true) (n : Bool) : layout env twice n v = layout env once n v := by
  induction v using V.ind generalizing n with
  | seq m xs ih =>
    simp only [layout]; congr 1
    simp only [solid] at h
    induction xs with
    | nil => rfl
    | cons x xs ih' =>
      simp only [solidSeq, Bool.and_eq_true] at h
      simp only [layoutSeq, ih x (by simp) h.1, ih' (fun y hy => ih y (by simp [hy])) h.2]
  | map m kvs ih =>
    simp only [layout]; congr 1
    simp only [solid] at h
    induction kvs with
    | nil => rfl
    | cons kv r ih' =>
      obtain ⟨k, v⟩ := kv
      simp only [solidMap, Bool.and_eq_true] at h
      simp only [layoutMap, (ih (k, v) (by simp)).1 h.1.1, (ih (k, v) (by simp)).2 h.1.2, ih' (fun y hy => ih y (by simp [hy])) h.2]
  | record m n fs ih =>
    simp only [layout]; congr 1
    simp only [solid] at h
    induction fs with
    | nil => rfl
    | cons f r ih' =>
      obtain ⟨t, l, v⟩ := f
      simp only [solidRec, Bool.and_eq_true] at h
      simp only [layoutRec, ih (t, l, v) (by simp) h.1, ih' (fun y hy => ih y (by simp [hy])) h.2]
  | tuple m n fs ih =>
    simp only [layout]; congr 2
    simp only [solid] at h
    induction fs with
    | nil => rfl
    | cons f r ih' =>
      obtain ⟨t, l, v⟩ := f
      simp only [solidTup, Bool.and_eq_true] at h
      simp only [layoutTup, ih (t, l, v) (by simp) h.1, ih' (fun y hy => ih y (by simp [hy])) h.2]
  | recordTuple m n fs ih =>
    simp only [layout]; congr 1
    simp only [solid] at h
    induction fs with
    | nil => rfl
    | cons f r ih' =>
      obtain ⟨t, l, i, v⟩ := f
      simp only [solidRT, Bool.and_eq_true] at h
      simp only [layoutRT, ih (t, l, i, v) (by simp) h.1, ih' (fun y hy => ih y (by simp [hy])) h.2]
  | tagged m v ih => simp only [layout, ih h]
  | enum m v ih =>
    simp only [solid, Bool.and_eq_true, Bool.not_eq_true'] at h
    simp [layout, ih h.2, twice, once, h.1]
  | hint t v ih => simp only [layout, ih h]
  | _ => rfl

end Sval.Fmt
