import Verif.Buffer.Model

set_option autoImplicit false

/-!
# The vector of fixed capacity behind buffers without `alloc`

`buffer/src/value.rs:1352-1455`. Memory is explicit: a slot is not initialised, holds a value that the vector owns, or
holds the bits of a value that was moved out. To look at, move out or drop a value in a slot that does not hold one is
undefined behaviour. A value that is written over without being dropped is leaked.
-/

namespace Sval.Buf.AV

/-- `MaybeUninit<T>`, with who owns what is there. -/
inductive Slot (α : Type) where
  | uninit
  | live (a : α)
  | moved (a : α)
deriving DecidableEq, Repr

/-- How a method of `ArrayVec` ends: `undefined` is undefined behaviour. -/
inductive Run (β : Type) where
  | ok (b : β)
  | panic
  | undefined
deriving DecidableEq, Repr

/-- What follows a method that returned. -/
def Run.bind {β γ : Type} (r : Run β) (f : β → Run γ) : Run γ :=
  match r with
  | .ok b => f b
  | .panic => .panic
  | .undefined => .undefined

/-- `ArrayVec`: `buffer/src/value.rs:1362-1365`, and what was leaked, to speak about it. -/
structure Vec (α : Type) where
  buf : List (Slot α)
  len : Nat
  leaked : List α := []

section
variable {α : Type}

/-- `Default`: `buffer/src/value.rs:1379-1389` -/
def new (N : Nat) : Vec α := { buf := List.replicate N .uninit, len := 0 }

/-- The values of slots that are taken to be initialised. -/
def assumeInit : List (Slot α) → Run (List α)
  | [] => .ok []
  | .live a :: r => (assumeInit r).bind fun l => .ok (a :: l)
  | _ => .undefined

/-- `Deref`, `DerefMut`: `buffer/src/value.rs:1406-1424`. A slice out of range panics. -/
def deref (v : Vec α) : Run (List α) :=
  if v.len ≤ v.buf.length then assumeInit (v.buf.take v.len) else .panic

/-- `push`: `buffer/src/value.rs:1427-1436`. `false` for an error, which drops the value. -/
def push (N : Nat) (v : Vec α) (a : α) : Run (Vec α × Bool) :=
  if v.len = N then .ok (v, false)
  else
    match v.buf[v.len]? with
    | none => .panic
    | some (.live b) => .ok ({ buf := v.buf.set v.len (.live a), len := v.len + 1, leaked := v.leaked ++ [b] }, true)
    | some _ => .ok ({ v with buf := v.buf.set v.len (.live a), len := v.len + 1 }, true)

/-- `pop`: `buffer/src/value.rs:1438-1448` -/
def pop (v : Vec α) : Run (Vec α × Option α) :=
  match v.len with
  | 0 => .ok (v, none)
  | i + 1 =>
    match v.buf[i]? with
    | none => .panic
    | some (.live a) => .ok ({ v with buf := v.buf.set i (.moved a), len := i }, some a)
    | some _ => .undefined

/-- `Drop`: `buffer/src/value.rs:1391-1398`. The values that are dropped; others the slots hold are leaked. -/
def drop (v : Vec α) : Run (List α) := deref v

/-- Values that nobody drops when the vector is gone. -/
def forgotten (v : Vec α) : List α :=
  v.leaked ++ (v.buf.drop v.len).filterMap fun
    | .live a => some a
    | _ => none

/-- `clear`: `buffer/src/value.rs:1450-1452`. The old vector is dropped. -/
def clear (N : Nat) (v : Vec α) : Run (Vec α × List α) :=
  (drop v).bind fun d => .ok ({ (new N) with leaked := forgotten v }, d)

/-- Put another value at an index, as `iter_mut` and `get_mut` allow; the old one is dropped. -/
def set (v : Vec α) (i : Nat) (a : α) : Run (Vec α × Option α) :=
  (deref v).bind fun l =>
    match l[i]? with
    | none => .ok (v, none)
    | some old => .ok ({ v with buf := v.buf.set i (.live a) }, some old)

/-- The loop of `clone`: `buffer/src/value.rs:1371-1373` -/
def pushAll (N : Nat) : List α → Vec α → Run (Vec α)
  | [], v => .ok v
  | a :: l, v => (push N v a).bind fun r => if r.2 then pushAll N l r.1 else .panic

/-- `Clone`: `buffer/src/value.rs:1367-1377`, for any way `f` to clone a value. -/
def clone (N : Nat) (f : α → α) (v : Vec α) : Run (Vec α) :=
  (deref v).bind fun l => pushAll N (l.map f) (new N)

/-- Something to do with a vector. -/
inductive Op (α : Type) where
  | push (a : α)
  | pop
  | clear
  | set (i : Nat) (a : α)
  /-- go on with a clone, and drop the vector itself -/
  | clone (f : α → α)

/-- A vector with what was moved out of it and what was dropped. -/
structure St (α : Type) where
  vec : Vec α
  out : List α := []
  dropped : List α := []

/-- One operation. -/
def step (N : Nat) (s : St α) : Op α → Run (St α)
  | .push a => (push N s.vec a).bind fun r =>
    .ok { s with vec := r.1, dropped := if r.2 then s.dropped else s.dropped ++ [a] }
  | .pop => (pop s.vec).bind fun r => .ok { s with vec := r.1, out := s.out ++ r.2.toList }
  | .clear => (clear N s.vec).bind fun r => .ok { s with vec := r.1, dropped := s.dropped ++ r.2 }
  | .set i a => (set s.vec i a).bind fun r =>
    .ok { s with vec := r.1, dropped := s.dropped ++ (match r.2 with | some old => [old] | none => [a]) }
  | .clone f => (clone N f s.vec).bind fun c => (drop s.vec).bind fun d =>
    .ok { s with vec := { c with leaked := c.leaked ++ forgotten s.vec }, dropped := s.dropped ++ d }

/-- Operations one after the other. -/
def run (N : Nat) : List (Op α) → St α → Run (St α)
  | [], s => .ok s
  | o :: ops, s => (step N s o).bind (run N ops)

end

end Sval.Buf.AV
