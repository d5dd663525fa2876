import Verif.Core.Types

set_option autoImplicit false

/-!
# `ArrayVec`, with clones that panic

The same code as in `Verif.Buffer.ArrayVec`, `buffer/src/value.rs:1352-1455`, with what happens when `T::clone` panics:
the copies made so far are dropped, the panic is caught, and the vector is used again. What is modelled is memory: slots that may not be initialized, values that are owned, moved out or
dropped. Values are numbers that stand for their identity: two values that were made separately are different.
Undefined behaviour is `none`.
-/

namespace Sval.ArrayVec

/-- `MaybeUninit<T>`. A value that was moved out of a slot is still there bit by bit: `init` says what the bytes are, not
that the slot owns them. -/
inductive Slot where
  | uninit
  | init (v : Nat)
deriving DecidableEq, Repr

/-- `ArrayVec<T, N>`, `buffer/src/value.rs:1362-1365`; `N` is the length of `buf`. -/
structure Vec where
  buf : List Slot
  len : Nat
deriving DecidableEq, Repr

/-- What has happened to values: those made so far, and those moved out to the caller or dropped, in order. -/
structure Ledger where
  made : List Nat := []
  moved : List Nat := []
  dropped : List Nat := []
deriving DecidableEq, Repr

/-- `Default::default`, `buffer/src/value.rs:1379-1389` -/
def Vec.default (N : Nat) : Vec := { buf := List.replicate N .uninit, len := 0 }

/-- `assume_init` on a slot. -/
def Slot.assumeInit : Slot → Option Nat
  | .init v => some v
  | .uninit => none

/-- Read slots as values. -/
def assumeAll : List Slot → Option (List Nat)
  | [] => some []
  | s :: r => do
    let v ← s.assumeInit
    let vs ← assumeAll r
    some (v :: vs)

/-- `deref` and `deref_mut`, `buffer/src/value.rs:1406-1424`. The outer `none` is the panic of slicing out of range, the
inner one undefined behaviour. -/
def Vec.deref (v : Vec) : Option (Option (List Nat)) :=
  if v.len ≤ v.buf.length then some (assumeAll (v.buf.take v.len)) else none

/-- How an operation ends. -/
inductive End (α : Type) where
  | ok (a : α) (v : Vec) (l : Ledger)
  | panic (v : Vec) (l : Ledger)
  | undefined
deriving Repr

/-- `drop`, `buffer/src/value.rs:1391-1398`: `drop_in_place` on what `deref_mut` gives. -/
def Vec.drop (v : Vec) (l : Ledger) : Option Ledger :=
  match v.deref with
  | some (some xs) => some { l with dropped := l.dropped ++ xs }
  | _ => none

/-- `push`, `buffer/src/value.rs:1427-1436`. The value is dropped with the error. Writing to the slot drops nothing. -/
def Vec.push (v : Vec) (x : Nat) (l : Ledger) : End Bool :=
  let l : Ledger := { l with made := l.made ++ [x] }
  if v.len = v.buf.length then .ok false v { l with dropped := l.dropped ++ [x] }
  else if v.len < v.buf.length then .ok true { buf := v.buf.set v.len (.init x), len := v.len + 1 } l
  else .panic v l

/-- `pop`, `buffer/src/value.rs:1438-1448` -/
def Vec.pop (v : Vec) (l : Ledger) : End (Option Nat) :=
  match v.len with
  | 0 => .ok none v l
  | i + 1 =>
    let v : Vec := { v with len := i }
    match v.buf[i]? with
    | none => .panic v l
    | some s =>
      match s.assumeInit with
      | none => .undefined
      | some x => .ok (some x) v { l with moved := l.moved ++ [x] }

/-- `clear`, `buffer/src/value.rs:1450-1452`: the old vector is dropped by the assignment. -/
def Vec.clear (v : Vec) (l : Ledger) : End Unit :=
  match v.drop l with
  | some l => .ok () (.default v.buf.length) l
  | none => .undefined

/-- The loop of `clone`, `buffer/src/value.rs:1371-1373`. `f` is `T::clone`, with the identity of the copy; `none` is a
panic, and the copies so far are dropped when `buf` is. -/
def cloneLoop (f : Nat → Option Nat) : List Nat → Vec → Ledger → End Unit
  | [], b, l => .ok () b l
  | x :: xs, b, l =>
    match f x with
    | none =>
      match b.drop l with
      | some l => .panic b l
      | none => .undefined
    | some y =>
      match b.push y l with
      | .ok true b l => cloneLoop f xs b l
      -- `unwrap`
      | .ok false b l =>
        match b.drop l with
        | some l => .panic b l
        | none => .undefined
      | .panic b l => .panic b l
      | .undefined => .undefined

/-- `clone`, `buffer/src/value.rs:1367-1377` -/
def Vec.clone (v : Vec) (f : Nat → Option Nat) (l : Ledger) : End Unit :=
  match v.deref with
  | some (some xs) => cloneLoop f xs (.default v.buf.length) l
  | _ => .undefined

/-- `v[i] = x`, through `deref_mut`. The value that was there is dropped. An index out of range panics, and `x` is
dropped. -/
def Vec.assign (v : Vec) (i x : Nat) (l : Ledger) : End Unit :=
  let l : Ledger := { l with made := l.made ++ [x] }
  match v.deref with
  | some (some xs) =>
    match xs[i]? with
    | some y => .ok () { v with buf := v.buf.set i (.init x) } { l with dropped := l.dropped ++ [y] }
    | none => .panic v { l with dropped := l.dropped ++ [x] }
  | _ => .undefined

/-- What safe code can do with one vector. -/
inductive Op where
  | push (x : Nat)
  | pop
  | clear
  /-- `v[i] = x` -/
  | assign (i x : Nat)
  /-- `&v[..]` -/
  | read
  /-- `v = v.clone()` -/
  | clone (f : Nat → Option Nat)

/-- What it sees. A panic of safe code is caught, and the vector is used again. -/
inductive Seen where
  | pushed (ok : Bool)
  | popped (x : Option Nat)
  | slice (xs : List Nat)
  | unit
  | panicked
deriving DecidableEq, Repr

/-- One operation, by the methods above (`buffer/src/value.rs:1362-1453`); nothing is undefined behaviour. -/
def step (v : Vec) (l : Ledger) : Op → Option (Seen × Vec × Ledger)
  | .push x =>
    match v.push x l with
    | .ok b v l => some (.pushed b, v, l)
    | .panic v l => some (.panicked, v, l)
    | .undefined => none
  | .pop =>
    match v.pop l with
    | .ok x v l => some (.popped x, v, l)
    | .panic v l => some (.panicked, v, l)
    | .undefined => none
  | .clear =>
    match v.clear l with
    | .ok _ v l => some (.unit, v, l)
    | .panic v l => some (.panicked, v, l)
    | .undefined => none
  | .assign i x =>
    match v.assign i x l with
    | .ok _ v l => some (.unit, v, l)
    | .panic v l => some (.panicked, v, l)
    | .undefined => none
  | .read =>
    match v.deref with
    | some (some xs) => some (.slice xs, v, l)
    | some none => none
    | none => some (.panicked, v, l)
  | .clone f =>
    match v.clone f l with
    | .ok _ w l =>
      match v.drop l with
      | some l => some (.unit, w, l)
      | none => none
    | .panic _ l => some (.panicked, v, l)
    | .undefined => none

/-- Operations one after the other. -/
def run (v : Vec) (l : Ledger) : List Op → Option (List Seen × Vec × Ledger)
  | [] => some ([], v, l)
  | o :: os => do
    let (x, v, l) ← step v l o
    let (xs, v, l) ← run v l os
    some (x :: xs, v, l)

end Sval.ArrayVec
