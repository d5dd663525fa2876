import Verif.Core.Types

set_option autoImplicit false

/-!
# The depth counters of the JSON reader

`Stack` in `experiments/src/json/from_slice.rs`: two `u64` counters instead of a stack of brackets.
-/

namespace Sval.Reader

/-- `Position`, `experiments/src/json/from_slice.rs:352-360` -/
inductive Position where
  | root
  | mapEmpty
  | mapKey
  | mapValue
  | seqEmpty
  | seqElem
deriving DecidableEq, Repr

/-- `Stack`, `experiments/src/json/from_slice.rs:370-374`. The counters are `u64`. -/
structure Stack where
  map : Nat
  seq : Nat
deriving DecidableEq, Repr

namespace Stack

/-- `Stack::new`, `experiments/src/json/from_slice.rs:377-379` -/
def new : Stack := ⟨0, 0⟩

/-- `1 + self.seq`, with the arithmetic of `u64`: on overflow a panic if the build has overflow checks, and zero if it
has not. -/
def succ (checks : Bool) (n : Nat) : Option Nat :=
  if 1 + n < 2 ^ 64 then some (1 + n) else if checks then none else some 0

/-- `u64::checked_add`, then `ok_or(..)?` -/
def add (a b : Nat) : Res Unit Nat := if a + b < 2 ^ 64 then .ok (a + b) else .err () a

/-- `u64::checked_sub`, then `ok_or(..)?` -/
def sub (a b : Nat) : Res Unit Nat := if b ≤ a then .ok (a - b) else .err () a

/-- A counter changed by one more than the other. -/
def change (checks : Bool) (f : Nat → Nat → Res Unit Nat) (own other : Nat) : Res Unit Nat :=
  match succ checks other with
  | some d => f own d
  | none => .panic

/-- Assign to a counter. -/
def assign (r : Res Unit Nat) (f : Nat → Stack) : Res Unit Stack :=
  match r with
  | .ok n => .ok (f n)
  | .err _ n => .err () (f n)
  | .panic => .panic

/-- `push_map`, `experiments/src/json/from_slice.rs:381-387` -/
def pushMap (checks : Bool) (s : Stack) : Res Unit Stack :=
  assign (change checks add s.map s.seq) fun n => { s with map := n }

/-- `pop_map`, `experiments/src/json/from_slice.rs:389-395` -/
def popMap (checks : Bool) (s : Stack) : Res Unit Stack :=
  assign (change checks sub s.map s.seq) fun n => { s with map := n }

/-- `push_seq`, `experiments/src/json/from_slice.rs:397-403` -/
def pushSeq (checks : Bool) (s : Stack) : Res Unit Stack :=
  assign (change checks add s.seq s.map) fun n => { s with seq := n }

/-- `pop_seq`, `experiments/src/json/from_slice.rs:405-411` -/
def popSeq (checks : Bool) (s : Stack) : Res Unit Stack :=
  assign (change checks sub s.seq s.map) fun n => { s with seq := n }

/-- `position`, `experiments/src/json/from_slice.rs:413-419` -/
def position (s : Stack) : Position :=
  if s.seq < s.map then .mapValue else if s.map < s.seq then .seqElem else .root

/-- `finish`, `experiments/src/json/from_slice.rs:421-427` -/
def finish (s : Stack) : Bool := s.map == 0 && s.seq == 0

end Stack

/-! ## A stack of brackets -/

/-- The kinds of brackets. -/
inductive Kind where
  | map
  | seq
deriving DecidableEq, Repr

/-- What can be done to a stack. -/
inductive Op where
  | push (k : Kind)
  | pop (k : Kind)
deriving DecidableEq, Repr

/-- The operation on the counters. -/
def Op.count (checks : Bool) : Op → Stack → Res Unit Stack
  | .push .map => Stack.pushMap checks
  | .push .seq => Stack.pushSeq checks
  | .pop .map => Stack.popMap checks
  | .pop .seq => Stack.popSeq checks

/-- A history on the counters, up to the first failure. -/
def counts (checks : Bool) : List Op → Stack → Res Unit Stack
  | [], s => .ok s
  | o :: os, s => (o.count checks s).bind (counts checks os)

/-- The operation on a stack of brackets; nothing if the bracket closed is not the innermost one. -/
def Op.real : Op → List Kind → Option (List Kind)
  | .push k, st => some (k :: st)
  | .pop _, [] => none
  | .pop k, j :: st => if k = j then some st else none

/-- A history on a stack of brackets. -/
def reals : List Op → List Kind → Option (List Kind)
  | [], st => some st
  | o :: os, st => (o.real st).bind (reals os)

/-- The greatest depth a history gets to, until it does something illegal. -/
def depth : List Op → List Kind → Nat
  | [], st => st.length
  | o :: os, st =>
    max st.length (match o.real st with
      | some st' => depth os st'
      | none => 0)

/-- The position after the innermost bracket was left. -/
def innermost : List Kind → Position
  | [] => .root
  | .map :: _ => .mapValue
  | .seq :: _ => .seqElem

/-! ## The counters that stand for a stack -/

/-- The counters of a stack of brackets, if they were unbounded. -/
def enc : List Kind → Stack
  | [] => ⟨0, 0⟩
  | .map :: st => ⟨(enc st).map + ((enc st).seq + 1), (enc st).seq⟩
  | .seq :: st => ⟨(enc st).map, (enc st).seq + ((enc st).map + 1)⟩

theorem enc_position (st : List Kind) : (enc st).position = innermost st := by
  match st with
  | [] => rfl
  | .map :: st => unfold Stack.position; rw [if_pos (by simp only [enc]; omega)]; rfl
  | .seq :: st => unfold Stack.position; rw [if_neg (by simp only [enc]; omega), if_pos (by simp only [enc]; omega)]; rfl

theorem enc_finish (st : List Kind) : (enc st).finish = st.isEmpty := by
  match st with
  | [] => rfl
  | .map :: st => simp [enc, Stack.finish]
  | .seq :: st => simp [enc, Stack.finish]

/-- How far the counters may grow. -/
def fibs : Nat → Nat × Nat
  | 0 => (1, 1)
  | n + 1 => ((fibs n).2, (fibs n).1 + (fibs n).2)

theorem fibs_mono (n : Nat) : (fibs n).1 ≤ (fibs n).2 ∧ 1 ≤ (fibs n).1 := by
  induction n with
  | zero => decide
  | succ n ih => simp only [fibs]; omega

theorem enc_bound (st : List Kind) :
    (enc st).map + 1 ≤ (fibs st.length).2 ∧ (enc st).seq + 1 ≤ (fibs st.length).2 ∧
      (enc st).map + (enc st).seq + 2 ≤ (fibs st.length).1 + (fibs st.length).2 := by
  induction st with
  | nil => decide
  | cons k st ih =>
    have := fibs_mono st.length
    cases k <;> simp only [enc, List.length_cons, fibs] <;> omega

theorem fibs_le (m n : Nat) (h : m ≤ n) : (fibs m).2 ≤ (fibs n).2 := by
  induction n with
  | zero => cases Nat.le_zero.1 h; exact Nat.le_refl _
  | succ n ih =>
    rcases Nat.lt_or_ge n m with h' | h'
    · have : m = n + 1 := by omega
      subst this; exact Nat.le_refl _
    · exact Nat.le_trans (ih h') (by have := fibs_mono n; simp only [fibs]; omega)

/-- The counters of a stack of this depth fit. -/
theorem enc_fits (st : List Kind) (h : st.length ≤ 91) :
    (enc st).map + 1 < 2 ^ 64 ∧ (enc st).seq + 1 < 2 ^ 64 := by
  have h1 := enc_bound st
  have h2 := fibs_le st.length 91 h
  have h3 : (fibs 91).2 < 2 ^ 64 := by decide +kernel
  omega

theorem succ_fits (checks : Bool) (n : Nat) (h : n + 1 < 2 ^ 64) : Stack.succ checks n = some (1 + n) := by
  rw [Stack.succ, if_pos (by omega)]

/-- What an operation does to counters that stand for a stack. -/
theorem count_enc (checks : Bool) (o : Op) (st : List Kind) (s' : Stack) (hc : checks = true ∨ st.length ≤ 91)
    (h : o.count checks (enc st) = .ok s') : ∃ st', o.real st = some st' ∧ s' = enc st' := by
  have hs (n : Nat) (hn : checks = true ∨ n + 1 < 2 ^ 64) : Stack.succ checks n = some (1 + n) ∨ Stack.succ checks n = none := by
    unfold Stack.succ
    split
    · exact .inl rfl
    · rcases hn with rfl | hn
      · exact .inr rfl
      · omega
  have hf : (checks = true ∨ (enc st).map + 1 < 2 ^ 64) ∧ (checks = true ∨ (enc st).seq + 1 < 2 ^ 64) :=
    hc.elim (fun h => ⟨.inl h, .inl h⟩) fun h => ⟨.inr (enc_fits st h).1, .inr (enc_fits st h).2⟩
  match o with
  | .push .map =>
    rcases hs _ hf.2 with e | e
    · simp only [Op.count, Stack.pushMap, Stack.change, e, Stack.add] at h
      split at h
      · injection h with h; exact ⟨.map :: st, rfl, by rw [← h]; simp [enc]; omega⟩
      · cases h
    · simp only [Op.count, Stack.pushMap, Stack.change, e] at h; cases h
  | .push .seq =>
    rcases hs _ hf.1 with e | e
    · simp only [Op.count, Stack.pushSeq, Stack.change, e, Stack.add] at h
      split at h
      · injection h with h; exact ⟨.seq :: st, rfl, by rw [← h]; simp [enc]; omega⟩
      · cases h
    · simp only [Op.count, Stack.pushSeq, Stack.change, e] at h; cases h
  | .pop .map =>
    rcases hs _ hf.2 with e | e
    · simp only [Op.count, Stack.popMap, Stack.change, e, Stack.sub] at h
      split at h
      · injection h with h
        rename_i hle
        match st with
        | [] => simp [enc] at hle
        | .map :: st => exact ⟨st, rfl, by rw [← h]; simp only [enc]; congr 1; omega⟩
        | .seq :: st => simp only [enc] at hle; omega
      · cases h
    · simp only [Op.count, Stack.popMap, Stack.change, e] at h; cases h
  | .pop .seq =>
    rcases hs _ hf.1 with e | e
    · simp only [Op.count, Stack.popSeq, Stack.change, e, Stack.sub] at h
      split at h
      · injection h with h
        rename_i hle
        match st with
        | [] => simp [enc] at hle
        | .seq :: st => exact ⟨st, rfl, by rw [← h]; simp only [enc]; congr 1; omega⟩
        | .map :: st => simp only [enc] at hle; omega
      · cases h
    · simp only [Op.count, Stack.popSeq, Stack.change, e] at h; cases h

/-- Up to the depth for which the counters are large enough, operations succeed if they are legal and fail if not. -/
theorem count_fits (checks : Bool) (o : Op) (st : List Kind) (h : st.length ≤ 91) :
    match o.real st with
    | some st' => st'.length ≤ 91 → o.count checks (enc st) = .ok (enc st')
    | none => ∃ s', o.count checks (enc st) = .err () s' := by
  have e1 := succ_fits checks _ (enc_fits st h).1
  have e2 := succ_fits checks _ (enc_fits st h).2
  match o with
  | .push .map =>
    intro h'
    have := (enc_fits _ h').1
    simp only [enc] at this
    simp only [Op.count, Stack.pushMap, Stack.change, e2, Stack.add]
    rw [if_pos (by omega)]
    simp only [Stack.assign, enc]; congr 2; omega
  | .push .seq =>
    intro h'
    have := (enc_fits _ h').2
    simp only [enc] at this
    simp only [Op.count, Stack.pushSeq, Stack.change, e1, Stack.add]
    rw [if_pos (by omega)]
    simp only [Stack.assign, enc]; congr 2; omega
  | .pop .map =>
    simp only [Op.count, Stack.popMap, Stack.change, e2, Stack.sub]
    match st with
    | [] => exact ⟨_, by rw [if_neg (by simp [enc])]; rfl⟩
    | .seq :: st => exact ⟨_, by rw [if_neg (by simp only [enc]; omega)]; rfl⟩
    | .map :: st =>
      intro _
      rw [if_pos (by simp only [enc]; omega)]
      simp only [Stack.assign, enc]; congr 2; omega
  | .pop .seq =>
    simp only [Op.count, Stack.popSeq, Stack.change, e1, Stack.sub]
    match st with
    | [] => exact ⟨_, by rw [if_neg (by simp [enc])]; rfl⟩
    | .map :: st => exact ⟨_, by rw [if_neg (by simp only [enc]; omega)]; rfl⟩
    | .seq :: st =>
      intro _
      rw [if_pos (by simp only [enc]; omega)]
      simp only [Stack.assign, enc]; congr 2; omega


/-- Pushing onto counters with room for it, and not. -/
theorem push_room (checks : Bool) (k : Kind) (st : List Kind) :
    ((enc st).map + (enc st).seq + 1 < 2 ^ 64 → Op.count checks (.push k) (enc st) = .ok (enc (k :: st))) ∧
    (¬ (enc st).map + (enc st).seq + 1 < 2 ^ 64 → checks = true → ∀ s, Op.count checks (.push k) (enc st) ≠ .ok s) := by
  constructor
  · intro h
    have e1 := succ_fits checks (enc st).map (by omega)
    have e2 := succ_fits checks (enc st).seq (by omega)
    cases k <;> simp only [Op.count, Stack.pushMap, Stack.pushSeq, Stack.change, e1, e2, Stack.add] <;>
      rw [if_pos (by omega)] <;> simp only [Stack.assign, enc] <;> congr 2 <;> omega
  · rintro h rfl s hs
    cases k
    · simp only [Op.count, Stack.pushMap, Stack.change, Stack.succ, if_true] at hs
      by_cases h1 : 1 + (enc st).seq < 2 ^ 64
      · rw [if_pos h1] at hs
        simp only [Stack.add] at hs
        rw [if_neg (by omega)] at hs
        cases hs
      · rw [if_neg h1] at hs
        cases hs
    · simp only [Op.count, Stack.pushSeq, Stack.change, Stack.succ, if_true] at hs
      by_cases h1 : 1 + (enc st).map < 2 ^ 64
      · rw [if_pos h1] at hs
        simp only [Stack.add] at hs
        rw [if_neg (by omega)] at hs
        cases hs
      · rw [if_neg h1] at hs
        cases hs

/-- Popping what there was room for. -/
theorem pop_room (checks : Bool) (k : Kind) (st : List Kind) (h : (enc st).map + (enc st).seq + 1 < 2 ^ 64) :
    Op.count checks (.pop k) (enc (k :: st)) = .ok (enc st) := by
  cases k
  · have e := succ_fits checks (enc st).seq (by omega)
    have e' : Stack.succ checks (enc (.map :: st)).seq = some (1 + (enc st).seq) := e
    simp only [Op.count, Stack.popMap, Stack.change, e', Stack.sub]
    rw [if_pos (by simp only [enc]; omega)]
    simp only [Stack.assign, enc]; congr 2; omega
  · have e := succ_fits checks (enc st).map (by omega)
    have e' : Stack.succ checks (enc (.seq :: st)).map = some (1 + (enc st).map) := e
    simp only [Op.count, Stack.popSeq, Stack.change, e', Stack.sub]
    rw [if_pos (by simp only [enc]; omega)]
    simp only [Stack.assign, enc]; congr 2; omega

/-- There is room for a stack of this depth. -/
theorem room_fits (st : List Kind) (h : st.length + 1 ≤ 91) : (enc st).map + (enc st).seq + 1 < 2 ^ 64 := by
  have h1 := enc_bound st
  have h2 := fibs_le (st.length + 1) 91 h
  have h3 : (fibs 91).2 < 2 ^ 64 := by decide +kernel
  have h4 : (fibs (st.length + 1)).2 = (fibs st.length).1 + (fibs st.length).2 := rfl
  omega

end Sval.Reader
