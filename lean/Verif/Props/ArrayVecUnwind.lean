import Verif.Buffer.ArrayVecUnwind

set_option autoImplicit false

/-!
# C62: the vector of buffers without `alloc`, when cloning a value panics
-/

namespace Sval

open ArrayVec (Op Seen Vec Ledger Slot)

/-! ## Specification: a list that holds at most `N` values -/

/-- The copies that are made before `f` panics, and whether it does. -/
def ArrayVec.copies (f : Nat → Option Nat) : List Nat → List Nat × Bool
  | [] => ([], true)
  | x :: xs =>
    match f x with
    | none => ([], false)
    | some y => (y :: (copies f xs).1, (copies f xs).2)

/-- What is seen, and what the list is afterwards. -/
def ArrayVec.spec (N : Nat) (xs : List Nat) : Op → Seen × List Nat
  | .push x => if xs.length < N then (.pushed true, xs ++ [x]) else (.pushed false, xs)
  | .pop => (.popped xs.getLast?, xs.dropLast)
  | .clear => (.unit, [])
  | .assign i x => if i < xs.length then (.unit, xs.set i x) else (.panicked, xs)
  | .read => (.slice xs, xs)
  | .clone f => if (copies f xs).2 then (.unit, (copies f xs).1) else (.panicked, xs)

def ArrayVec.specRun (N : Nat) (xs : List Nat) : List Op → List Seen × List Nat
  | [] => ([], xs)
  | o :: os => ((spec N xs o).1 :: (specRun N (spec N xs o).2 os).1, (specRun N (spec N xs o).2 os).2)

/-- The values that an operation makes when the list is `xs`. -/
def ArrayVec.makes (xs : List Nat) : Op → List Nat
  | .push x => [x]
  | .assign _ x => [x]
  | .clone f => (copies f xs).1
  | _ => []

def ArrayVec.makesRun (N : Nat) (xs : List Nat) : List Op → List Nat
  | [] => []
  | o :: os => makes xs o ++ makesRun N (spec N xs o).2 os

/-! ## Proofs -/

namespace ArrayVec

/-- The slots in use hold `xs`. -/
def Holds (v : Vec) (xs : List Nat) : Prop := v.buf.take v.len = xs.map .init ∧ v.len = xs.length ∧ v.len ≤ v.buf.length

theorem assumeAll_map (xs : List Nat) : assumeAll (xs.map .init) = some xs := by
  induction xs with
  | nil => rfl
  | cons x xs ih => simp [assumeAll, Slot.assumeInit, ih]

theorem deref_of {v : Vec} {xs : List Nat} (h : Holds v xs) : v.deref = some (some xs) := by
  simp [Vec.deref, h.2.2, h.1, assumeAll_map]

theorem drop_of {v : Vec} {xs : List Nat} (h : Holds v xs) (l : Ledger) :
    v.drop l = some { l with dropped := l.dropped ++ xs } := by
  simp [Vec.drop, deref_of h]

theorem holds_default (N : Nat) : Holds (.default N) [] := by simp [Holds, Vec.default]

theorem push_of {v : Vec} {xs : List Nat} (h : Holds v xs) (x : Nat) (l : Ledger) :
    (v.len < v.buf.length ∧ v.push x l = .ok true { buf := v.buf.set v.len (.init x), len := v.len + 1 }
        { l with made := l.made ++ [x] } ∧
      Holds { buf := v.buf.set v.len (.init x), len := v.len + 1 } (xs ++ [x])) ∨
    (v.len = v.buf.length ∧ v.push x l = .ok false v { l with made := l.made ++ [x], dropped := l.dropped ++ [x] }) := by
  obtain ⟨h1, h2, h3⟩ := h
  by_cases he : v.len = v.buf.length
  · right; exact ⟨he, by simp [Vec.push, he]⟩
  · left
    have hlt : v.len < v.buf.length := by omega
    refine ⟨hlt, by simp [Vec.push, he, hlt], ?_, by simp [h2], by simp; omega⟩
    rw [List.take_add_one]
    rw [List.take_set_of_le (Nat.le_refl _)]
    simp [hlt, h1]

theorem holds_take {v : Vec} {xs : List Nat} (h : Holds v xs) (i : Nat) (hi : i < xs.length) :
    v.buf[i]? = some (.init xs[i]) := by
  have h1 := h.1
  have : (v.buf.take v.len)[i]? = (xs.map Slot.init)[i]? := by rw [h1]
  rw [List.getElem?_take] at this
  have hlt : i < v.len := by have := h.2.1; omega
  simpa [hlt, hi] using this

theorem cloneLoop_of (f : Nat → Option Nat) (xs : List Nat) (b : Vec) (ys : List Nat) (l : Ledger) (hb : Holds b ys)
    (hr : ys.length + xs.length ≤ b.buf.length) :
    ((copies f xs).2 = true → ∃ w, Holds w (ys ++ (copies f xs).1) ∧ w.buf.length = b.buf.length ∧
      cloneLoop f xs b l = .ok () w { l with made := l.made ++ (copies f xs).1 }) ∧
    ((copies f xs).2 = false → ∃ w, cloneLoop f xs b l =
      .panic w { l with made := l.made ++ (copies f xs).1, dropped := l.dropped ++ ys ++ (copies f xs).1 }) := by
  induction xs generalizing b ys l with
  | nil => simp [copies, cloneLoop, hb]
  | cons x xs ih =>
    cases hf : f x with
    | none => simp [copies, hf, cloneLoop, drop_of hb]
    | some y =>
      simp only [List.length_cons] at hr
      obtain ⟨hlt, hp, hh⟩ | ⟨he, _⟩ := push_of hb y l
      · obtain ⟨i1, i2⟩ := ih { buf := b.buf.set b.len (.init y), len := b.len + 1 } (ys ++ [y])
          { l with made := l.made ++ [y] } hh (by simp; omega)
        simp only [copies, hf, cloneLoop, hp]
        constructor
        · intro hc
          obtain ⟨w, w1, w2, w3⟩ := i1 hc
          exact ⟨w, by simpa using w1, by simpa using w2, by simpa using w3⟩
        · intro hc
          obtain ⟨w, w1⟩ := i2 hc
          exact ⟨w, by simpa using w1⟩
      · have := hb.2.1; omega

/-- One operation on a vector that holds `xs`. -/
theorem step_of {N : Nat} {v : Vec} {xs : List Nat} (h : Holds v xs) (hN : v.buf.length = N) (l : Ledger) (o : Op) :
    ∃ v' l', step v l o = some ((spec N xs o).1, v', l') ∧ Holds v' (spec N xs o).2 ∧ v'.buf.length = N ∧
      l'.made = l.made ++ makes xs o ∧
      ((spec N xs o).2 ++ l'.moved ++ l'.dropped).Perm (xs ++ l.moved ++ l.dropped ++ makes xs o) ∧
      l'.moved = l.moved ++ (match (spec N xs o).1 with | .popped (some x) => [x] | _ => []) := by
  cases o with
  | push x =>
    have hl := h.2.1
    obtain ⟨hlt, hp, hh⟩ | ⟨he, hp⟩ := push_of h x l
    · refine ⟨_, _, by simp only [step, hp]; rw [spec, if_pos (by omega)], ?_⟩
      rw [spec, if_pos (by omega)]
      refine ⟨hh, by simpa using hN, rfl, ?_, by simp⟩
      simp only [makes, List.append_assoc]
      refine List.Perm.append_left _ ?_
      exact (List.perm_append_comm (l₁ := [x])).trans (by simp)
    · refine ⟨_, _, by simp only [step, hp]; rw [spec, if_neg (by omega)], ?_⟩
      rw [spec, if_neg (by omega)]
      exact ⟨h, hN, rfl, by simp [makes], by simp⟩
  | pop =>
    obtain ⟨h1, h2, h3⟩ := h
    rcases List.eq_nil_or_concat xs with rfl | ⟨ys, x, rfl⟩
    · have : v.len = 0 := by simpa using h2
      exact ⟨v, l, by simp [step, Vec.pop, this, spec], by simp [Holds, this, spec], hN, by simp [makes],
        by simp [spec, makes], by simp [spec]⟩
    · simp only [List.concat_eq_append] at *
      have hlen : v.len = ys.length + 1 := by simpa using h2
      have hg : v.buf[ys.length]? = some (.init x) := by
        have := holds_take ⟨h1, h2, h3⟩ ys.length (by simp)
        simpa using this
      have hpop : v.pop l = .ok (some x) { v with len := ys.length } { l with moved := l.moved ++ [x] } := by
        unfold Vec.pop
        split
        · omega
        · rename_i i hi
          have : i = ys.length := by omega
          subst this
          simp [hg, Slot.assumeInit]
      refine ⟨{ v with len := ys.length }, { l with moved := l.moved ++ [x] }, by simp only [step, hpop]; simp [spec], ?_, hN,
        by simp [makes], ?_, by simp [spec]⟩
      · refine ⟨?_, by simp [spec], by simp; omega⟩
        have : v.buf.take ys.length = (v.buf.take v.len).take ys.length := by
          rw [List.take_take]; congr 1; omega
        simp [spec, this, h1]
      · simp only [spec, makes, List.append_nil, List.dropLast_concat, List.append_assoc]
        refine List.Perm.append_left _ ?_
        rw [← List.append_assoc, ← List.append_assoc]
        exact List.Perm.append_right _ List.perm_append_comm
  | clear =>
    refine ⟨_, _, by simp [step, Vec.clear, drop_of h, spec]; exact ⟨rfl, rfl⟩, ?_⟩
    refine ⟨holds_default _, by simp [Vec.default, hN], by simp [makes], ?_, by simp [spec]⟩
    simp only [spec, makes, List.nil_append, List.append_nil]
    rw [← List.append_assoc]
    exact List.perm_append_comm.trans (by simp)
  | assign i x =>
    by_cases hi : i < xs.length
    · refine ⟨_, _, by simp only [step, Vec.assign, deref_of h, List.getElem?_eq_getElem hi, spec, hi, if_true]; rfl, ?_⟩
      simp only [spec, hi, if_true]
      refine ⟨⟨?_, by simp [h.2.1], by simpa using h.2.2⟩, by simpa using hN, rfl, ?_, by simp⟩
      · simp only [List.take_set, h.1, List.map_set]
      · simp only [makes, List.append_assoc]
        have hp : (xs.set i x ++ [xs[i]]).Perm (xs ++ [x]) := by
          have e : xs = xs.take i ++ xs[i] :: xs.drop (i + 1) := by simp
          have e' : xs.set i x = xs.take i ++ x :: xs.drop (i + 1) := by
            rw [List.set_eq_take_append_cons_drop, if_pos hi]
          rw [e']
          conv => rhs; rw [e]
          simp only [List.append_assoc, List.cons_append]
          refine List.Perm.append_left _ ?_
          have a1 : (x :: (xs.drop (i + 1) ++ [xs[i]])).Perm (x :: xs[i] :: xs.drop (i + 1)) :=
            List.Perm.cons _ (List.perm_append_singleton _ _)
          have a2 : (xs[i] :: (xs.drop (i + 1) ++ [x])).Perm (xs[i] :: x :: xs.drop (i + 1)) :=
            List.Perm.cons _ (List.perm_append_singleton _ _)
          exact a1.trans ((List.Perm.swap _ _ _).trans a2.symm)
        have b1 : (xs.set i x ++ (l.moved ++ (l.dropped ++ [xs[i]]))).Perm ((xs.set i x ++ [xs[i]]) ++ (l.moved ++ l.dropped)) := by
          simp only [List.append_assoc]
          refine List.Perm.append_left _ ?_
          rw [← List.append_assoc]
          exact List.perm_append_comm
        have b2 : (xs ++ (l.moved ++ (l.dropped ++ [x]))).Perm ((xs ++ [x]) ++ (l.moved ++ l.dropped)) := by
          simp only [List.append_assoc]
          refine List.Perm.append_left _ ?_
          rw [← List.append_assoc]
          exact List.perm_append_comm
        exact b1.trans ((List.Perm.append_right _ hp).trans b2.symm)
    · refine ⟨v, _, by
        simp only [step, Vec.assign, deref_of h, List.getElem?_eq_none (Nat.le_of_not_lt hi), spec, hi, if_false]; rfl, ?_⟩
      simp only [spec, hi, if_false]
      exact ⟨h, hN, rfl, by simp [makes], by simp⟩
  | read => exact ⟨v, l, by simp [step, deref_of h, spec], h, hN, by simp [makes], by simp [spec, makes], by simp [spec]⟩
  | clone f =>
    obtain ⟨c1, c2⟩ := cloneLoop_of f xs (.default v.buf.length) [] l (holds_default _)
      (by have := h.2.1; have := h.2.2; simp [Vec.default]; omega)
    cases hc : (copies f xs).2 with
    | true =>
      obtain ⟨w, w1, w2, w3⟩ := c1 hc
      refine ⟨w, _, by simp only [step, Vec.clone, deref_of h, w3, drop_of h, spec, hc, if_true]; rfl, ?_⟩
      simp only [spec, hc, if_true]
      refine ⟨by simpa using w1, by rw [w2]; simp [Vec.default, hN], by simp [makes], ?_, by simp⟩
      simp only [makes]
      have b1 : ((copies f xs).1 ++ l.moved ++ (l.dropped ++ xs)).Perm (l.moved ++ (l.dropped ++ xs) ++ (copies f xs).1) := by
        rw [List.append_assoc]; exact List.perm_append_comm
      refine b1.trans (List.Perm.append_right _ ?_)
      rw [← List.append_assoc]
      exact List.perm_append_comm.trans (by simp)
    | false =>
      obtain ⟨w, w1⟩ := c2 hc
      refine ⟨v, _, by simp only [step, Vec.clone, deref_of h, w1, spec, hc, Bool.false_eq_true, if_false]; rfl, ?_⟩
      simp only [spec, hc, Bool.false_eq_true, if_false]
      exact ⟨h, hN, by simp [makes], by simp [makes], by simp⟩

end ArrayVec

open ArrayVec (Holds spec specRun makes makesRun copies)

/-- C62: whatever safe code does with the vector of fixed capacity that buffers use without an allocator, memory that is
not initialized is not read, what is seen is what a list of at most `N` values gives, and when the vector is dropped every
value that was made has been dropped once or moved out to the caller once, not both. -/
theorem C62_unwind (N : Nat) (os : List Op) :
    ∃ v l l', ArrayVec.run (.default N) {} os = some ((specRun N [] os).1, v, l) ∧
      v.deref = some (some (specRun N [] os).2) ∧ (specRun N [] os).2.length ≤ N ∧
      l.made = makesRun N [] os ∧
      l.moved = (specRun N [] os).1.filterMap (fun | .popped x => x | _ => none) ∧
      v.drop l = some l' ∧ l'.made = l.made ∧ l'.moved = l.moved ∧ (l'.moved ++ l'.dropped).Perm l'.made := by
  have key : ∀ (os : List Op) (v : Vec) (xs : List Nat) (l : Ledger), Holds v xs → v.buf.length = N →
      ∃ v' l', ArrayVec.run v l os = some ((specRun N xs os).1, v', l') ∧ Holds v' (specRun N xs os).2 ∧ v'.buf.length = N ∧
        l'.made = l.made ++ makesRun N xs os ∧
        l'.moved = l.moved ++ (specRun N xs os).1.filterMap (fun | .popped x => x | _ => none) ∧
        ((specRun N xs os).2 ++ l'.moved ++ l'.dropped).Perm (xs ++ l.moved ++ l.dropped ++ makesRun N xs os) := by
    intro os
    induction os with
    | nil => intro v xs l h hN; exact ⟨v, l, by simp [ArrayVec.run, specRun], h, hN, by simp [makesRun], by simp [specRun],
        by simp [specRun, makesRun]⟩
    | cons o os ih =>
      intro v xs l h hN
      obtain ⟨v1, l1, e1, h1, n1, m1, p1, q1⟩ := ArrayVec.step_of h hN l o
      obtain ⟨v2, l2, e2, h2, n2, m2, q2, p2⟩ := ih v1 _ l1 h1 n1
      refine ⟨v2, l2, by simp [ArrayVec.run, e1, e2, specRun], h2, n2, by simp [m2, m1, makesRun], ?_, ?_⟩
      · rw [q2, q1, specRun, List.filterMap_cons, List.append_assoc]
        congr 1
        cases (spec N xs o).1 with
        | popped x => cases x <;> rfl
        | _ => rfl
      · refine p2.trans ((List.Perm.append_right _ p1).trans ?_)
        simp [makesRun]
  obtain ⟨v, l, e, h, n, m, q, p⟩ := key os (.default N) [] {} (ArrayVec.holds_default N) (by simp [Vec.default])
  refine ⟨v, l, _, e, ArrayVec.deref_of h, ?_, by simpa using m, by simpa using q, ArrayVec.drop_of h l, rfl, rfl, ?_⟩
  · have := h.2.1; have := h.2.2; omega
  · rw [m]
    refine List.Perm.trans ?_ (p.trans (by simp))
    simp only []
    rw [← List.append_assoc]
    exact List.perm_append_comm.trans (by simp)

/-- The tests of the project, `buffer/src/value.rs:1461-1499`, and a copy. -/
example : ArrayVec.run (.default 2) {} [.pop, .push 1, .push 2, .push 3, .read, .clone (fun x => some (x + 10)), .pop, .assign 0 7,
      .clone (fun _ => none), .push 5, .clear, .push 8] =
    some ([.popped none, .pushed true, .pushed true, .pushed false, .slice [1, 2], .unit, .popped (some 12), .unit,
      .panicked, .pushed true, .unit, .pushed true], { buf := [.init 8, .uninit], len := 1 },
      { made := [1, 2, 3, 11, 12, 7, 5, 8], moved := [12], dropped := [3, 1, 2, 11, 7, 5] }) := by decide +kernel

end Sval
