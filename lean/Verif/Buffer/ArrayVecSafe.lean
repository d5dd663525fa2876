import Verif.Buffer.ArrayVec

set_option autoImplicit false

/-!
# The vector of fixed capacity is a list of bounded length

`Spec` is a list; no memory in it.
-/

namespace Sval.Buf.AV

variable {α : Type}

/-- A list, what was taken from it, what was dropped, and all the values there ever were. -/
structure Spec (α : Type) where
  items : List α := []
  out : List α := []
  dropped : List α := []
  made : List α := []

/-- What an operation should do to the list. -/
def Spec.step (N : Nat) (s : Spec α) : Op α → Spec α
  | .push a =>
    if s.items.length < N then { s with items := s.items ++ [a], made := s.made ++ [a] }
    else { s with dropped := s.dropped ++ [a], made := s.made ++ [a] }
  | .pop => { s with items := s.items.dropLast, out := s.out ++ s.items.getLast?.toList }
  | .clear => { s with items := [], dropped := s.dropped ++ s.items }
  | .set i a =>
    match s.items[i]? with
    | some old => { s with items := s.items.set i a, dropped := s.dropped ++ [old], made := s.made ++ [a] }
    | none => { s with dropped := s.dropped ++ [a], made := s.made ++ [a] }
  | .clone f => { s with items := s.items.map f, dropped := s.dropped ++ s.items, made := s.made ++ s.items.map f }

/-- The list after operations, from an empty one. -/
def Spec.run (N : Nat) (ops : List (Op α)) : Spec α := ops.foldl (Spec.step N) {}

/-- The slots hold the list, and nothing else. -/
structure Holds (N : Nat) (v : Vec α) (l : List α) (R : List (Slot α)) : Prop where
  len : v.len = l.length
  size : l.length + R.length = N
  buf : v.buf = l.map .live ++ R
  rest : ∀ s ∈ R, ∀ a, s ≠ .live a
  leaked : v.leaked = []

theorem assumeInit_live (l : List α) : assumeInit (l.map Slot.live) = .ok l := by
  induction l with
  | nil => rfl
  | cons a l ih => simp [assumeInit, ih, Run.bind]

theorem Holds.deref {N : Nat} {v : Vec α} {l : List α} {R : List (Slot α)} (h : Holds N v l R) : deref v = .ok l := by
  simp [AV.deref, h.len, h.buf, assumeInit_live]

theorem Holds.forgotten {N : Nat} {v : Vec α} {l : List α} {R : List (Slot α)} (h : Holds N v l R) : forgotten v = [] := by
  simp only [AV.forgotten, h.leaked, List.nil_append, List.filterMap_eq_nil_iff, h.len, h.buf]
  intro s hs
  have := h.rest s (by simpa using hs)
  cases s with
  | live a => exact absurd rfl (this a)
  | _ => rfl

theorem holds_new (N : Nat) : Holds N (new N : Vec α) [] (List.replicate N .uninit) :=
  { len := rfl, size := by simp, buf := rfl,
    rest := by intro s hs a e; subst e; simp at hs, leaked := rfl }

theorem Holds.push {N : Nat} {v : Vec α} {l : List α} {R : List (Slot α)} (h : Holds N v l R) (a : α) :
    (l.length < N ∧ ∃ v' R', push N v a = .ok (v', true) ∧ Holds N v' (l ++ [a]) R') ∨
    (¬ l.length < N ∧ push N v a = .ok (v, false)) := by
  have hs := h.size
  cases R with
  | nil =>
    simp only [List.length_nil, Nat.add_zero] at hs
    exact .inr ⟨by omega, by simp [AV.push, h.len, hs]⟩
  | cons r R =>
    simp only [List.length_cons] at hs
    have hr := h.rest r (by simp)
    refine .inl ⟨by omega, { v with buf := v.buf.set l.length (.live a), len := l.length + 1 }, R, ?_, ?_⟩
    · have e : v.buf[l.length]? = some r := by simp [h.buf]
      cases r with
      | live b => exact absurd rfl (hr b)
      | uninit => simp [AV.push, h.len, show ¬ l.length = N by omega, e]
      | moved b => simp [AV.push, h.len, show ¬ l.length = N by omega, e]
    · exact ⟨by simp, by simp; omega, by simp [h.buf], fun s hs => h.rest s (by simp [hs]), h.leaked⟩

theorem Holds.pop {N : Nat} {v : Vec α} {l : List α} {R : List (Slot α)} (h : Holds N v l R) :
    ∃ v' R', pop v = .ok (v', l.getLast?) ∧ Holds N v' l.dropLast R' := by
  rcases List.eq_nil_or_concat l with rfl | ⟨l, a, rfl⟩
  · refine ⟨v, R, ?_, h⟩
    simp [AV.pop, h.len]
  · rw [List.concat_eq_append] at h ⊢
    have hl : v.len = l.length + 1 := by rw [h.len]; simp
    have e : v.buf[l.length]? = some (.live a) := by simp [h.buf]
    have hs := h.size
    refine ⟨{ v with buf := v.buf.set l.length (.moved a), len := l.length }, .moved a :: R, ?_, ?_⟩
    · simp [AV.pop, hl, e]
    · refine ⟨by simp, by simp at hs ⊢; omega, by simp [h.buf], ?_, h.leaked⟩
      intro s hs b
      simp only [List.mem_cons] at hs
      rcases hs with rfl | hs
      · simp
      · exact h.rest s hs b

theorem Holds.set {N : Nat} {v : Vec α} {l : List α} {R : List (Slot α)} (h : Holds N v l R) (i : Nat) (a : α) :
    ∃ v' R', set v i a = .ok (v', l[i]?) ∧ Holds N v' (l.set i a) R' := by
  by_cases hi : i < l.length
  · refine ⟨{ v with buf := v.buf.set i (.live a) }, R, ?_, ?_⟩
    · simp [AV.set, h.deref, Run.bind, List.getElem?_eq_getElem hi]
    · refine ⟨by simp [h.len], by simp [h.size], ?_, h.rest, h.leaked⟩
      simp [h.buf, hi, List.map_set]
  · refine ⟨v, R, ?_, ?_⟩
    · simp [AV.set, h.deref, Run.bind, List.getElem?_eq_none (Nat.le_of_not_lt hi)]
    · rwa [List.set_eq_of_length_le (Nat.le_of_not_lt hi)]

theorem Holds.pushAll {N : Nat} (m : List α) : ∀ {v : Vec α} {l : List α} {R : List (Slot α)}, Holds N v l R →
    l.length + m.length ≤ N → ∃ v' R', pushAll N m v = .ok v' ∧ Holds N v' (l ++ m) R' := by
  induction m with
  | nil => intro v l R h _; exact ⟨v, R, rfl, by simpa using h⟩
  | cons a m ih =>
    intro v l R h hn
    simp only [List.length_cons] at hn
    rcases h.push a with ⟨_, v', R', h1, h2⟩ | ⟨h1, _⟩
    · obtain ⟨v'', R'', h3, h4⟩ := ih h2 (by simp; omega)
      exact ⟨v'', R'', by simp [AV.pushAll, h1, Run.bind, h3], by simpa using h4⟩
    · omega

theorem Holds.clone {N : Nat} {v : Vec α} {l : List α} {R : List (Slot α)} (h : Holds N v l R) (f : α → α) :
    ∃ v' R', clone N f v = .ok v' ∧ Holds N v' (l.map f) R' := by
  have hs := h.size
  obtain ⟨v', R', h1, h2⟩ := (holds_new N).pushAll (l.map f) (by simp; omega)
  exact ⟨v', R', by simp [AV.clone, h.deref, Run.bind, h1], by simpa using h2⟩

theorem step_spec {N : Nat} {s : St α} {q : Spec α} {R : List (Slot α)} (h : Holds N s.vec q.items R) (ho : s.out = q.out)
    (hd : s.dropped = q.dropped) (o : Op α) :
    ∃ s' R', step N s o = .ok s' ∧ Holds N s'.vec (q.step N o).items R' ∧ s'.out = (q.step N o).out ∧
      s'.dropped = (q.step N o).dropped := by
  cases o with
  | push a =>
    rcases h.push a with ⟨hn, v', R', h1, h2⟩ | ⟨hn, h1⟩
    · exact ⟨_, R', by simp [step, h1, Run.bind]; rfl, by simpa [Spec.step, hn] using h2, by simp [Spec.step, hn, ho],
        by simp [Spec.step, hn, hd]⟩
    · exact ⟨_, R, by simp [step, h1, Run.bind]; rfl, by simpa [Spec.step, hn] using h, by simp [Spec.step, hn, ho],
        by simp [Spec.step, hn, hd]⟩
  | pop =>
    obtain ⟨v', R', h1, h2⟩ := h.pop
    exact ⟨_, R', by simp [step, h1, Run.bind]; rfl, h2, by simp [Spec.step, ho], by simp [Spec.step, hd]⟩
  | clear =>
    refine ⟨_, _, by simp [step, AV.clear, AV.drop, h.deref, Run.bind, h.forgotten]; rfl, holds_new N, ?_, ?_⟩
    · simp [Spec.step, ho]
    · simp [Spec.step, hd]
  | set i a =>
    obtain ⟨v', R', h1, h2⟩ := h.set i a
    refine ⟨_, R', by simp [step, h1, Run.bind]; rfl, ?_⟩
    cases e : q.items[i]? with
    | some old => simp only [Spec.step, e]; exact ⟨h2, ho, by simp [hd]⟩
    | none =>
      have hi : q.items.length ≤ i := by simpa using e
      rw [List.set_eq_of_length_le hi] at h2
      simp only [Spec.step, e]
      exact ⟨h2, ho, by simp [hd]⟩
  | clone f =>
    obtain ⟨v', R', h1, h2⟩ := h.clone f
    refine ⟨_, R', by simp [step, h1, Run.bind, AV.drop, h.deref]; rfl, ?_, by simp [Spec.step, ho], by simp [Spec.step, hd]⟩
    simp only [Spec.step, h.forgotten, h2.leaked, List.append_nil]
    exact ⟨h2.len, h2.size, h2.buf, h2.rest, rfl⟩

theorem run_spec {N : Nat} (ops : List (Op α)) : ∀ {s : St α} {q : Spec α} {R : List (Slot α)}, Holds N s.vec q.items R →
    s.out = q.out → s.dropped = q.dropped →
    ∃ s' R', run N ops s = .ok s' ∧ Holds N s'.vec (ops.foldl (Spec.step N) q).items R' ∧
      s'.out = (ops.foldl (Spec.step N) q).out ∧ s'.dropped = (ops.foldl (Spec.step N) q).dropped := by
  induction ops with
  | nil => intro s q R h ho hd; exact ⟨s, R, rfl, h, ho, hd⟩
  | cons o ops ih =>
    intro s q R h ho hd
    obtain ⟨s', R', h1, h2, h3, h4⟩ := step_spec h ho hd o
    obtain ⟨s'', R'', h5⟩ := ih h2 h3 h4
    exact ⟨s'', R'', by simp [run, h1, Run.bind, h5], h5.2⟩

theorem set_perm {l : List α} : ∀ {i : Nat} {old : α} (a : α), l[i]? = some old → (l ++ [a]).Perm (l.set i a ++ [old]) := by
  induction l with
  | nil => intro i old a h; simp at h
  | cons b l ih =>
    intro i old a h
    cases i with
    | zero =>
      simp only [List.getElem?_cons_zero, Option.some.injEq] at h
      subst h
      simp only [List.set_cons_zero, List.cons_append]
      exact (List.perm_append_singleton a l).cons b |>.trans (.swap a b l) |>.trans
        ((List.perm_append_singleton b l).symm.cons a)
    | succ i =>
      simp only [List.getElem?_cons_succ] at h
      simpa using ih a h

open Classical in
/-- No value is lost, and none is there twice. -/
theorem perm_step {N : Nat} {q : Spec α} (h : q.made.Perm (q.items ++ (q.out ++ q.dropped))) (o : Op α) :
    (q.step N o).made.Perm ((q.step N o).items ++ ((q.step N o).out ++ (q.step N o).dropped)) := by
  have hc := fun x => List.perm_iff_count.1 h x
  rw [List.perm_iff_count]
  intro x
  have hx := hc x
  simp only [List.count_append] at hx
  cases o with
  | push a =>
    simp only [Spec.step]
    split <;> simp only [List.count_append] <;> omega
  | pop =>
    simp only [Spec.step, List.count_append]
    rcases List.eq_nil_or_concat q.items with e | ⟨l, a, e⟩
    · simp [e] at hx ⊢; omega
    · rw [List.concat_eq_append] at e
      simp only [e, List.count_append] at hx
      simp only [e, List.dropLast_concat, List.getLast?_concat, Option.toList]
      omega
  | clear => simp only [Spec.step, List.count_append, List.count_nil]; omega
  | set i a =>
    simp only [Spec.step]
    split
    · rename_i old e
      have := List.perm_iff_count.1 (set_perm a e) x
      simp only [List.count_append] at this ⊢
      omega
    · simp only [List.count_append]; omega
  | clone f => simp only [Spec.step, List.count_append]; omega

theorem perm_run {N : Nat} (ops : List (Op α)) : ∀ {q : Spec α}, q.made.Perm (q.items ++ (q.out ++ q.dropped)) →
    (ops.foldl (Spec.step N) q).made.Perm ((ops.foldl (Spec.step N) q).items ++
      ((ops.foldl (Spec.step N) q).out ++ (ops.foldl (Spec.step N) q).dropped)) := by
  induction ops with
  | nil => intro q h; exact h
  | cons o ops ih => intro q h; exact ih (perm_step h o)

end Sval.Buf.AV
