import Verif.Core.Data

set_option autoImplicit false

/-!
# `Label` with its raw pointers

`src/data.rs:29-42` stores a raw pointer `value_computed` and an owned box as another raw pointer.
This file models the heap those pointers go into, and what safe code can do with labels.

Labels that are alive are numbered in the order they are created. Safe code is constrained by the
borrow checker: a label made with `Label::new_computed(other.as_str())` keeps `other` borrowed, so
`other` can be neither dropped nor moved while it lives. That is `lender`. Memory other than labels
that computed labels borrow from is assumed to stay alive, which is what the borrow checker
guarantees for it. `mem::forget` is not modelled.
-/

namespace Sval.LabelHeap

/-- Where `value_computed` points: to text outside the heap of owned labels, or to a box. -/
inductive Ptr where
  | outside (s : Text)
  | box (a : Nat)
deriving DecidableEq, Repr

/-- `src/data.rs:29-42` `Label`, field by field. `lender` is not a field: it is what the borrow
checker knows. -/
structure RawLabel where
  value : Ptr
  static : Option Text
  owned : Option Nat
  tag : Option Tag
  lender : Option Nat
deriving DecidableEq, Repr

/-- Memory, as far as labels are concerned. -/
structure St where
  /-- boxes that are allocated -/
  heap : Nat → Option Text
  /-- labels that are alive -/
  labels : Nat → Option RawLabel
  /-- number of the next label -/
  next : Nat

/-- No labels and no boxes. -/
def St.init : St := { heap := fun _ => none, labels := fun _ => none, next := 0 }

/-- Change a function in one place. -/
def set {α : Type} (f : Nat → α) (i : Nat) (x : α) : Nat → α := fun j => if j = i then x else f j

/-- Dereference; `none` is undefined behaviour (a dangling pointer). -/
def deref (s : St) : Ptr → Option Text
  | .outside t => some t
  | .box a => s.heap a

/-- `src/data.rs:111-116` `as_str`. -/
def asStr (s : St) (l : RawLabel) : Option Text := deref s l.value

/-- A new label. -/
def St.push (s : St) (l : RawLabel) : St :=
  { s with labels := set s.labels s.next (some l), next := s.next + 1 }

/-- `src/data.rs:605-615` `new_owned`; `a` is the address the allocator returns. -/
def newOwned (s : St) (t : Text) (a : Nat) : St :=
  { s with heap := set s.heap a (some t) }.push
    { value := .box a, static := none, owned := some a, tag := none, lender := none }

/-- What safe code can do with labels: `src/data.rs:81-169, 569-615`. `a` is the address the allocator returns. -/
inductive Op where
  | new (t : Text)
  | newComputed (t : Text)
  | newComputedFrom (i : Nat)
  | newOwned (t : Text) (a : Nat)
  | clone (i : Nat) (a : Nat)
  | toOwned (i : Nat) (a : Nat)
  | withTag (i : Nat) (t : Tag)
  | drop (i : Nat)
deriving Repr

/-- One operation on live labels. `none` is undefined behaviour: reading a box that is not
allocated, or freeing one. -/
def step (s : St) : Op → Option St
  -- `src/data.rs:81-90`
  | .new t => some (s.push { value := .outside t, static := some t, owned := none, tag := none, lender := none })
  -- `src/data.rs:96-105`
  | .newComputed t => some (s.push { value := .outside t, static := none, owned := none, tag := none, lender := none })
  -- `src/data.rs:96-105` applied to `as_str` of another label
  | .newComputedFrom i =>
    match s.labels i with
    | none => some s
    | some l => do
      let _ ← asStr s l
      some (s.push { value := l.value, static := none, owned := none, tag := none, lender := some i })
  | .newOwned t a => some (newOwned s t a)
  -- `src/data.rs:569-584`
  | .clone i a =>
    match s.labels i with
    | none => some s
    | some l =>
      match l.owned with
      | some o => do
        let t ← s.heap o
        some (newOwned s t a)
      | none => some (s.push { value := l.value, static := l.static, owned := none, tag := l.tag, lender := l.lender })
  -- `src/data.rs:592-598`
  | .toOwned i a =>
    match s.labels i with
    | none => some s
    | some l =>
      match l.static with
      | some t => some (s.push { value := .outside t, static := some t, owned := none, tag := none, lender := none })
      | none => do
        let t ← asStr s l
        some (newOwned s t a)
  -- `src/data.rs:135-138`
  | .withTag i t =>
    match s.labels i with
    | none => some s
    | some l => some { s with labels := set s.labels i (some { l with tag := some t }) }
  -- `src/data.rs:44-54`
  | .drop i =>
    match s.labels i with
    | none => some s
    | some l =>
      match l.owned with
      | none => some { s with labels := set s.labels i none }
      | some a =>
        match s.heap a with
        | none => none
        | some _ => some { s with labels := set s.labels i none, heap := set s.heap a none }

/-- What the compiler and the allocator guarantee about an operation: it names a live label, a
label that is borrowed is neither moved nor dropped, and a new box is at an address not in use
(addresses may be reused after a free). -/
def Legal (s : St) : Op → Prop
  | .new _ | .newComputed _ => True
  | .newComputedFrom i => s.labels i ≠ none
  | .newOwned _ a => s.heap a = none
  | .clone i a => s.labels i ≠ none ∧ s.heap a = none
  | .toOwned i a => s.labels i ≠ none ∧ s.heap a = none
  | .withTag i _ | .drop i =>
    s.labels i ≠ none ∧ ∀ j l, s.labels j = some l → l.lender ≠ some i

/-- A legal history of operations. -/
inductive Reach : List Op → St → Prop
  | init : Reach [] .init
  | step {ops s op s'} : Reach ops s → Legal s op → step s op = some s' → Reach (ops ++ [op]) s'

/-- Specification: labels as plain values, with no pointers. -/
structure Spec where
  labels : Nat → Option Label
  next : Nat

/-- No labels. -/
def Spec.init : Spec := { labels := fun _ => none, next := 0 }
def Spec.push (s : Spec) (l : Label) : Spec := { labels := set s.labels s.next (some l), next := s.next + 1 }

/-- What an operation should do. -/
def Spec.step (s : Spec) : Op → Spec
  | .new t => s.push (.new t)
  | .newComputed t => s.push (.newComputed t)
  | .newComputedFrom i => match s.labels i with | none => s | some l => s.push (.newComputed l.text)
  | .newOwned t _ => s.push (.newOwned t)
  | .clone i _ => match s.labels i with | none => s | some l => s.push l.clone
  | .toOwned i _ => match s.labels i with | none => s | some l => s.push l.toOwned
  | .withTag i t => match s.labels i with | none => s | some l => { s with labels := set s.labels i (some (l.withTag t)) }
  | .drop i => { s with labels := set s.labels i none }

/-- Operations one after the other. -/
def Spec.run : List Op → Spec → Spec
  | [], s => s
  | op :: ops, s => Spec.run ops (s.step op)

/-- What a label looks like to safe code. -/
def view (s : St) (l : RawLabel) : Option Label := do
  let t ← asStr s l
  some { text := t, tag := l.tag,
         backing := if l.static.isSome then .static else if l.owned.isSome then .owned else .computed }

/-! ## Invariant -/

/-- The pointers of a label are right. -/
structure LabelOk (s : St) (i : Nat) (l : RawLabel) : Prop where
  static : ∀ t, l.static = some t → l.value = .outside t ∧ l.owned = none
  owned : ∀ a, l.owned = some a → l.value = .box a ∧ s.heap a ≠ none ∧ l.lender = none
  lender : ∀ j, l.lender = some j → j < i ∧ ∃ m, s.labels j = some m ∧ l.value = m.value
  outside : l.owned = none → l.lender = none → ∃ t, l.value = .outside t

/-- All pointers are right, every box has one owner, and there are no boxes without one. -/
structure Inv (s : St) : Prop where
  ok : ∀ i l, s.labels i = some l → LabelOk s i l
  fresh : ∀ i l, s.labels i = some l → i < s.next
  uniq : ∀ i j l m a, s.labels i = some l → s.labels j = some m → l.owned = some a → m.owned = some a → i = j
  noLeak : ∀ a, s.heap a ≠ none → ∃ i l, s.labels i = some l ∧ l.owned = some a

theorem Inv.init : Inv .init := by
  constructor <;> simp [St.init]

/-- A label that points into a box has a live owner, and unless it is the owner, something alive
borrows directly from the owner. -/
theorem Inv.owner {s : St} (h : Inv s) (i : Nat) : ∀ l a, s.labels i = some l → l.value = .box a →
    ∃ o m, s.labels o = some m ∧ m.owned = some a ∧
      (o = i ∨ ∃ j k, s.labels j = some k ∧ k.lender = some o) := by
  induction i using Nat.strongRecOn with
  | ind i ih =>
    intro l a hl hv
    have ok := h.ok i l hl
    cases ho : l.owned with
    | some b =>
      have := (ok.owned b ho).1
      rw [hv] at this
      cases this
      exact ⟨i, l, hl, ho, Or.inl rfl⟩
    | none =>
      cases hd : l.lender with
      | none =>
        obtain ⟨t, ht⟩ := ok.outside ho hd
        rw [hv] at ht; cases ht
      | some j =>
        obtain ⟨hj, m, hm, hvm⟩ := ok.lender j hd
        obtain ⟨o, mo, h1, h2, h3⟩ := ih j hj m a hm (by rw [← hvm, hv])
        refine ⟨o, mo, h1, h2, Or.inr ?_⟩
        rcases h3 with h3 | h3
        · subst h3; exact ⟨i, l, hl, hd⟩
        · exact h3

/-- Every live label can be read. -/
theorem Inv.readable {s : St} (h : Inv s) {i : Nat} {l : RawLabel} (hl : s.labels i = some l) :
    ∃ t, asStr s l = some t := by
  cases hv : l.value with
  | outside t => exact ⟨t, by simp [asStr, hv, deref]⟩
  | box a =>
    obtain ⟨o, m, h1, h2, _⟩ := h.owner i l a hl hv
    have := ((h.ok o m h1).owned a h2).2.1
    cases ht : s.heap a with
    | none => exact absurd ht this
    | some t => exact ⟨t, by simp [asStr, hv, deref, ht]⟩

theorem set_same {α : Type} (f : Nat → α) (i : Nat) (x : α) : set f i x i = x := by simp [set]
theorem set_ne {α : Type} (f : Nat → α) {i j : Nat} (x : α) (h : j ≠ i) : set f i x j = f j := by
  simp [set, h]

theorem push_labels {s : St} {l : RawLabel} {i : Nat} {m : RawLabel} (h : (s.push l).labels i = some m) :
    (i = s.next ∧ m = l) ∨ (i ≠ s.next ∧ s.labels i = some m) := by
  by_cases hi : i = s.next
  · subst hi
    simp only [St.push, set_same, Option.some.injEq] at h
    exact Or.inl ⟨rfl, h.symm⟩
  · simp only [St.push, set_ne _ _ hi] at h
    exact Or.inr ⟨hi, h⟩

theorem push_old {s : St} (h : Inv s) (l : RawLabel) {i : Nat} {m : RawLabel} (hm : s.labels i = some m) :
    (s.push l).labels i = some m := by
  have := h.fresh i m hm
  simp only [St.push]
  rw [set_ne _ _ (by omega)]; exact hm

/-- Pushing a label that owns nothing. -/
theorem Inv.push {s : St} (h : Inv s) (l : RawLabel) (ho : l.owned = none)
    (h1 : ∀ t, l.static = some t → l.value = .outside t)
    (h2 : ∀ j, l.lender = some j → ∃ m, s.labels j = some m ∧ l.value = m.value)
    (h3 : l.lender = none → ∃ t, l.value = .outside t) : Inv (s.push l) := by
  constructor
  · intro i m hm
    rcases push_labels hm with ⟨rfl, rfl⟩ | ⟨hi, hm'⟩
    · refine ⟨fun t ht => ⟨h1 t ht, ho⟩, by simp [ho], ?_, fun _ => h3⟩
      intro j hj
      obtain ⟨k, hk, hv⟩ := h2 j hj
      exact ⟨h.fresh j k hk, k, push_old h m hk, hv⟩
    · have ok := h.ok i m hm'
      refine ⟨ok.static, ok.owned, ?_, ok.outside⟩
      intro j hj
      obtain ⟨hji, k, hk, hv⟩ := ok.lender j hj
      exact ⟨hji, k, push_old h l hk, hv⟩
  · intro i m hm
    show i < s.next + 1
    rcases push_labels hm with ⟨rfl, rfl⟩ | ⟨hi, hm'⟩
    · omega
    · have := h.fresh i m hm'; omega
  · intro i j m k a hi hj hm hk
    rcases push_labels hi with ⟨rfl, rfl⟩ | ⟨_, hi'⟩
    · simp [ho] at hm
    · rcases push_labels hj with ⟨rfl, rfl⟩ | ⟨_, hj'⟩
      · simp [ho] at hk
      · exact h.uniq i j m k a hi' hj' hm hk
  · intro a ha
    obtain ⟨i, m, hm, hma⟩ := h.noLeak a ha
    exact ⟨i, m, push_old h l hm, hma⟩

theorem Inv.newOwned {s : St} (h : Inv s) (t : Text) (a : Nat) (ha : s.heap a = none) :
    Inv (newOwned s t a) := by
  have old : ∀ (l : RawLabel) {i : Nat} {m : RawLabel}, s.labels i = some m →
      (({ s with heap := set s.heap a (some t) } : St).push l).labels i = some m := by
    intro l i m hm
    have := h.fresh i m hm
    simp only [St.push]
    rw [set_ne _ _ (by omega)]; exact hm
  have keep : ∀ b, s.heap b ≠ none → set s.heap a (some t) b ≠ none := by
    intro b hb
    by_cases hba : b = a
    · subst hba; exact absurd ha hb
    · rw [set_ne _ _ hba]; exact hb
  have notOwned : ∀ i m, s.labels i = some m → m.owned ≠ some a := by
    intro i m hm hma
    exact ((h.ok i m hm).owned a hma).2.1 ha
  constructor
  · intro i m hm
    rcases push_labels hm with ⟨rfl, rfl⟩ | ⟨hi, hm'⟩
    · refine ⟨by simp, ?_, by simp, by simp⟩
      intro b hb
      simp only [Option.some.injEq] at hb
      subst hb
      refine ⟨rfl, ?_, rfl⟩
      show set s.heap _ (some t) _ ≠ none
      rw [set_same]; simp
    · have ok := h.ok i m hm'
      refine ⟨ok.static, ?_, ?_, ok.outside⟩
      · intro b hb
        obtain ⟨o1, o2, o3⟩ := ok.owned b hb
        exact ⟨o1, keep b o2, o3⟩
      · intro j hj
        obtain ⟨hji, k, hk, hv⟩ := ok.lender j hj
        exact ⟨hji, k, old _ hk, hv⟩
  · intro i m hm
    show i < s.next + 1
    rcases push_labels hm with ⟨rfl, rfl⟩ | ⟨hi, hm'⟩
    · show s.next < s.next + 1; omega
    · have := h.fresh i m hm'; omega
  · intro i j m k b hi hj hm hk
    rcases push_labels hi with ⟨rfl, rfl⟩ | ⟨_, hi'⟩
    · rcases push_labels hj with ⟨rfl, rfl⟩ | ⟨_, hj'⟩
      · rfl
      · simp only [Option.some.injEq] at hm
        subst hm
        exact absurd hk (notOwned j k hj')
    · rcases push_labels hj with ⟨rfl, rfl⟩ | ⟨_, hj'⟩
      · simp only [Option.some.injEq] at hk
        subst hk
        exact absurd hm (notOwned i m hi')
      · exact h.uniq i j m k b hi' hj' hm hk
  · intro b hb
    by_cases hba : b = a
    · subst hba
      exact ⟨s.next, _, set_same _ _ _, rfl⟩
    · have hb' : s.heap b ≠ none := by
        have : set s.heap a (some t) b ≠ none := hb
        rwa [set_ne _ _ hba] at this
      obtain ⟨i, m, hm, hma⟩ := h.noLeak b hb'
      exact ⟨i, m, old _ hm, hma⟩

/-- Retagging a label nobody borrows. -/
theorem Inv.withTag {s : St} (h : Inv s) {i : Nat} {l : RawLabel} (hl : s.labels i = some l) (t : Tag) :
    Inv { s with labels := set s.labels i (some { l with tag := some t }) } := by
  have back : ∀ {j m}, set s.labels i (some { l with tag := some t }) j = some m →
      ∃ m', s.labels j = some m' ∧ m'.value = m.value ∧ m'.static = m.static ∧ m'.owned = m.owned ∧
        m'.lender = m.lender := by
    intro j m hm
    by_cases hj : j = i
    · subst hj
      rw [set_same] at hm
      cases hm
      exact ⟨l, hl, rfl, rfl, rfl, rfl⟩
    · rw [set_ne _ _ hj] at hm
      exact ⟨m, hm, rfl, rfl, rfl, rfl⟩
  have fwd : ∀ {j m}, s.labels j = some m → ∃ m', set s.labels i (some { l with tag := some t }) j = some m' ∧
      m'.value = m.value ∧ m'.owned = m.owned := by
    intro j m hm
    by_cases hj : j = i
    · subst hj
      rw [hl] at hm; cases hm
      exact ⟨_, set_same _ _ _, rfl, rfl⟩
    · exact ⟨m, by rw [set_ne _ _ hj]; exact hm, rfl, rfl⟩
  constructor
  · intro j m hm
    obtain ⟨m', hm', e1, e2, e3, e4⟩ := back hm
    have ok := h.ok j m' hm'
    constructor
    · intro t; rw [← e1, ← e2, ← e3]; exact ok.static t
    · intro a; rw [← e1, ← e3, ← e4]; exact ok.owned a
    · intro k; rw [← e4]; intro hk
      obtain ⟨hlt, q, hq, hv⟩ := ok.lender k hk
      obtain ⟨q', hq', ev, _⟩ := fwd hq
      exact ⟨hlt, q', hq', by rw [← e1, hv, ev]⟩
    · rw [← e1, ← e3, ← e4]; exact ok.outside
  · intro j m hm
    obtain ⟨m', hm', _⟩ := back hm
    exact h.fresh j m' hm'
  · intro j k m q a hm hq ho1 ho2
    obtain ⟨m', hm', _, _, e3, _⟩ := back hm
    obtain ⟨q', hq', _, _, f3, _⟩ := back hq
    exact h.uniq j k m' q' a hm' hq' (by rw [e3]; exact ho1) (by rw [f3]; exact ho2)
  · intro a ha
    obtain ⟨j, m, hm, hma⟩ := h.noLeak a ha
    obtain ⟨m', hm', _, e⟩ := fwd hm
    exact ⟨j, m', hm', by rw [e]; exact hma⟩

theorem drop_labels {s : St} {i j : Nat} {m : RawLabel} (h : set s.labels i none j = some m) :
    j ≠ i ∧ s.labels j = some m := by
  by_cases hj : j = i
  · subst hj; rw [set_same] at h; cases h
  · rw [set_ne _ _ hj] at h; exact ⟨hj, h⟩

/-- Dropping a label nobody borrows; `H` is the heap afterwards. -/
theorem Inv.drop {s : St} (h : Inv s) {i : Nat} {l : RawLabel} (hl : s.labels i = some l)
    (hb : ∀ j m, s.labels j = some m → m.lender ≠ some i) (H : Nat → Option Text)
    (hH : ∀ a, (l.owned = some a → H a = none) ∧ (l.owned ≠ some a → H a = s.heap a)) :
    Inv { s with labels := set s.labels i none, heap := H } := by
  constructor
  · intro j m hm
    obtain ⟨hj, hm'⟩ := drop_labels hm
    have ok := h.ok j m hm'
    refine ⟨ok.static, ?_, ?_, ok.outside⟩
    · intro a ha
      obtain ⟨o1, o2, o3⟩ := ok.owned a ha
      refine ⟨o1, ?_, o3⟩
      have hne : l.owned ≠ some a := fun e => hj (h.uniq j i m l a hm' hl ha e)
      show H a ≠ none
      rw [(hH a).2 hne]; exact o2
    · intro k hk
      obtain ⟨hlt, q, hq, hv⟩ := ok.lender k hk
      refine ⟨hlt, q, ?_, hv⟩
      show set s.labels i none k = some q
      rw [set_ne]
      · exact hq
      · rintro rfl; exact hb j m hm' hk
  · intro j m hm
    exact h.fresh j m (drop_labels hm).2
  · intro j k m q a hm hq ho1 ho2
    exact h.uniq j k m q a (drop_labels hm).2 (drop_labels hq).2 ho1 ho2
  · intro a ha
    have hne : l.owned ≠ some a := fun e => ha ((hH a).1 e)
    have ha' : s.heap a ≠ none := by rw [← (hH a).2 hne]; exact ha
    obtain ⟨j, m, hm, hma⟩ := h.noLeak a ha'
    refine ⟨j, m, ?_, hma⟩
    show set s.labels i none j = some m
    rw [set_ne]
    · exact hm
    · rintro rfl; rw [hl] at hm; cases hm; exact hne hma

/-- A legal operation is never undefined behaviour and keeps the invariant. -/
theorem Inv.step {s : St} (h : Inv s) (op : Op) (hop : Legal s op) :
    ∃ s', LabelHeap.step s op = some s' ∧ Inv s' := by
  cases op with
  | new t => exact ⟨_, rfl, h.push _ rfl (by simp) (by simp) (by simp)⟩
  | newComputed t => exact ⟨_, rfl, h.push _ rfl (by simp) (by simp) (by simp)⟩
  | newComputedFrom i =>
    cases hl : s.labels i with
    | none => exact absurd hl hop
    | some l =>
      obtain ⟨t, ht⟩ := h.readable hl
      refine ⟨_, by simp only [LabelHeap.step, hl, ht]; rfl, h.push _ rfl (by simp) ?_ (by simp)⟩
      intro j hj
      simp only [Option.some.injEq] at hj
      subst hj
      exact ⟨l, hl, rfl⟩
  | newOwned t a => exact ⟨_, rfl, h.newOwned t a hop⟩
  | clone i a =>
    obtain ⟨h1, h2⟩ := hop
    cases hl : s.labels i with
    | none => exact absurd hl h1
    | some l =>
      have ok := h.ok i l hl
      cases ho : l.owned with
      | some o =>
        cases ht : s.heap o with
        | none => exact absurd ht (ok.owned o ho).2.1
        | some t => exact ⟨_, by simp only [LabelHeap.step, hl, ho, ht]; rfl, h.newOwned t a h2⟩
      | none =>
        refine ⟨s.push { value := l.value, static := l.static, owned := none, tag := l.tag, lender := l.lender },
          by simp only [LabelHeap.step, hl, ho], h.push _ rfl ?_ ?_ (ok.outside ho)⟩
        · intro t ht; exact (ok.static t ht).1
        · intro j hj; exact (ok.lender j hj).2
  | toOwned i a =>
    obtain ⟨h1, h2⟩ := hop
    cases hl : s.labels i with
    | none => exact absurd hl h1
    | some l =>
      cases hs : l.static with
      | some t =>
        exact ⟨_, by simp only [LabelHeap.step, hl, hs]; rfl, h.push _ rfl (by simp) (by simp) (by simp)⟩
      | none =>
        obtain ⟨t, ht⟩ := h.readable hl
        exact ⟨_, by simp only [LabelHeap.step, hl, hs, ht]; rfl, h.newOwned t a h2⟩
  | withTag i t =>
    cases hl : s.labels i with
    | none => exact absurd hl hop.1
    | some l => exact ⟨_, by simp only [LabelHeap.step, hl], h.withTag hl t⟩
  | drop i =>
    cases hl : s.labels i with
    | none => exact absurd hl hop.1
    | some l =>
      cases ho : l.owned with
      | none =>
        exact ⟨_, by simp only [LabelHeap.step, hl, ho],
          h.drop hl hop.2 s.heap (fun a => ⟨by simp [ho], fun _ => rfl⟩)⟩
      | some a =>
        cases ht : s.heap a with
        | none => exact absurd ht ((h.ok i l hl).owned a ho).2.1
        | some t =>
          refine ⟨_, by simp only [LabelHeap.step, hl, ho, ht], h.drop hl hop.2 (set s.heap a none) ?_⟩
          intro b
          constructor
          · intro hb; rw [ho] at hb; cases hb; exact set_same _ _ _
          · intro hb; rw [set_ne]; rintro rfl; exact hb ho

theorem Reach.inv {ops : List Op} {s : St} (h : Reach ops s) : Inv s := by
  induction h with
  | init => exact Inv.init
  | step _ hl hs ih =>
    obtain ⟨s'', h1, h2⟩ := ih.step _ hl
    rw [hs] at h1; cases h1; exact h2

/-! ## Refinement -/

/-- The labels of a state look like those of a specification state. -/
def Refines (s : St) (p : Spec) : Prop :=
  p.next = s.next ∧ ∀ i, match s.labels i with
    | none => p.labels i = none
    | some l => ∃ v, view s l = some v ∧ p.labels i = some v

theorem Refines.dead {s : St} {p : Spec} (r : Refines s p) {i : Nat} (h : s.labels i = none) :
    p.labels i = none := by have := r.2 i; rw [h] at this; exact this
theorem Refines.live {s : St} {p : Spec} (r : Refines s p) {i : Nat} {l : RawLabel}
    (h : s.labels i = some l) : ∃ v, view s l = some v ∧ p.labels i = some v := by
  have := r.2 i; rw [h] at this; exact this

theorem Refines.mk' {s : St} {p : Spec} (h1 : p.next = s.next)
    (h2 : ∀ i, s.labels i = Option.none → p.labels i = Option.none)
    (h3 : ∀ i l, s.labels i = some l → ∃ v, view s l = some v ∧ p.labels i = some v) : Refines s p := by
  refine ⟨h1, fun i => ?_⟩
  cases h : s.labels i with
  | none => exact h2 i h
  | some l => exact h3 i l h

theorem Refines.push {s : St} {p : Spec} (r : Refines s p) (l : RawLabel) (v : Label)
    (hv : view s l = Option.some v) : Refines (s.push l) (p.push v) := by
  refine Refines.mk' (by simp [Spec.push, St.push, r.1]) ?_ ?_
  · intro i hi
    by_cases he : i = s.next
    · subst he; simp [St.push, set_same] at hi
    · simp only [St.push, set_ne _ _ he] at hi
      simp only [Spec.push, r.1, set_ne _ _ he]
      exact r.dead hi
  · intro i m hm
    rcases push_labels hm with ⟨rfl, rfl⟩ | ⟨hi, hm'⟩
    · exact ⟨v, hv, by simp [Spec.push, r.1, set_same]⟩
    · obtain ⟨w, hw, hp⟩ := r.live hm'
      exact ⟨w, hw, by simp only [Spec.push, r.1, set_ne _ _ hi]; exact hp⟩

/-- Writing to a box nobody uses does not change what labels look like. -/
theorem view_heap {s : St} {l : RawLabel} (H : Nat → Option Text) (hH : ∀ a, l.value = .box a → H a = s.heap a) :
    view { s with heap := H } l = view s l := by
  unfold view asStr
  cases hv : l.value with
  | outside t => rfl
  | box a => simp only [deref, hH a hv]

theorem Refines.newOwned {s : St} {p : Spec} (h : Inv s) (r : Refines s p) (t : Text) (a : Nat)
    (ha : s.heap a = Option.none) : Refines (LabelHeap.newOwned s t a) (p.push (.newOwned t)) := by
  have r' : Refines { s with heap := set s.heap a (Option.some t) } p := by
    refine Refines.mk' r.1 (fun i hi => r.dead hi) ?_
    intro i l hl
    obtain ⟨v, hv, hp⟩ := r.live hl
    refine ⟨v, ?_, hp⟩
    rw [view_heap]
    · exact hv
    · intro b hb
      rw [set_ne]
      rintro rfl
      obtain ⟨w, hw⟩ := h.readable hl
      simp [asStr, hb, deref, ha] at hw
  apply r'.push
  simp [view, asStr, deref, set_same, Label.newOwned]

theorem Refines.step {s s' : St} {p : Spec} (h : Inv s) (r : Refines s p) (op : Op)
    (hop : Legal s op) (hs : LabelHeap.step s op = Option.some s') : Refines s' (p.step op) := by
  cases op with
  | new t =>
    cases hs
    exact r.push _ _ (by simp [view, asStr, deref, Label.new])
  | newComputed t =>
    cases hs
    exact r.push _ _ (by simp [view, asStr, deref, Label.newComputed])
  | newComputedFrom i =>
    cases hl : s.labels i with
    | none => exact absurd hl hop
    | some l =>
      obtain ⟨v, hv, hp⟩ := r.live hl
      obtain ⟨t, ht⟩ := h.readable hl
      simp only [LabelHeap.step, hl, ht] at hs
      cases hs
      simp only [Spec.step, hp]
      apply r.push
      simp only [view, asStr] at hv ⊢
      simp only [asStr] at ht
      rw [ht] at hv ⊢
      cases hv
      rfl
  | newOwned t a =>
    cases hs
    exact r.newOwned h t a hop
  | clone i a =>
    obtain ⟨h1, h2⟩ := hop
    cases hl : s.labels i with
    | none => exact absurd hl h1
    | some l =>
      obtain ⟨v, hv, hp⟩ := r.live hl
      have ok := h.ok i l hl
      cases ho : l.owned with
      | some o =>
        cases ht : s.heap o with
        | none => exact absurd ht (ok.owned o ho).2.1
        | some t =>
          simp only [LabelHeap.step, hl, ho, ht] at hs
          cases hs
          have hst : l.static = Option.none := by
            cases hst : l.static with
            | none => rfl
            | some q => have := (ok.static q hst).2; rw [ho] at this; cases this
          have hvt : v.clone = .newOwned t := by
            simp only [view, asStr, (ok.owned o ho).1, deref, ht, hst, ho] at hv
            cases hv
            rfl
          simp only [Spec.step, hp, hvt]
          exact r.newOwned h t a h2
      | none =>
        simp only [LabelHeap.step, hl, ho] at hs
        cases hs
        have hvt : v.clone = v := by
          obtain ⟨t, ht⟩ := h.readable hl
          simp only [view, ht, ho] at hv
          cases hv
          cases l.static <;> rfl
        simp only [Spec.step, hp, hvt]
        apply r.push
        rw [← hv]
        simp only [view, asStr, ho]
  | toOwned i a =>
    obtain ⟨h1, h2⟩ := hop
    cases hl : s.labels i with
    | none => exact absurd hl h1
    | some l =>
      obtain ⟨v, hv, hp⟩ := r.live hl
      have ok := h.ok i l hl
      cases hst : l.static with
      | some t =>
        simp only [LabelHeap.step, hl, hst] at hs
        cases hs
        have hvt : v.toOwned = .new t := by
          simp only [view, asStr, (ok.static t hst).1, deref, hst] at hv
          cases hv
          rfl
        simp only [Spec.step, hp, hvt]
        exact r.push _ _ (by simp [view, asStr, deref, Label.new])
      | none =>
        obtain ⟨t, ht⟩ := h.readable hl
        simp only [LabelHeap.step, hl, hst, ht] at hs
        cases hs
        have hvt : v.toOwned = .newOwned t := by
          simp only [view, ht, hst] at hv
          cases hv
          cases l.owned <;> rfl
        simp only [Spec.step, hp, hvt]
        exact r.newOwned h t a h2
  | withTag i t =>
    cases hl : s.labels i with
    | none => exact absurd hl hop.1
    | some l =>
      obtain ⟨v, hv, hp⟩ := r.live hl
      simp only [LabelHeap.step, hl] at hs
      cases hs
      simp only [Spec.step, hp]
      refine Refines.mk' r.1 ?_ ?_
      · intro j hj
        by_cases hji : j = i
        · subst hji; simp [set_same] at hj
        · simp only [set_ne _ _ hji] at hj ⊢
          exact r.dead hj
      · intro j m hm
        by_cases hji : j = i
        · subst hji
          simp only [set_same, Option.some.injEq] at hm
          subst hm
          refine ⟨v.withTag t, ?_, set_same _ _ _⟩
          obtain ⟨q, hq⟩ := h.readable hl
          simp only [view, hq] at hv
          cases hv
          simp only [view, asStr] at hq ⊢
          have hq' : deref { s with labels := set s.labels j (Option.some { l with tag := Option.some t }) } l.value
              = Option.some q := hq
          rw [hq']
          rfl
        · simp only [set_ne _ _ hji] at hm ⊢
          exact r.live hm
  | drop i =>
    cases hl : s.labels i with
    | none => exact absurd hl hop.1
    | some l =>
      have key : ∀ H : Nat → Option Text, (∀ b, l.owned ≠ Option.some b → H b = s.heap b) →
          Refines { s with labels := set s.labels i Option.none, heap := H } (p.step (.drop i)) := by
        intro H hH
        refine Refines.mk' r.1 ?_ ?_
        · intro j hj
          by_cases hji : j = i
          · subst hji; exact set_same _ _ _
          · simp only [Spec.step, set_ne _ _ hji] at hj ⊢
            exact r.dead hj
        · intro j m hm
          obtain ⟨hji, hm'⟩ := drop_labels hm
          obtain ⟨v, hv, hp⟩ := r.live hm'
          refine ⟨v, ?_, by simp only [Spec.step, set_ne _ _ hji]; exact hp⟩
          rw [← hv]
          show view { s with heap := H } m = view s m
          apply view_heap
          intro b hb
          apply hH
          intro hlb
          obtain ⟨o, q, ho, hqo, hor⟩ := h.owner j m b hm' hb
          have := h.uniq o i q l b ho hl hqo hlb
          subst this
          rcases hor with hor | ⟨k, w, hk, hw⟩
          · exact hji hor.symm
          · exact hop.2 k w hk hw
      cases ho : l.owned with
      | none =>
        simp only [LabelHeap.step, hl, ho] at hs
        cases hs
        exact key s.heap (fun _ _ => rfl)
      | some a =>
        cases ht : s.heap a with
        | none => simp [LabelHeap.step, hl, ho, ht] at hs
        | some t =>
          simp only [LabelHeap.step, hl, ho, ht] at hs
          cases hs
          apply key
          intro b hb
          rw [set_ne]
          rintro rfl
          exact hb ho

theorem Spec.run_append (xs ys : List Op) (s : Spec) :
    Spec.run (xs ++ ys) s = Spec.run ys (Spec.run xs s) := by
  induction xs generalizing s with
  | nil => rfl
  | cons x xs ih => exact ih _

theorem Reach.refines {ops : List Op} {s : St} (h : Reach ops s) : Refines s (Spec.run ops .init) := by
  induction h with
  | init => exact Refines.mk' rfl (fun _ _ => rfl) (by intro i l h; cases h)
  | step hr hl hs ih =>
    rw [Spec.run_append]
    exact ih.step hr.inv _ hl hs

end Sval.LabelHeap
