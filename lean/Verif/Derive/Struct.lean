import Verif.Rust.Emits
import Verif.Rust.Spec

set_option autoImplicit false

/-! # Derived structs stream what they are meant to -/

namespace Sval.Derive

open Nested (Item)

theorem flatMap_congr' {α β : Type} {l : List α} {f g : α → List β} (h : ∀ x ∈ l, f x = g x) :
    l.flatMap f = l.flatMap g := by
  induction l with
  | nil => rfl
  | cons x l ih => rw [List.flatMap_cons, List.flatMap_cons, h x (.head _), ih fun y hy => h y (.tail _ hy)]

theorem optLabelOr_eq (f : Field) : optLabelOr f.label f.ident = nameOf f := by
  unfold optLabelOr nameOf labelOr
  cases f.label with
  | none => cases f.ident <;> rfl
  | some l => cases l <;> cases f.ident <;> rfl

theorem rows_cons {α : Type} (f : Field) (fs : List Field) (x : α) (xs : List α) :
    rows (f :: fs) (x :: xs) = if f.skip then rows fs xs else (f, x) :: rows fs xs := by
  unfold rows
  rw [List.zip_cons_cons, List.filter_cons]
  cases f.skip <;> rfl

theorem rows_map {α β : Type} (g : α → β) (fs : List Field) (xs : List α) :
    rows fs (xs.map g) = (rows fs xs).map fun r => (r.1, g r.2) := by
  induction fs generalizing xs with
  | nil => rfl
  | cons f fs ih =>
    cases xs with
    | nil => rfl
    | cons x xs =>
      rw [List.map_cons, rows_cons, rows_cons, ih]
      cases f.skip <;> rfl

theorem rows_fst {α : Type} (fs : List Field) (xs : List α) (h : fs.length = xs.length) :
    (rows fs xs).map (·.1) = fs.filter fun f => !f.skip := by
  induction fs generalizing xs with
  | nil => rfl
  | cons f fs ih =>
    cases xs with
    | nil => simp at h
    | cons x xs =>
      rw [rows_cons, List.filter_cons]
      cases f.skip
      · simpa using ih xs (by simpa using h)
      · simpa using ih xs (by simpa using h)

theorem plans_skip (at' : Attrs) (a : Alloc) (f : Field) (fs : List Field) (h : f.skip = true) :
    plans at' a (f :: fs) = plans at' a fs := by simp [plans, h]

theorem plans_label (at' : Attrs) (a : Alloc) (fs : List Field) :
    (plans at' a fs).map (·.label) = (fs.filter fun f => !f.skip).map fun f => if at'.unlabeled then none else nameOf f := by
  induction fs generalizing a with
  | nil => rfl
  | cons f fs ih =>
    rw [List.filter_cons]
    cases h : f.skip with
    | true => simpa [plans, h] using ih a
    | false => simp [plans, h, ih, optLabelOr_eq]

theorem plans_slot (at' : Attrs) (a : Alloc) (fs : List Field) : ∀ p ∈ plans at' a fs, p.slot.isSome = !at'.unindexed := by
  induction fs generalizing a with
  | nil => simp [plans]
  | cons f fs ih =>
    cases h : f.skip with
    | true => simpa [plans, h] using ih a
    | false =>
      intro p hp
      simp only [plans, h, Bool.false_eq_true, if_false, List.mem_cons] at hp
      rcases hp with rfl | hp
      · cases at'.unindexed <;> simp
      · exact ih _ p hp

theorem plans_flatten (at' : Attrs) (a : Alloc) (fs : List Field) (h : ∀ f ∈ fs, f.skip = true ∨ f.flatten = false) :
    ∀ p ∈ plans at' a fs, p.flatten = false := by
  induction fs generalizing a with
  | nil => simp [plans]
  | cons f fs ih =>
    have ih' := fun a => ih a fun f hf => h f (.tail _ hf)
    cases hs : f.skip with
    | true => simpa [plans, hs] using ih' a
    | false =>
      intro p hp
      simp only [plans, hs, Bool.false_eq_true, if_false, List.mem_cons] at hp
      rcases hp with rfl | hp
      · simpa [hs] using h f (.head _)
      · exact ih' _ p hp

theorem count_plans (at' : Attrs) (fs : List Field) (h : ∀ f ∈ fs, f.skip = true ∨ f.flatten = false) :
    count (plans at' {} fs) = some (fs.filter fun f => !f.skip).length := by
  have : (plans at' {} fs).any (·.flatten) = false := by
    rw [List.any_eq_false]
    intro p hp
    simp [plans_flatten at' {} fs h p hp]
  rw [count, this, ← List.length_map (f := Plan.label), plans_label]
  simp

/-- One field. -/
def rowItems (at' : Attrs) (f : Field) (i : Index) (q : List Item) : List Item :=
  match (if at'.unlabeled then none else nameOf f), at'.unindexed with
  | some l, false => .tok (.recordTupleValueBegin f.tag l i) ::
      (valueItems f.dataTag q ++ [.tok (.recordTupleValueEnd f.tag l i)])
  | none, false => .tok (.tupleValueBegin f.tag i) :: (valueItems f.dataTag q ++ [.tok (.tupleValueEnd f.tag i)])
  | some l, true => .tok (.recordValueBegin f.tag l) :: (valueItems f.dataTag q ++ [.tok (.recordValueEnd f.tag l)])
  | none, true => .tok .seqValueBegin :: (valueItems f.dataTag q ++ [.tok .seqValueEnd])

theorem fieldsItems_indexed (at' : Attrs) (hi : at'.unindexed = false) (fs : List Field) (qs : List (List Item)) (a : Alloc)
    (n : Int) (ha : a.explicit = false → a.next = n) :
    fieldsItems n (plans at' a fs) (kept fs qs) =
      ((rows fs qs).zip (indexes a.next a.explicit ((rows fs qs).map (·.1.index)))).flatMap fun r =>
        rowItems at' r.1.1 r.2 r.1.2 := by
  induction fs generalizing qs a n with
  | nil => rfl
  | cons f fs ih =>
    cases qs with
    | nil => simp [kept, rows, fieldsItems]
    | cons q qs =>
      rw [rows_cons]
      cases hs : f.skip with
      | true => simpa [plans, kept, hs] using ih qs a n ha
      | false =>
        simp only [plans, hs, kept, hi, Bool.false_eq_true, if_false, fieldsItems, Plan.after, List.map_cons]
        cases hx : f.index with
        | some x =>
          cases x with
          | const k =>
            simp only [indexes, List.zip_cons_cons, List.flatMap_cons]
            rw [ih qs _ _ (by simp [Alloc.nextConst])]
            simp only [Alloc.nextConst, fieldItems, rowItems, optLabelOr_eq, hi, constIndexOf, Slot.at]
            congr 1
            cases (if at'.unlabeled = true then none else nameOf f) <;> rfl
          | path k =>
            simp only [indexes, List.zip_cons_cons, List.flatMap_cons]
            rw [ih qs _ _ (by simp [Alloc.nextConst])]
            simp only [Alloc.nextConst, fieldItems, rowItems, optLabelOr_eq, hi, constIndexOf, Slot.at]
            congr 1
            cases (if at'.unlabeled = true then none else nameOf f) <;> rfl
        | none =>
          simp only [indexes, List.zip_cons_cons, List.flatMap_cons]
          cases he : a.explicit with
          | true =>
            rw [ih qs _ _ (by simp [Alloc.nextConst, he])]
            simp only [Alloc.nextConst, he, fieldItems, rowItems, optLabelOr_eq, hi, Slot.at, if_true]
            congr 1
            cases (if at'.unlabeled = true then none else nameOf f) <;> rfl
          | false =>
            rw [ih qs _ _ (by simp [Alloc.nextConst, he, Slot.after, ha he])]
            simp only [Alloc.nextConst, he, fieldItems, rowItems, optLabelOr_eq, hi, Slot.at, ha he]
            congr 1
            cases (if at'.unlabeled = true then none else nameOf f) <;> rfl

theorem fieldsItems_unindexed (at' : Attrs) (hi : at'.unindexed = true) (fs : List Field) (qs : List (List Item)) (n : Int) (a : Alloc) :
    fieldsItems n (plans at' a fs) (kept fs qs) = (rows fs qs).flatMap fun r => rowItems at' r.1 { val := 0 } r.2 := by
  induction fs generalizing qs n with
  | nil => rfl
  | cons f fs ih =>
    cases qs with
    | nil => simp [kept, rows, fieldsItems]
    | cons q qs =>
      rw [rows_cons]
      cases hs : f.skip with
      | true => simpa [plans, kept, hs] using ih qs n
      | false =>
        simp only [plans, hs, kept, hi, if_true, Bool.false_eq_true, if_false, fieldsItems, Plan.after, List.flatMap_cons]
        rw [ih qs n]
        simp only [fieldItems, rowItems, optLabelOr_eq, hi]
        congr 1
        cases (if at'.unlabeled = true then none else nameOf f) <;> rfl

theorem indexes_length (is : List (Option IndexVal)) (i : Int) (g : Bool) : (indexes i g is).length = is.length := by
  induction is generalizing i g with
  | nil => rfl
  | cons x is ih =>
    cases x with
    | none => simp [indexes, ih]
    | some x => cases x <;> simp [indexes, ih]

theorem emits_data (f : Field) {q : List Item} {v : V} (h : Emits q v) : Emits (valueItems f.dataTag q) (data f v) := by
  unfold valueItems data
  cases f.dataTag with
  | none => exact h.val
  | some t => exact Emits.tagged _ h.val

/-- Labels are on all fields or on none. -/
theorem accepted_uniform (at' : Attrs) (fs : List Field) (h : accepted at' fs = true) :
    ∃ b, ∀ f ∈ fs.filter (fun f => !f.skip), (if at'.unlabeled then none else nameOf f).isSome = b := by
  have := plans_label at' {} fs
  simp only [accepted, Bool.and_eq_true, Bool.or_eq_true] at h
  have e : ∀ f ∈ fs.filter (fun f => !f.skip), ∃ p ∈ plans at' {} fs, p.label = if at'.unlabeled then none else nameOf f := by
    intro f hf
    have hm := List.mem_map_of_mem (f := fun f => if at'.unlabeled then none else nameOf f) hf
    rw [← this] at hm
    obtain ⟨p, hp, e⟩ := List.mem_map.mp hm
    exact ⟨p, hp, e⟩
  rcases h.2 with h | h
  · refine ⟨false, fun f hf => ?_⟩
    obtain ⟨p, hp, e⟩ := e f hf
    have := List.all_eq_true.mp h p hp
    rw [← e]
    cases hl : p.label <;> simp [hl] at this ⊢
  · refine ⟨true, fun f hf => ?_⟩
    obtain ⟨p, hp, e⟩ := e f hf
    rw [← e]
    exact List.all_eq_true.mp h p hp

def targetOf (labeled indexed : Bool) : Target :=
  match labeled, indexed with
  | true, true => .recordTuple
  | false, true => .tuple
  | true, false => .record
  | false, false => .seq

theorem target_eq {α : Type} (named : Bool) (at' : Attrs) (fs : List Field) (xs : List α) (hl : fs.length = xs.length) (b : Bool)
    (hb : ∀ f ∈ fs.filter (fun f => !f.skip), (if at'.unlabeled then none else nameOf f).isSome = b) :
    target named (plans at' {} fs) = targetOf (labeled named at' (rows fs xs)) (indexed at' (rows fs xs)) := by
  have h1 := rows_fst fs xs hl
  have h2 := plans_label at' {} fs
  rw [← h1] at h2 hb
  cases hr : rows fs xs with
  | nil =>
    rw [hr] at h2
    have : plans at' {} fs = [] := by simpa using h2
    rw [this]
    cases named <;> rfl
  | cons r rs =>
    rw [hr] at h2 hb
    unfold target
    cases hp : (plans at' {} fs).getLast? with
    | none =>
      rw [List.getLast?_eq_none_iff] at hp
      simp [hp] at h2
    | some p =>
      have hm : p ∈ plans at' {} fs := List.mem_of_getLast? hp
      have hs := plans_slot at' {} fs p hm
      have hlab : p.label.isSome = b := by
        have := List.mem_map_of_mem (f := Plan.label) hm
        rw [h2] at this
        obtain ⟨f, hf, e⟩ := List.mem_map.mp this
        rw [← e]
        exact hb f hf
      have hb0 := hb r.1 (.head _)
      have : labeled named at' (r :: rs) = b := by
        rw [← hb0]
        unfold labeled
        cases at'.unlabeled <;> simp
      rw [this]
      simp only [indexed, List.isEmpty_cons, Bool.false_or, ← hs, ← hlab]
      unfold Plan.target
      cases p.label <;> cases p.slot <;> rfl

theorem nameOf_name (f : Field) (h : (nameOf f).isSome = true) : nameOf f = some (name f) := by
  unfold name
  cases h' : nameOf f with
  | none => simp [h'] at h
  | some l => rfl

open Rust (okFields)

/-- What derived structs do: the calls for their fields, and the value. -/
inductive Formed (F : Field → List Item × V → Prop) (m : Meta) : Bool → Bool → List Item → V → Prop
  | seq (n : Option Nat) (R : List (Field × (List Item × V))) (h : ∀ r ∈ R, F r.1 r.2) :
    Formed F m false false (.tok (.taggedBegin m) :: ((.tok (.seqBegin n) :: ((R.flatMap fun r =>
        .tok .seqValueBegin :: (valueItems r.1.dataTag r.2.1 ++ [.tok .seqValueEnd])) ++ [.tok .seqEnd])) ++
        [.tok (.taggedEnd m)]))
      (.tagged m (.seq n (R.map fun r => data r.1 r.2.2)))
  | tuple (n : Option Nat) (R : List ((Field × (List Item × V)) × Index)) (h : ∀ r ∈ R, F r.1.1 r.1.2) :
    Formed F m false true (.tok (.tupleBegin m n) :: ((R.flatMap fun r =>
        .tok (.tupleValueBegin r.1.1.tag r.2) ::
          (valueItems r.1.1.dataTag r.1.2.1 ++ [.tok (.tupleValueEnd r.1.1.tag r.2)])) ++ [.tok (.tupleEnd m)]))
      (.tuple m n (R.map fun r => (r.1.1.tag, r.2, data r.1.1 r.1.2.2)))
  | record (n : Option Nat) (R : List (Field × (List Item × V))) (h : ∀ r ∈ R, F r.1 r.2) :
    Formed F m true false (.tok (.recordBegin m n) :: ((R.flatMap fun r =>
        .tok (.recordValueBegin r.1.tag (name r.1)) ::
          (valueItems r.1.dataTag r.2.1 ++ [.tok (.recordValueEnd r.1.tag (name r.1))])) ++ [.tok (.recordEnd m)]))
      (.record m n (R.map fun r => (r.1.tag, name r.1, data r.1 r.2.2)))
  | recordTuple (n : Option Nat) (R : List ((Field × (List Item × V)) × Index)) (h : ∀ r ∈ R, F r.1.1 r.1.2) :
    Formed F m true true (.tok (.recordTupleBegin m n) :: ((R.flatMap fun r =>
        .tok (.recordTupleValueBegin r.1.1.tag (name r.1.1) r.2) ::
          (valueItems r.1.1.dataTag r.1.2.1 ++ [.tok (.recordTupleValueEnd r.1.1.tag (name r.1.1) r.2)])) ++
        [.tok (.recordTupleEnd m)]))
      (.recordTuple m n (R.map fun r => (r.1.1.tag, name r.1.1, r.2, data r.1.1 r.1.2.2)))

theorem formed_struct (named : Bool) (at' : Attrs) (m : Meta) (fs : List Field) (L : List (List Item × V))
    (hok : okFields at' fs L.length) :
    Formed (fun f x => f ∈ fs ∧ f.skip = false ∧ x ∈ L) m (labeled named at' (rows fs L)) (indexed at' (rows fs L))
      (structItems named at' m fs (L.map (·.1))) (structTree named at' m fs (L.map (·.2))) := by
  obtain ⟨hacc, hfl, hlen⟩ := hok
  obtain ⟨b, hb⟩ := accepted_uniform at' fs hacc
  have ht := target_eq named at' fs L hlen b hb
  have hfst := rows_fst fs L hlen
  have hRL : ∀ r ∈ rows fs L, r.1 ∈ fs ∧ r.1.skip = false ∧ r.2 ∈ L := by
    intro r hr
    have := List.mem_filter.mp hr
    exact ⟨(List.of_mem_zip this.1).1, by simpa using this.2, (List.of_mem_zip this.1).2⟩
  have hlab : ∀ r ∈ rows fs L, (if at'.unlabeled then none else nameOf r.1) =
      if labeled named at' (rows fs L) then some (name r.1) else none := by
    intro r hr
    rw [← hfst] at hb
    have h1 := hb r.1 (List.mem_map_of_mem hr)
    have h2 : labeled named at' (rows fs L) = b := by
      cases hR : rows fs L with
      | nil => rw [hR] at hr; cases hr
      | cons x xs =>
        rw [hR] at hb
        rw [← hb x.1 (.head _)]
        unfold labeled
        cases at'.unlabeled <;> simp
    rw [h2]
    cases b with
    | true =>
      cases hu : at'.unlabeled with
      | true => simp [hu] at h1
      | false =>
        simp only [hu, Bool.false_eq_true, if_false] at h1
        simp [nameOf_name _ h1]
    | false =>
      rw [Option.isSome_eq_false_iff, Option.isNone_iff_eq_none] at h1
      simpa using h1
  have hcount : count (plans at' {} fs) = some (rows fs L).length := by
    rw [count_plans at' fs hfl, ← hfst, List.length_map]
  have hidx : indexed at' (rows fs L) = false → at'.unindexed = true := by
    unfold indexed
    cases at'.unindexed <;> simp
  have hidx' : indexed at' (rows fs L) = true → at'.unindexed = false ∨ rows fs L = [] := by
    unfold indexed
    cases at'.unindexed <;> simp
  have lmap : ∀ {α β : Type} (g : α → β) (rs : List (Field × α)),
      labeled named at' (rs.map fun r => (r.1, g r.2)) = labeled named at' rs := by
    intro α β g rs
    cases rs <;> rfl
  have imap : ∀ {α β : Type} (g : α → β) (rs : List (Field × α)),
      indexed at' (rs.map fun r => (r.1, g r.2)) = indexed at' rs := by
    intro α β g rs
    cases rs <;> rfl
  unfold structItems structTree
  simp only [ht, hcount, rows_map, lmap, imap]
  generalize hR : rows fs L = R at *
  -- the fields, when they have indexes
  have hE : indexed at' R = true → fieldsItems 0 (plans at' {} fs) (kept fs (L.map (·.1))) =
      (R.zip (indexes 0 false (R.map (·.1.index)))).flatMap fun r => rowItems at' r.1.1 r.2 r.1.2.1 := by
    intro hi
    rcases hidx' hi with hu | hu
    · rw [fieldsItems_indexed at' hu fs _ {} 0 fun _ => rfl, rows_map, hR]
      simp only [List.map_map, Function.comp_def, List.zip_map_left, List.flatMap_map]
      rfl
    · subst hu
      have h2 := plans_label at' {} fs
      rw [← hfst] at h2
      have : plans at' {} fs = [] := by simpa using h2
      rw [this]
      rfl
  have hU : indexed at' R = false → fieldsItems 0 (plans at' {} fs) (kept fs (L.map (·.1))) =
      R.flatMap fun r => rowItems at' r.1 { val := 0 } r.2.1 := by
    intro hi
    rw [fieldsItems_unindexed at' (hidx hi), rows_map, hR]
    simp only [List.flatMap_map]
  have entries_map : entries (R.map fun r => (r.1, r.2.2)) =
      (R.zip (indexes 0 false (R.map (·.1.index)))).map fun r => ((r.1.1, r.1.2.2), r.2) := by
    unfold entries
    simp only [List.map_map, Function.comp_def, List.zip_map_left]
    rfl
  have mem_zip : ∀ r ∈ R.zip (indexes 0 false (R.map (·.1.index))), r.1 ∈ R := fun r hr => (List.of_mem_zip hr).1
  have hun : ∀ r ∈ R.zip (indexes 0 false (R.map (·.1.index))), indexed at' R = true → at'.unindexed = false := by
    intro r hr hi
    rcases hidx' hi with h | h
    · exact h
    · subst h; cases hr
  cases hl : labeled named at' R <;> cases hi : indexed at' R
  · -- seq
    have e : (R.flatMap fun r => rowItems at' r.1 { val := 0 } r.2.1) =
        R.flatMap fun r => .tok .seqValueBegin :: (valueItems r.1.dataTag r.2.1 ++ [.tok .seqValueEnd]) := by
      refine flatMap_congr' fun r hr => ?_
      rw [rowItems, hlab r hr, hl, hidx hi]
      rfl
    rw [hU hi, e]
    simpa [beginItems, endItems, targetOf, Function.comp_def] using Formed.seq (m := m) (some R.length) R hRL
  · -- tuple
    have e : ((R.zip (indexes 0 false (R.map (·.1.index)))).flatMap fun r => rowItems at' r.1.1 r.2 r.1.2.1) =
        (R.zip (indexes 0 false (R.map (·.1.index)))).flatMap fun r =>
          .tok (.tupleValueBegin r.1.1.tag r.2) ::
            (valueItems r.1.1.dataTag r.1.2.1 ++ [.tok (.tupleValueEnd r.1.1.tag r.2)]) := by
      refine flatMap_congr' fun r hr => ?_
      rw [rowItems, hlab r.1 (mem_zip r hr), hl, hun r hr hi]
      rfl
    rw [hE hi, e, entries_map]
    simpa [beginItems, endItems, targetOf, Function.comp_def] using Formed.tuple (m := m) (some R.length)
      (R.zip (indexes 0 false (R.map (·.1.index)))) fun r hr => hRL r.1 (mem_zip r hr)
  · -- record
    have e : (R.flatMap fun r => rowItems at' r.1 { val := 0 } r.2.1) =
        R.flatMap fun r => .tok (.recordValueBegin r.1.tag (name r.1)) ::
          (valueItems r.1.dataTag r.2.1 ++ [.tok (.recordValueEnd r.1.tag (name r.1))]) := by
      refine flatMap_congr' fun r hr => ?_
      rw [rowItems, hlab r hr, hl, hidx hi]
      rfl
    rw [hU hi, e]
    simpa [beginItems, endItems, targetOf, Function.comp_def] using Formed.record (m := m) (some R.length) R hRL
  · -- record tuple
    have e : ((R.zip (indexes 0 false (R.map (·.1.index)))).flatMap fun r => rowItems at' r.1.1 r.2 r.1.2.1) =
        (R.zip (indexes 0 false (R.map (·.1.index)))).flatMap fun r =>
          .tok (.recordTupleValueBegin r.1.1.tag (name r.1.1) r.2) ::
            (valueItems r.1.1.dataTag r.1.2.1 ++ [.tok (.recordTupleValueEnd r.1.1.tag (name r.1.1) r.2)]) := by
      refine flatMap_congr' fun r hr => ?_
      rw [rowItems, hlab r.1 (mem_zip r hr), hl, hun r hr hi]
      rfl
    rw [hE hi, e, entries_map]
    simpa [beginItems, endItems, targetOf, Function.comp_def] using Formed.recordTuple (m := m) (some R.length)
      (R.zip (indexes 0 false (R.map (·.1.index)))) fun r hr => hRL r.1 (mem_zip r hr)

theorem emits_struct (named : Bool) (at' : Attrs) (m : Meta) (fs : List Field) (L : List (List Item × V))
    (hok : okFields at' fs L.length) (hL : ∀ x ∈ L, Emits x.1 x.2) :
    Emits (structItems named at' m fs (L.map (·.1))) (structTree named at' m fs (L.map (·.2))) := by
  have key : ∀ (f : Field) (x : List Item × V), f ∈ fs ∧ f.skip = false ∧ x ∈ L →
      Emits (valueItems f.dataTag x.1) (data f x.2) := fun f x h => emits_data f (hL x h.2.2)
  have hf := formed_struct named at' m fs L hok
  revert hf
  generalize labeled named at' (rows fs L) = l, indexed at' (rows fs L) = i,
    structItems named at' m fs (L.map (·.1)) = q, structTree named at' m fs (L.map (·.2)) = v
  intro hf
  cases hf with
  | seq n R h =>
    have := Emits.tagged m (Emits.seq n (R.map fun r => (valueItems r.1.dataTag r.2.1, data r.1 r.2.2))
      (fun x hx => by obtain ⟨r, hr, rfl⟩ := List.mem_map.mp hx; exact key _ _ (h r hr)))
    simpa [Function.comp_def, List.flatMap_map] using this
  | tuple n R h =>
    have := Emits.tuple m n (R.map fun r => (r.1.1.tag, r.2, valueItems r.1.1.dataTag r.1.2.1, data r.1.1 r.1.2.2))
      (fun x hx => by obtain ⟨r, hr, rfl⟩ := List.mem_map.mp hx; exact key _ _ (h r hr))
    simpa [Function.comp_def, List.flatMap_map] using this
  | record n R h =>
    have := Emits.record m n (R.map fun r => (r.1.tag, name r.1, valueItems r.1.dataTag r.2.1, data r.1 r.2.2))
      (fun x hx => by obtain ⟨r, hr, rfl⟩ := List.mem_map.mp hx; exact key _ _ (h r hr))
    simpa [Function.comp_def, List.flatMap_map] using this
  | recordTuple n R h =>
    have := Emits.recordTuple m n (R.map fun r =>
        (r.1.1.tag, name r.1.1, r.2, valueItems r.1.1.dataTag r.1.2.1, data r.1.1 r.1.2.2))
      (fun x hx => by obtain ⟨r, hr, rfl⟩ := List.mem_map.mp hx; exact key _ _ (h r hr))
    simpa [Function.comp_def, List.flatMap_map] using this

end Sval.Derive
