import Verif.Derive.Flat

set_option autoImplicit false

/-!
# Properties of `sval_derive`: C39 and C40
-/

namespace Sval

open Rust
open Derive (Field Attrs Shape Variant EnumDef IndexVal LabelVal Discr)

/-! ## C39 -/

/-- The indexes of the fields of a value. -/
def fieldIndexes : V → List Index
  | .tuple _ _ fs => fs.map fun f => f.2.1
  | .recordTuple _ _ fs => fs.map fun f => f.2.2.1
  | _ => []

/-- The index of the variant in an enum. -/
def variantIndex : V → Option Index
  | .enum _ (.tag m) | .enum _ (.tagged m _) | .enum _ (.tuple m _ _) | .enum _ (.record m _ _) |
    .enum _ (.recordTuple m _ _) => m.index
  | _ => none

theorem fieldIndexes_struct (named : Bool) (at' : Attrs) (hi : at'.unindexed = false) (m : Meta) (fs : List Field) (vs : List V)
    (hl : fs.length = vs.length) :
    fieldIndexes (Derive.structTree named at' m fs vs) =
      Derive.indexes 0 false ((fs.filter fun f => !f.skip).map Field.index) := by
  have hi' : Derive.indexed at' (Derive.rows fs vs) = true := by simp [Derive.indexed, hi]
  have h : (Derive.entries (Derive.rows fs vs)).map (fun r => r.2) =
      Derive.indexes 0 false ((fs.filter fun f => !f.skip).map Field.index) := by
    rw [Derive.entries, ← Derive.rows_fst fs vs hl, List.map_map]
    exact List.map_snd_zip (by simp [Derive.indexes_length])
  dsimp only [Derive.structTree]
  rw [hi']
  cases Derive.labeled named at' (Derive.rows fs vs) <;> simpa [fieldIndexes, Function.comp_def] using h

theorem variantIndex_tree (d : EnumDef) (hd : d.dyn = false) (i : Nat) (vs : List RV) (hx : ok (.enum d i vs)) :
    variantIndex (tree (.enum d i vs)) = (variantIndexes d d.variants)[i]?.getD none := by
  obtain ⟨⟨v, hv, hok⟩, _⟩ := hx
  simp only [tree, hv, hd, Bool.false_eq_true, if_false]
  dsimp only [Derive.variantTree]
  have struct : ∀ named at' m fs ts e, variantIndex (.enum e (Derive.structTree named at' m fs ts)) = m.index := by
    intro named at' m fs ts e
    dsimp only [Derive.structTree]
    cases Derive.labeled named at' (Derive.rows fs ts) <;> cases Derive.indexed at' (Derive.rows fs ts) <;> rfl
  rw [okVariant] at hok
  cases hs : v.shape with
  | unit => rfl
  | newtype =>
    rw [hs] at hok
    match vs, hok with
    | [x], _ => simp [trees, variantIndex, hd]
  | named fs => exact struct _ _ _ _ _ _
  | unnamed fs => exact struct _ _ _ _ _ _

theorem indexes_none (i : Int) (n : Nat) : Derive.indexes i false (List.replicate n none) =
    (List.range n).map fun k => ⟨i + (k : Nat), some tags.VALUE_OFFSET⟩ := by
  induction n generalizing i with
  | zero => rfl
  | succ n ih =>
    rw [List.replicate_succ, Derive.indexes, ih, List.range_succ_eq_map, List.map_cons, List.map_map]
    simp only [Function.comp_def, Int.natCast_zero, Int.add_zero, List.cons.injEq]
    refine ⟨rfl, List.map_congr_left fun k _ => ?_⟩
    congr 1
    push_cast
    omega

/-- C39. Without explicit ones, the indexes of fields that are not skipped are `0..n` in order, and are offsets. -/
theorem C39_fields (named : Bool) (ident : Text) (at' : Attrs) (hi : at'.unindexed = false) (fs : List Field) (vs : List RV)
    (hl : fs.length = vs.length) (hf : ∀ f ∈ fs, f.skip = true ∨ f.index = none) :
    fieldIndexes (tree (.struct named ident at' fs vs)) =
      (List.range (fs.filter fun f => !f.skip).length).map fun (k : Nat) => ⟨k, some tags.VALUE_OFFSET⟩ := by
  rw [tree, fieldIndexes_struct named at' hi _ _ _ (by rw [trees_eq, List.length_map]; exact hl)]
  have : (fs.filter fun f => !f.skip).map Field.index = List.replicate (fs.filter fun f => !f.skip).length none := by
    rw [List.eq_replicate_iff]
    refine ⟨List.length_map _, fun x hx => ?_⟩
    obtain ⟨f, hf', rfl⟩ := List.mem_map.mp hx
    have := List.mem_filter.mp hf'
    rcases hf f this.1 with h | h
    · simp [h] at this
    · exact h
  rw [this, indexes_none]
  simp

/-- Discriminants as Rust assigns them: an expression, or one more than before, from 0. -/
def rustDiscriminants (next : Int) : List Variant → List Int
  | [] => []
  | v :: vs =>
    let k := match v.discr with
      | some (.lit k) | some (.path k) | some (.expr k) => k
      | none => next
    k :: rustDiscriminants (k + 1) vs

/-- C39. If no variant has `#[sval(index = ..)]`, and all discriminants that are given are literals, then the index of
each variant is its discriminant. The compiler makes sure these are distinct. -/
theorem C39_discriminants (d : EnumDef) (hd : d.dyn = false) (hu : d.unindexedVariants = false)
    (hv : ∀ v ∈ d.variants, v.attrs.index = none ∧ (v.discr = none ∨ ∃ k, v.discr = some (.lit k)))
    (i : Nat) (vs : List RV) (hx : ok (.enum d i vs)) :
    (variantIndex (tree (.enum d i vs))).map Index.val = (rustDiscriminants 0 d.variants)[i]? := by
  rw [variantIndex_tree d hd i vs hx]
  obtain ⟨⟨v, hi, _⟩, _⟩ := hx
  have hlt := (List.getElem?_eq_some_iff.mp hi).1
  have key : ∀ (ws : List Variant) (n : Int) (g : Bool), (∀ v ∈ ws, v.attrs.index = none ∧ (v.discr = none ∨ ∃ k, v.discr = some (.lit k))) →
      (variantIndexes.go (Derive.indexes n g ((ws.filter fun v => v.attrs.index.isNone).map Derive.discrIndex)) ws).map
        (fun x => x.map Index.val) = (rustDiscriminants n ws).map some := by
    intro ws
    induction ws with
    | nil => intros; rfl
    | cons w ws ih =>
      intro n g h
      have hw := h w (.head _)
      have ih' := fun n g => ih n g fun v hv => h v (.tail _ hv)
      rw [List.filter_cons, hw.1]
      simp only [Option.isNone_none, if_true, List.map_cons]
      rcases hw.2 with e | ⟨k, e⟩
      · simp only [variantIndexes.go, hw.1, Derive.discrIndex, e, Option.bind_none, Derive.indexes, List.head?_cons,
          List.tail_cons, List.map_cons, rustDiscriminants, ih', Option.map_some]
      · simp only [variantIndexes.go, hw.1, Derive.discrIndex, e, Option.bind_some, Discr.toIndex, Derive.indexes, List.head?_cons,
          List.tail_cons, List.map_cons, rustDiscriminants, ih', Option.map_some]
  have := key d.variants 0 false hv
  have h2 : (variantIndexes d d.variants).map (fun x => x.map Index.val) = (rustDiscriminants 0 d.variants).map some := by
    rw [variantIndexes, hd, hu]
    exact this
  have h3 := congrArg (fun l => l[i]?) h2
  simp only [List.getElem?_map] at h3
  cases h4 : (variantIndexes d d.variants)[i]? with
  | none =>
    have hlen := congrArg List.length h2
    rw [List.getElem?_eq_none_iff] at h4
    simp only [List.length_map] at hlen
    have hr : ∀ (ws : List Variant) n, (rustDiscriminants n ws).length = ws.length := by
      intro ws
      induction ws with
      | nil => intro n; rfl
      | cons w ws ih => intro n; simp [rustDiscriminants, ih]
    rw [hr] at hlen
    omega
  | some x =>
    rw [h4] at h3
    cases h5 : (rustDiscriminants 0 d.variants)[i]? with
    | none => simp [h5] at h3
    | some y =>
      rw [h5] at h3
      simpa using h3

/-- C39. So variants with different discriminants have different indexes. -/
theorem C39_distinct_partial (d : EnumDef) (hd : d.dyn = false) (hu : d.unindexedVariants = false)
    (hv : ∀ v ∈ d.variants, v.attrs.index = none ∧ (v.discr = none ∨ ∃ k, v.discr = some (.lit k)))
    (hr : (rustDiscriminants 0 d.variants).Nodup) (i j : Nat) (vs ws : List RV) (hx : ok (.enum d i vs)) (hy : ok (.enum d j ws))
    (hij : i ≠ j) :
    variantIndex (tree (.enum d i vs)) ≠ variantIndex (tree (.enum d j ws)) := by
  intro h
  have h1 := C39_discriminants d hd hu hv i vs hx
  have h2 := C39_discriminants d hd hu hv j ws hy
  rw [h] at h1
  have h3 := h1.symm.trans h2
  obtain ⟨⟨v, hi, _⟩, _⟩ := hx
  have hlt := (List.getElem?_eq_some_iff.mp hi).1
  have hlen : ∀ (ws : List Variant) n, (rustDiscriminants n ws).length = ws.length := by
    intro ws
    induction ws with
    | nil => intro n; rfl
    | cons w ws ih => intro n; simp [rustDiscriminants, ih]
  exact hij ((List.getElem?_inj (by rw [hlen]; exact hlt) hr).mp h3)

/-- Each index that is given is at least the one that would have been used. -/
def ordered (i : Int) : List (Option IndexVal) → Prop
  | [] => True
  | none :: r => ordered (i + 1) r
  | some (.const k) :: r => i ≤ k ∧ ordered (k + 1) r
  | some (.path x) :: r => x.val = i ∧ ordered (i + 1) r

theorem indexes_ordered (is : List (Option IndexVal)) (i : Int) (g : Bool) (h : ordered i is) :
    (∀ x ∈ Derive.indexes i g is, i ≤ x.val) ∧ (Derive.indexes i g is).Pairwise fun x y => x.val < y.val := by
  induction is generalizing i g with
  | nil => exact ⟨by simp [Derive.indexes], .nil⟩
  | cons x is ih =>
    match x, h with
    | none, h =>
      obtain ⟨h1, h2⟩ := ih (i + 1) g h
      simp only [Derive.indexes, List.mem_cons, List.pairwise_cons]
      exact ⟨fun y hy => by rcases hy with rfl | hy; exact Int.le_refl _; have := h1 y hy; omega,
        fun y hy => by have := h1 y hy; show i < _; omega, h2⟩
    | some (.const k), h =>
      obtain ⟨h1, h2⟩ := ih (k + 1) true h.2
      have := h.1
      simp only [Derive.indexes, List.mem_cons, List.pairwise_cons]
      exact ⟨fun y hy => by rcases hy with rfl | hy; exact h.1; have := h1 y hy; omega,
        fun y hy => by have := h1 y hy; show k < _; omega, h2⟩
    | some (.path k), h =>
      obtain ⟨h1, h2⟩ := ih (i + 1) true h.2
      have := h.1
      simp only [Derive.indexes, List.mem_cons, List.pairwise_cons]
      exact ⟨fun y hy => by rcases hy with rfl | hy; omega; have := h1 y hy; omega,
        fun y hy => by have := h1 y hy; omega, h2⟩

/-- C39 for fields, as far as it holds: if explicit indexes never go back, the indexes increase. Missing: explicit
indexes that do, for which `C39_fails` shows it is false. -/
theorem C39_fields_partial (named : Bool) (ident : Text) (at' : Attrs) (hi : at'.unindexed = false) (fs : List Field) (vs : List RV)
    (hl : fs.length = vs.length) (ho : ordered 0 ((fs.filter fun f => !f.skip).map Field.index)) :
    (fieldIndexes (tree (.struct named ident at' fs vs))).Pairwise fun x y => x.val < y.val := by
  rw [tree, fieldIndexes_struct named at' hi _ _ _ (by rw [trees_eq, List.length_map]; exact hl)]
  exact (indexes_ordered _ 0 false ho).2

/-- `enum { A, #[sval(index = 1)] B, C }` -/
def attrEnum : EnumDef where
  ident := t! "E"
  variants := [{ ident := t! "A", shape := .unit }, { ident := t! "B", shape := .unit, attrs := { index := some (.const 1) } },
    { ident := t! "C", shape := .unit }]

/-- `enum { A = X, B }` where `X` is 1. -/
def pathEnum : EnumDef where
  ident := t! "E"
  variants := [{ ident := t! "A", shape := .unit, discr := some (.path 1) }, { ident := t! "B", shape := .unit }]

/-- `struct { a: (), #[sval(index = 0)] b: () }` -/
def backFields : List Field := [{ ident := some (t! "a") }, { ident := some (t! "b"), index := some (.const 0) }]

/-- C39 is false: with a single explicit index, or with discriminants that Rust knows to be distinct, two variants or
two fields can have the same index. -/
theorem C39_fails :
    (variantIndex (tree (.enum attrEnum 1 []))).map Index.val = some 1 ∧
    (variantIndex (tree (.enum attrEnum 2 []))).map Index.val = some 1 ∧
    rustDiscriminants 0 pathEnum.variants = [1, 2] ∧
    (variantIndex (tree (.enum pathEnum 0 []))).map Index.val = some 1 ∧
    (variantIndex (tree (.enum pathEnum 1 []))).map Index.val = some 1 ∧
    (fieldIndexes (tree (.struct true (t! "S") {} backFields [.unit, .unit]))).map Index.val = [0, 0] :=
  ⟨rfl, rfl, rfl, rfl, rfl, rfl⟩

example : ok (.enum attrEnum 2 []) ∧ ok (.enum pathEnum 1 []) ∧ ok (.struct true (t! "S") {} backFields [.unit, .unit]) := by
  refine ⟨⟨⟨_, rfl, rfl⟩, trivial⟩, ⟨⟨_, rfl, rfl⟩, trivial⟩, ⟨⟨rfl, ?_, rfl⟩, trivial, trivial, trivial⟩⟩
  simp [backFields]

/-- `enum { A, B(u8) = 5, C { x: bool } }` -/
def discrEnum : EnumDef where
  ident := t! "E"
  variants := [{ ident := t! "A", shape := .unit }, { ident := t! "B", shape := .newtype, discr := some (.lit 5) },
    { ident := t! "C", shape := .named [{ ident := some (t! "x") }] }]

example : rustDiscriminants 0 discrEnum.variants = [0, 5, 6] ∧ ok (.enum discrEnum 2 [.bool true]) ∧
    variantIndex (tree (.enum discrEnum 2 [.bool true])) = some { val := 6 } := by
  refine ⟨rfl, ⟨⟨_, rfl, ⟨rfl, by simp, rfl⟩⟩, trivial, trivial⟩, rfl⟩

/-- A struct with such an enum, and a skipped field. -/
def holdsEnum : RV := .struct true (t! "S") {}
  [{ ident := some (t! "e") }, { ident := some (t! "skipped"), skip := true }]
  [.some (.enum discrEnum 1 [.int .u8 3]), .unit]

/-- C37 applies to it. -/
example : ok holdsEnum ∧ plain holdsEnum := by
  refine ⟨⟨⟨rfl, by simp, rfl⟩, ⟨⟨_, rfl, rfl⟩, trivial, trivial⟩, trivial, trivial⟩, ?_⟩
  simp only [holdsEnum, plain, plains, plainFields, staticLabel, and_true, true_and]
  refine ⟨?_, trivial, rfl, ?_⟩
  · intro f hf
    simp only [List.mem_cons, List.not_mem_nil, or_false] at hf
    rcases hf with rfl | rfl
    · exact .inr ⟨rfl, trivial⟩
    · exact .inl rfl
  · intro v hv
    cases hv
    exact ⟨trivial, fun f hf => (by cases hf), { val := 5 }, rfl, by decide, by decide⟩

/-! ## C40

`stream` is the generated code, for structs and enums with flattened fields, in options and slices and in each other. -/

open Derive (FV Streamer stream ftree ftrees fok foks flattens structRows flatRows keyText)
open Flatten (number)

/-- C40. What a derived type streams on any stream, which may also fail or panic: the calls of a single value, in which
begins and ends match, and with the right number of fields if there is one.

For flattened fields this is as far as C29 holds, by `fok`. -/
theorem C40_exact (ryu : UInt64 → Text) (x : FV) (hx : fok (keyText ryu) x) {σ : Type} (S : Token → σ → Res Unit σ) (s : σ) :
    stream true ryu x σ S s = drive S (valueOf (ftree (keyText ryu) x)) s ∧ sized (ftree (keyText ryu) x) := by
  refine ⟨?_, Derive.sized_ftree _ x hx⟩
  rw [Derive.streams_value_flat ryu x hx, valueOf, drive_ofToks]

/-- The values in a struct. -/
def fieldValues : V → List V
  | .recordTuple _ _ fs => fs.map fun f => f.2.2.2
  | .tuple _ _ fs => fs.map fun f => f.2.2
  | .record _ _ fs => fs.map fun f => f.2.2
  | .tagged _ (.seq _ xs) => xs
  | _ => []

/-- The labels in a struct. -/
def fieldLabels : V → List Label
  | .recordTuple _ _ fs => fs.map fun f => f.2.1
  | .record _ _ fs => fs.map fun f => f.2.1
  | _ => []

/-- C40. Every field is streamed once and in order, unless it is skipped; for a flattened field, its entries are. -/
theorem C40_values (K : V → Text) (named : Bool) (ident : Text) (at' : Attrs) (fs : List Field) (xs : List FV) :
    fieldValues (ftree K (.struct named ident at' fs xs)) =
      (Derive.rows fs (ftrees K xs)).flatMap fun r =>
        if r.1.flatten then (Flatten.entries r.2).map (·.val) else [Derive.data r.1 r.2] := by
  have h := fun c fc => Derive.structRows_values K c fc 0 false 0 (Derive.rows fs (ftrees K xs))
  change _ = List.flatMap Derive.contents _
  simp only [ftree, Derive.flatTree]
  cases Derive.labeled named at' (Derive.rows fs (ftrees K xs)) <;>
    cases Derive.indexed at' (Derive.rows fs (ftrees K xs)) <;>
    simpa [fieldValues, Function.comp_def] using h _ _

theorem structRows_labels (K : V → Text) (c fc : Bool) (i : Int) (g : Bool) (n : Int) (rs : List (Field × V))
    (h : ∀ r ∈ rs, r.1.flatten = true → ∀ e ∈ Flatten.entries r.2, e.key = none ∧ e.label.isSome) :
    (structRows K c fc i g n rs).map (fun r => r.2.1) =
      rs.flatMap fun r => if r.1.flatten then (Flatten.entries r.2).filterMap (·.label) else [Derive.name r.1] := by
  induction rs generalizing i g n with
  | nil => rfl
  | cons r rs ih =>
    obtain ⟨f, v⟩ := r
    have ih' := fun i g n => ih i g n fun r hr => h r (.tail _ hr)
    rw [structRows, List.flatMap_cons]
    cases hf : f.flatten with
    | true =>
      have h' := h (f, v) (.head _) hf
      simp only [if_true, List.map_append, ih', flatRows, List.map_map]
      congr 1
      have h1 : ∀ es : List (Flatten.Entry × Index), (∀ x ∈ es, x.1.key = none ∧ x.1.label.isSome) →
          es.map (fun x => Flatten.labelOf K x.1 x.2) = (es.map Prod.fst).filterMap (·.label) := by
        intro es
        induction es with
        | nil => intro; rfl
        | cons x es ih =>
          intro hx
          obtain ⟨hk, hl⟩ := hx x (.head _)
          obtain ⟨l, hl⟩ := Option.isSome_iff_exists.mp hl
          simp only [List.map_cons, List.filterMap_cons, hl, ih fun y hy => hx y (.tail _ hy)]
          simp [Flatten.labelOf, hk, hl]
      have h2 := h1 (number n n (Flatten.entries v)).1 (by
        intro x hx
        refine h' x.1 ?_
        rw [← C28_count n v]
        exact List.mem_map_of_mem hx)
      rw [C28_count n v] at h2
      simpa [Function.comp_def] using h2
    | false => simp [ih']

/-- C40. And under its label, if the fields of the struct have some, and so do the entries of those that are flattened.
(C30 says what happens to entries of maps.) -/
theorem C40_labels (K : V → Text) (named : Bool) (ident : Text) (at' : Attrs) (fs : List Field) (xs : List FV)
    (hl : Derive.labeled named at' (Derive.rows fs (ftrees K xs)) = true)
    (h : ∀ r ∈ Derive.rows fs (ftrees K xs), r.1.flatten = true → ∀ e ∈ Flatten.entries r.2, e.key = none ∧ e.label.isSome) :
    fieldLabels (ftree K (.struct named ident at' fs xs)) =
      (Derive.rows fs (ftrees K xs)).flatMap fun r =>
        if r.1.flatten then (Flatten.entries r.2).filterMap (·.label) else [Derive.name r.1] := by
  have h := fun c fc => structRows_labels K c fc 0 false 0 (Derive.rows fs (ftrees K xs)) h
  simp only [ftree, Derive.flatTree, hl]
  cases Derive.indexed at' (Derive.rows fs (ftrees K xs)) <;>
    simpa [fieldLabels, Function.comp_def] using h _ _

theorem structRows_dense (K : V → Text) (rs : List (Field × V)) (i : Int) (n : Nat) (hi : ∀ r ∈ rs, r.1.index = none)
    (hf : ∀ r ∈ rs, r.1.flatten = true → ∀ (j : Nat) (h : j < (Flatten.entries r.2).length),
      (Flatten.entries r.2)[j].index = none ∨ (Flatten.entries r.2)[j].index = some ⟨j, some tags.VALUE_OFFSET⟩)
    (hn : (n : Int) + (rs.flatMap Derive.contents).length < 2 ^ 63) :
    (structRows K true true i false n rs).map (fun r => r.2.2.1) =
      (List.range' n (rs.flatMap Derive.contents).length).map fun k => ⟨(k : Nat), some tags.VALUE_OFFSET⟩ := by
  induction rs generalizing i n with
  | nil => rfl
  | cons r rs ih =>
    obtain ⟨f, v⟩ := r
    have hi0 : f.index = none := hi (f, v) (.head _)
    have ih' := fun i n => ih i n (fun r hr => hi r (.tail _ hr)) fun r hr => hf r (.tail _ hr)
    rw [List.flatMap_cons, List.length_append] at hn ⊢
    rw [structRows, hi0]
    cases hfl : f.flatten with
    | true =>
      have hc : (Derive.contents (f, v)).length = (Flatten.entries v).length := by simp [Derive.contents, hfl]
      rw [hc] at hn ⊢
      have hd := (number_dense n (by omega) (Flatten.entries v) 0 (by simp only [Flatten.isIsize]; omega) (by
        intro j hj
        have := hf (f, v) (.head _) hfl j hj
        simpa using this)).2
      simp only [Int.natCast_zero, Int.add_zero] at hd
      simp only [if_true, Option.isSome_none, Bool.or_false, List.map_append, flatRows, hd]
      have := ih' (Derive.nextIndex i none) (n + (Flatten.entries v).length) (by push_cast; omega)
      push_cast at this
      rw [this, ← List.range'_append_1, List.map_append]
      congr 1
      refine List.ext_getElem (by simp) fun k h1 h2 => ?_
      simp
    | false =>
      have hc : (Derive.contents (f, v)).length = 1 := by simp [Derive.contents, hfl]
      rw [hc] at hn ⊢
      have := ih' (Derive.nextIndex i none) (n + 1) (by push_cast; omega)
      push_cast at this
      simp only [Bool.false_eq_true, if_false, Option.isSome_none, Option.isNone_none, Bool.or_false, Bool.not_false, Bool.and_true,
        if_true, List.map_cons, this, Derive.rowIndex]
      rw [← List.range'_append_1]
      rfl

/-- C40, for indexes, as far as it holds: without explicit ones on fields, and in flattened values none other than the
offsets, all of them are numbered in order.

Missing: explicit indexes, for which `C40_fails` shows that two fields can have the same index, and flattened enums, for
which `C28_fails` shows that they are not. -/
theorem C40_indexes_partial (K : V → Text) (named : Bool) (ident : Text) (at' : Attrs) (hu : at'.unindexed = false)
    (fs : List Field) (xs : List FV) (hi : ∀ r ∈ Derive.rows fs (ftrees K xs), r.1.index = none)
    (hf : ∀ r ∈ Derive.rows fs (ftrees K xs), r.1.flatten = true → ∀ (j : Nat) (h : j < (Flatten.entries r.2).length),
      (Flatten.entries r.2)[j].index = none ∨ (Flatten.entries r.2)[j].index = some ⟨j, some tags.VALUE_OFFSET⟩)
    (hn : (fieldValues (ftree K (.struct named ident at' fs xs))).length < 2 ^ 63) :
    fieldIndexes (ftree K (.struct named ident at' fs xs)) =
      (List.range (fieldValues (ftree K (.struct named ident at' fs xs))).length).map fun k =>
        ⟨(k : Nat), some tags.VALUE_OFFSET⟩ := by
  have hv : fieldValues (ftree K (.struct named ident at' fs xs)) = (Derive.rows fs (ftrees K xs)).flatMap Derive.contents :=
    C40_values K named ident at' fs xs
  rw [hv] at hn ⊢
  have := structRows_dense K (Derive.rows fs (ftrees K xs)) 0 0 hi hf (by omega)
  have hx : Derive.indexed at' (Derive.rows fs (ftrees K xs)) = true := by simp [Derive.indexed, hu]
  rw [← List.range_eq_range'] at this
  simp only [ftree, Derive.flatTree, hx]
  cases Derive.labeled named at' (Derive.rows fs (ftrees K xs)) <;>
    simpa [fieldIndexes, Function.comp_def] using this

/-- A struct `{ x: bool, y: () }` -/
def inner : FV := .plain (.struct true (t! "B") {} [{ ident := some (t! "x") }, { ident := some (t! "y") }] [.bool true, .unit])

/-- `{ a: u8, #[sval(flatten)] b: B, #[sval(skip)] s: (), c: u8 }` -/
def outer : FV := .struct true (t! "A") {}
  [{ ident := some (t! "a") }, { ident := some (t! "b"), flatten := true }, { ident := some (t! "s"), skip := true },
    { ident := some (t! "c") }]
  [.plain (.int .u8 1), inner, .plain .unit, .plain (.int .u8 2)]

/-- Labels that are identifiers. -/
def identLabel (s : Text) : Label := (Label.new s).withTag tags.VALUE_IDENT

/-- The hypotheses of C40 hold. -/
example (K : V → Text) : fok K outer ∧
    fieldLabels (ftree K outer) = [identLabel (t! "a"), identLabel (t! "x"), identLabel (t! "y"), identLabel (t! "c")] ∧
    fieldIndexes (ftree K outer) = [offset 0, offset 1, offset 2, offset 3] := by
  refine ⟨⟨⟨rfl, rfl, ?_⟩, trivial, ⟨⟨rfl, by simp, rfl⟩, trivial, trivial, trivial⟩, trivial, trivial, trivial⟩, rfl, rfl⟩
  have he : Flatten.entries (ftree K inner) = [⟨none, none, some (identLabel (t! "x")), some (offset 0), .bool true⟩,
    ⟨none, none, some (identLabel (t! "y")), some (offset 1), .tag Serde.unitMeta⟩] := rfl
  refine ⟨⟨rfl, show Flatten.isIsize 1 by decide, ?_, ?_⟩, trivial⟩
  · rw [he]
    show Flatten.inRange 1 1 _
    decide
  · rw [he]
    simp [toks]

/-- C40 is false for flattened fields after explicit indexes: in `{ #[sval(index = 1)] a, #[sval(flatten)] b: B }`, the
indexes are 1, 0 and 1. -/
theorem C40_fails (K : V → Text) : (fieldIndexes (ftree K (.struct true (t! "A") {}
    [{ ident := some (t! "a"), index := some (.const 1) }, { ident := some (t! "b"), flatten := true }]
    [.plain (.int .u8 1), inner]))).map Index.val = [1, 0, 1] := rfl

/-- C40 is false for flattened values that have maps in them: with `b` a slice of a map, the map's key does not end, and
the struct is not balanced. -/
theorem C40_fails_maps : stream true (fun _ => []) (.struct true (t! "A") {}
      [{ ident := some (t! "b"), flatten := true }] [.plain (.slice [.map [.bool true] [.null]])]) (List Token) keepAll [] =
    .done true [.recordTupleBegin { label := some (identLabel (t! "A")) } none,
      .recordTupleValueBegin none (Label.newComputed (t! "0")) (offset 0),
      .mapBegin (some 1), .mapKeyBegin, .bool true, .mapKeyBegin, .mapValueBegin, .null, .mapValueEnd, .mapEnd,
      .recordTupleValueEnd none (Label.newComputed (t! "0")) (offset 0),
      .recordTupleEnd { label := some (identLabel (t! "A")) }] := by
  decide +kernel

end Sval
