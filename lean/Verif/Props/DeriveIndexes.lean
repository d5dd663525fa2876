import Verif.Props.Derive

set_option autoImplicit false

/-!
# C39, exactly: when derived indexes are different

An index that is given starts a run of indexes: those that are not given count on from it. Indexes are different exactly if no two
runs meet.
-/

namespace Sval

open Rust
open Derive (Field Attrs Shape Variant EnumDef IndexVal LabelVal Discr)

/-- The number of an index that is given. -/
def givenVal : IndexVal → Int
  | .const k => k
  | .path x => x.val

/-- The runs of indexes, first index and length, for a list of indexes that are given or not, when a run from `a` has `n` so far. A
literal starts a run. An index in a constant of its own is alone, as the macro cannot see it: the count goes on around it. -/
def runsFrom (a : Int) (n : Nat) : List (Option IndexVal) → List (Int × Nat)
  | [] => [(a, n)]
  | none :: r => runsFrom a (n + 1) r
  | some (.const k) :: r => (a, n) :: runsFrom k 1 r
  | some (.path x) :: r => (x.val, 1) :: (a, n) :: runsFrom (a + n + 1) 0 r

/-- Two runs that do not meet. -/
def Apart (r s : Int × Nat) : Prop := r.1 + r.2 ≤ s.1 ∨ s.1 + s.2 ≤ r.1 ∨ r.2 = 0 ∨ s.2 = 0

instance (r s : Int × Nat) : Decidable (Apart r s) := by unfold Apart; infer_instance

/-- The runs of the variants of an enum: those with `#[sval(index)]` are alone, the others are numbered among themselves. -/
def variantRuns (vs : List Variant) : List (Int × Nat) :=
  (vs.filterMap fun v => v.attrs.index.map fun i => (givenVal i, 1)) ++
    runsFrom 0 0 ((vs.filter fun v => v.attrs.index.isNone).map fun v => v.discr.bind Discr.toIndex)

/-! ## Runs -/

def runInts (r : Int × Nat) : List Int := (List.range r.2).map fun (k : Nat) => r.1 + (k : Int)

theorem mem_runInts {r : Int × Nat} {x : Int} : x ∈ runInts r ↔ r.1 ≤ x ∧ x < r.1 + r.2 := by
  simp only [runInts, List.mem_map, List.mem_range]
  exact ⟨fun ⟨k, hk, e⟩ => by omega, fun h => ⟨(x - r.1).toNat, by omega, by omega⟩⟩

theorem runInts_nodup (r : Int × Nat) : (runInts r).Nodup := by
  rw [runInts, List.Nodup, List.pairwise_map]
  exact List.Pairwise.imp (fun h e => h (by omega)) (List.nodup_range (n := r.2))

theorem apart_iff (r s : Int × Nat) : (∀ x ∈ runInts r, ∀ y ∈ runInts s, x ≠ y) ↔ Apart r s := by
  simp only [mem_runInts, Apart]
  constructor
  · intro h
    by_cases h1 : r.2 = 0
    · omega
    · by_cases h2 : s.2 = 0
      · omega
      · by_cases h3 : r.1 ≤ s.1
        · by_cases h4 : r.1 + r.2 ≤ s.1
          · exact .inl h4
          · exact absurd rfl (h s.1 ⟨by omega, by omega⟩ s.1 ⟨by omega, by omega⟩)
        · by_cases h4 : s.1 + s.2 ≤ r.1
          · exact .inr (.inl h4)
          · exact absurd rfl (h r.1 ⟨by omega, by omega⟩ r.1 ⟨by omega, by omega⟩)
  · intro h x hx y hy
    omega

theorem runs_nodup (rs : List (Int × Nat)) : (rs.flatMap runInts).Nodup ↔ rs.Pairwise Apart := by
  rw [List.Nodup, List.pairwise_flatMap]
  constructor
  · exact fun h => h.2.imp fun h => (apart_iff _ _).1 h
  · exact fun h => ⟨fun r _ => runInts_nodup r, h.imp fun h => (apart_iff _ _).2 h⟩

theorem runInts_succ (a : Int) (n : Nat) : runInts (a, n + 1) = runInts (a, n) ++ [a + n] := by
  simp [runInts, List.range_succ]

/-- What is counted are the runs. -/
theorem indexes_runs (is : List (Option IndexVal)) (a : Int) (n : Nat) (g : Bool) :
    (runInts (a, n) ++ (Derive.indexes (a + n) g is).map Index.val).Perm ((runsFrom a n is).flatMap runInts) := by
  induction is generalizing a n g with
  | nil => simp [Derive.indexes, runsFrom]
  | cons x is ih =>
    match x with
    | none =>
      have := ih a (n + 1) g
      rw [runInts_succ, List.append_assoc] at this
      simp only [Derive.indexes, runsFrom, List.map_cons]
      rw [show a + (n : Int) + 1 = a + ((n + 1 : Nat) : Int) by omega]
      exact this
    | some (.const k) =>
      have := ih k 1 true
      simp only [Derive.indexes, runsFrom, List.map_cons, List.flatMap_cons]
      rw [show runInts (k, 1) = [k] by simp [runInts]] at this
      exact this.append_left (runInts (a, n))
    | some (.path y) =>
      have := ih (a + n + 1) 0 true
      simp only [Derive.indexes, runsFrom, List.map_cons, List.flatMap_cons]
      rw [show runInts (y.val, 1) = [y.val] by simp [runInts]]
      refine List.perm_middle.trans (List.Perm.cons _ (List.Perm.append_left _ ?_))
      simpa [runInts] using this

/-- Variants with an index of their own, and the others. -/
theorem variants_perm (is : List Index) (vs : List Variant) (hl : is.length = (vs.filter fun v => v.attrs.index.isNone).length) :
    ((variantIndexes.go is vs).map (fun x => x.map Index.val)).Perm
      (((vs.filterMap fun v => v.attrs.index.map givenVal) ++ is.map Index.val).map some) := by
  induction vs generalizing is with
  | nil =>
    have : is = [] := by simpa using hl
    subst this
    exact .nil
  | cons v vs ih =>
    unfold variantIndexes.go
    cases h : v.attrs.index with
    | none =>
      rw [List.filter_cons_of_pos (by simp [h])] at hl
      match is, hl with
      | i :: is, hl =>
        rw [List.filterMap_cons_none (by simp [h])]
        simp only [List.head?_cons, List.tail_cons, List.map_cons, Option.map_some, List.map_append]
        refine List.Perm.trans (List.Perm.cons _ (ih is (by simpa using hl))) ?_
        rw [List.map_append]
        exact List.perm_middle.symm
    | some k =>
      rw [List.filter_cons_of_neg (by simp [h])] at hl
      rw [List.filterMap_cons_some (b := givenVal k) (by simp [h])]
      cases k <;> exact List.Perm.cons _ (ih is hl)

/-! ## C39 -/

/-- C39 for fields, exactly: the fields of a derived struct have different indexes if and only if the runs of their indexes do not
meet. -/
theorem C39_fields_exact (named : Bool) (ident : Text) (at' : Attrs) (hi : at'.unindexed = false) (fs : List Field) (vs : List RV)
    (hl : fs.length = vs.length) :
    ((fieldIndexes (tree (.struct named ident at' fs vs))).map Index.val).Nodup ↔
      (runsFrom 0 0 ((fs.filter fun f => !f.skip).map Field.index)).Pairwise Apart := by
  rw [tree, fieldIndexes_struct named at' hi _ _ _ (by rw [trees_eq, List.length_map]; exact hl), ← runs_nodup]
  have := indexes_runs ((fs.filter fun f => !f.skip).map Field.index) 0 0 false
  simp only [runInts, List.range_zero, List.map_nil, List.nil_append] at this
  exact this.nodup_iff

/-- C39 for variants, exactly: the variants of a derived enum that can be made have different indexes if and only if the runs of
their indexes do not meet. -/
theorem C39_variants_exact (d : EnumDef) (hd : d.dyn = false) (hu : d.unindexedVariants = false)
    (ha : ∀ i, i < d.variants.length → ∃ vs, ok (.enum d i vs)) :
    (∀ i j vs ws, ok (.enum d i vs) → ok (.enum d j ws) → i ≠ j →
      (variantIndex (tree (.enum d i vs))).map Index.val ≠ (variantIndex (tree (.enum d j ws))).map Index.val) ↔
    (variantRuns d.variants).Pairwise Apart := by
  have hp : ((variantIndexes d d.variants).map (fun x => x.map Index.val)).Perm
      (((variantRuns d.variants).flatMap runInts).map some) := by
    have h1 := variants_perm (Derive.indexes 0 false ((d.variants.filter fun v => v.attrs.index.isNone).map Derive.discrIndex)) d.variants
      (by rw [Derive.indexes_length, List.length_map])
    have h2 := indexes_runs ((d.variants.filter fun v => v.attrs.index.isNone).map Derive.discrIndex) 0 0 false
    simp only [runInts, List.range_zero, List.map_nil, List.nil_append] at h2
    unfold variantIndexes
    rw [hd, hu]
    refine List.Perm.trans h1 (List.Perm.map _ ?_)
    rw [variantRuns, List.flatMap_append]
    have h3 : ∀ vs : List Variant, (vs.filterMap fun v => v.attrs.index.map fun i => (givenVal i, 1)).flatMap runInts =
        vs.filterMap fun v => v.attrs.index.map givenVal := by
      intro vs
      induction vs with
      | nil => rfl
      | cons v vs ih => cases h : v.attrs.index <;> simp [h, ih, runInts]
    rw [h3]
    exact List.Perm.append_left _ h2
  have hn : ((variantIndexes d d.variants).map (fun x => x.map Index.val)).Nodup ↔ (variantRuns d.variants).Pairwise Apart := by
    rw [hp.nodup_iff, ← runs_nodup, List.Nodup, List.Nodup, List.pairwise_map]
    exact ⟨fun h => h.imp fun h e => h (by rw [e]), fun h => h.imp fun h e => h (Option.some.inj e)⟩
  have hlen : (variantIndexes d d.variants).length = d.variants.length := by
    have : ∀ (vs : List Variant) (is : List Index), (variantIndexes.go is vs).length = vs.length := by
      intro vs
      induction vs with
      | nil => intro is; rfl
      | cons v vs ih =>
        intro is
        unfold variantIndexes.go
        cases v.attrs.index with
        | none => simp [ih]
        | some k => cases k <;> simp [ih]
    exact this _ _
  rw [← hn, List.Nodup, List.pairwise_iff_getElem]
  have look : ∀ i vs, ok (.enum d i vs) → ∃ h : i < (variantIndexes d d.variants).length,
      (variantIndex (tree (.enum d i vs))).map Index.val = ((variantIndexes d d.variants)[i]).map Index.val := by
    intro i vs hx
    have hlt : i < (variantIndexes d d.variants).length := by
      obtain ⟨⟨v, hi, _⟩, _⟩ := hx
      rw [hlen]
      exact (List.getElem?_eq_some_iff.mp hi).1
    refine ⟨hlt, ?_⟩
    rw [variantIndex_tree d hd i vs hx, List.getElem?_eq_getElem hlt, Option.getD_some]
  constructor
  · intro h i j h1 h2 hij
    simp only [List.length_map, hlen] at h1 h2
    obtain ⟨vs, hv⟩ := ha i h1
    obtain ⟨ws, hw⟩ := ha j h2
    have := h i j vs ws hv hw (by omega)
    obtain ⟨_, e1⟩ := look i vs hv
    obtain ⟨_, e2⟩ := look j ws hw
    rw [e1, e2] at this
    simpa using this
  · intro h i j vs ws hv hw hij
    obtain ⟨l1, e1⟩ := look i vs hv
    obtain ⟨l2, e2⟩ := look j ws hw
    rw [e1, e2]
    rcases Nat.lt_or_gt_of_ne hij with hlt | hlt
    · have := h i j (by simpa using l1) (by simpa using l2) hlt
      simpa using this
    · have := h j i (by simpa using l2) (by simpa using l1) hlt
      simpa using this.symm

/-- `#[sval(index = 5)] a, b, #[sval(index = 2)] c, d, e, #[sval(index = 9)] f`: different, although they go back. With one more
field before `f` they are not. -/
def backAndForth (more : List Field) : List Field :=
  [{ ident := some (t! "a"), index := some (.const 5) }, { ident := some (t! "b") }, { ident := some (t! "c"), index := some (.const 2) },
   { ident := some (t! "d") }, { ident := some (t! "e") }] ++ more ++ [{ ident := some (t! "f"), index := some (.const 9) }]

example : ok (.struct true (t! "S") {} (backAndForth []) (List.replicate 6 .unit)) ∧
    (runsFrom 0 0 (((backAndForth []).filter fun f => !f.skip).map Field.index)).Pairwise Apart ∧
    runsFrom 0 0 (((backAndForth []).filter fun f => !f.skip).map Field.index) = [(0, 0), (5, 2), (2, 3), (9, 1)] ∧
    ¬ (runsFrom 0 0 (((backAndForth [{ ident := some (t! "x") }]).filter fun f => !f.skip).map Field.index)).Pairwise Apart := by
  refine ⟨⟨⟨rfl, ?_, rfl⟩, trivial, trivial, trivial, trivial, trivial, trivial, trivial⟩, by decide, rfl, by decide⟩
  decide

/-- The enum of `C39_fails`: a given index that one of the others has, too. -/
example : variantRuns attrEnum.variants = [(1, 1), (0, 2)] ∧ ¬ (variantRuns attrEnum.variants).Pairwise Apart ∧
    ∀ i, i < attrEnum.variants.length → ∃ vs, ok (.enum attrEnum i vs) := by
  refine ⟨rfl, by decide, fun i hi => ⟨[], ?_⟩⟩
  match i, hi with
  | 0, _ => exact ⟨⟨_, rfl, rfl⟩, trivial⟩
  | 1, _ => exact ⟨⟨_, rfl, rfl⟩, trivial⟩
  | 2, _ => exact ⟨⟨_, rfl, rfl⟩, trivial⟩

end Sval
