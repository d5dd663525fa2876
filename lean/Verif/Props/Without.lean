import Verif.Props.Shown
import Verif.Props.KeptExact

set_option autoImplicit false

/-!
# C104 and C106 with skipped fields

A type whose fields are skipped is streamed like one that does not have them. So nothing else is lost, if nothing is lost
without them.
-/

namespace Sval

open Nested (prog)
open Rust
open Derive (Field Attrs Shape Variant EnumDef)

/-! ## Without skipped fields -/

namespace Skip

/-- The fields that are not skipped. -/
def keep (fs : List Field) : List Field := fs.filter fun f => !f.skip

def keepShape : Shape → Shape
  | .named fs => .named (keep fs)
  | .unnamed fs => .unnamed (keep fs)
  | s => s

def keepVariant (v : Variant) : Variant := { v with shape := keepShape v.shape }

/-- The enum as it would be without the fields that are skipped. -/
def keepEnum (d : EnumDef) : EnumDef := { d with variants := d.variants.map keepVariant }

/-- The fields of a variant. -/
def fieldsAt (d : EnumDef) (i : Nat) : List Field := (d.variants[i]?.map fun v => fieldsOf v.shape).getD []

/-- Where a field was that is not skipped. -/
def place : List Field → Nat → Nat
  | [], k => k
  | f :: fs, k => if f.skip then place fs k + 1 else match k with
    | 0 => 0
    | k + 1 => place fs k + 1

end Skip

open Skip

namespace Rust

mutual
/-- The value without what is in fields that are skipped, of the type without them. -/
def without : RV → RV
  | .some v => .some (without v)
  | .boxed v => .boxed (without v)
  | .slice xs => .slice (withouts [] xs)
  | .array xs => .array (withouts [] xs)
  | .tuple xs => .tuple (withouts [] xs)
  | .map ks vs => .map (withouts [] ks) (withouts [] vs)
  | .newtype n a b v => .newtype n a b (without v)
  | .struct b n a fs vs => .struct b n a (keep fs) (withouts fs vs)
  | .enum d i vs => .enum (keepEnum d) i (withouts (fieldsAt d i) vs)
  | v => v
/-- The same for values in fields, if there are fields. -/
def withouts : List Field → List RV → List RV
  | _, [] => []
  | [], v :: vs => without v :: withouts [] vs
  | f :: fs, v :: vs => if f.skip then withouts fs vs else without v :: withouts fs vs
end

end Rust

/-- The type without the fields that are skipped. -/
def Ty.without : Ty → Ty
  | .option t => .option t.without
  | .boxed t => .boxed t.without
  | .slice t => .slice t.without
  | .array t => .array t.without
  | .tuple n ts => .tuple n fun i => (ts i).without
  | .map k t => .map k.without t.without
  | .newtype n a b t => .newtype n a b t.without
  | .struct b n a fs ts => .struct b n a (keep fs) fun k => (ts (place fs k)).without
  | .enum d ts => .enum (keepEnum d) fun i k => (ts i (place (fieldsAt d i) k)).without
  | t => t

namespace Skip

theorem withouts_nil (vs : List RV) : withouts [] vs = vs.map without := by
  induction vs with
  | nil => rfl
  | cons v vs ih => rw [withouts, ih]; rfl

/-! ## It is streamed the same -/

theorem rows_withouts (fs : List Field) (vs : List RV) (h : ∀ v ∈ vs, tree (without v) = tree v) :
    Derive.rows (keep fs) (trees (withouts fs vs)) = Derive.rows fs (trees vs) := by
  induction vs generalizing fs with
  | nil => simp [withouts, trees, Derive.rows]
  | cons v vs ih =>
    cases fs with
    | nil => rfl
    | cons f fs =>
      have ih := ih fs fun w hw => h w (by simp [hw])
      simp only [Derive.rows] at ih
      cases hs : f.skip
      · simp [withouts, keep, trees, Derive.rows, hs, h v (by simp), ← ih]
      · simp [withouts, keep, trees, Derive.rows, hs, ← ih]

theorem structTree_withouts (named : Bool) (at' : Attrs) (m : Meta) (fs : List Field) (vs : List RV) (h : ∀ v ∈ vs, tree (without v) = tree v) :
    Derive.structTree named at' m (keep fs) (trees (withouts fs vs)) = Derive.structTree named at' m fs (trees vs) := by
  simp only [Derive.structTree, rows_withouts fs vs h]

theorem indexes_keep (d : EnumDef) : variantIndexes (keepEnum d) (keepEnum d).variants = variantIndexes d d.variants := by
  have go : ∀ (vs : List Variant) is, variantIndexes.go is (vs.map keepVariant) = variantIndexes.go is vs := by
    intro vs
    induction vs with
    | nil => intro is; rfl
    | cons v vs ih =>
      intro is
      rw [List.map_cons, variantIndexes.go, variantIndexes.go, ih, ih]
      rfl
  have fil : ∀ vs : List Variant, ((vs.map keepVariant).filter fun v => v.attrs.index.isNone).map Derive.discrIndex =
      (vs.filter fun v => v.attrs.index.isNone).map Derive.discrIndex := by
    intro vs
    rw [List.filter_map, List.map_map]
    rfl
  simp only [variantIndexes, keepEnum, go, fil]

theorem name_keep (d : EnumDef) (v : Variant) : Derive.variantName (keepEnum d) (keepVariant v) = Derive.variantName d v := by
  have : Derive.isUnit (keepShape v.shape) = Derive.isUnit v.shape := by cases v.shape <;> rfl
  simp only [Derive.variantName, keepEnum, keepVariant, this]

theorem tree_without (x : RV) : tree (without x) = tree x := by
  induction x using RV.ind with
  | h x ih =>
    have all : ∀ vs : List RV, (∀ v ∈ vs, tree (without v) = tree v) → trees (withouts [] vs) = trees vs := by
      intro vs h
      rw [withouts_nil, trees_eq, trees_eq, List.map_map]
      exact List.map_congr_left h
    have len : ∀ vs : List RV, (withouts [] vs).length = vs.length := by
      intro vs
      rw [withouts_nil, List.length_map]
    cases x with
    | some v => simp only [without, tree, ih v (by simp [Rust.parts])]
    | boxed v => simp only [without, tree, ih v (by simp [Rust.parts])]
    | newtype n a b v => simp only [without, tree, ih v (by simp [Rust.parts])]
    | slice xs => simp only [without, tree, len, all xs fun v hv => ih v (by simp [Rust.parts, hv])]
    | array xs => simp only [without, tree, len, all xs fun v hv => ih v (by simp [Rust.parts, hv])]
    | tuple xs => simp only [without, tree, len, all xs fun v hv => ih v (by simp [Rust.parts, hv])]
    | map ks vs =>
      simp only [without, tree, len, all ks fun v hv => ih v (by simp [Rust.parts, hv]), all vs fun v hv => ih v (by simp [Rust.parts, hv])]
    | struct b n a fs vs => simp only [without, tree, structTree_withouts _ _ _ fs vs fun v hv => ih v (by simp [Rust.parts, hv])]
    | enum d i vs =>
      have ih : ∀ v ∈ vs, tree (without v) = tree v := fun v hv => ih v (by simp [Rust.parts, hv])
      rw [without, tree, tree, indexes_keep]
      have hk : (keepEnum d).variants[i]? = d.variants[i]?.map keepVariant := by simp [keepEnum]
      rw [hk]
      cases hv : d.variants[i]? with
      | none => rfl
      | some v =>
        simp only [Option.map_some, fieldsAt, hv, Option.getD_some]
        have : ∀ k, Derive.variantTree (keepEnum d) (keepVariant v) k (trees (withouts (fieldsOf v.shape) vs)) =
            Derive.variantTree d v k (trees vs) := by
          intro k
          simp only [Derive.variantTree, name_keep]
          simp only [keepVariant]
          cases hs : v.shape with
          | unit => rfl
          | newtype => simp only [fieldsOf, keepShape, all vs ih]; rfl
          | named fs => simp only [fieldsOf, keepShape, structTree_withouts _ _ _ fs vs ih]
          | unnamed fs => simp only [fieldsOf, keepShape, structTree_withouts _ _ _ fs vs ih]
        rw [this]
        rfl
    | _ => rfl

/-! ## It is a value of the type without them -/

theorem plans_keep (at' : Attrs) (fs : List Field) (a : Derive.Alloc) : Derive.plans at' a (keep fs) = Derive.plans at' a fs := by
  induction fs generalizing a with
  | nil => rfl
  | cons f fs ih =>
    cases hs : f.skip
    · simp only [keep, List.filter_cons, hs, Bool.not_false, if_true, Derive.plans, Bool.false_eq_true, if_false]
      rw [← ih]; rfl
    · simp only [keep, List.filter_cons, hs, Bool.not_true, Bool.false_eq_true, if_false, Derive.plans, if_true]
      rw [← ih]; rfl

theorem length_keep (fs : List Field) (vs : List RV) (h : fs.length = vs.length) : (keep fs).length = (withouts fs vs).length := by
  induction vs generalizing fs with
  | nil => rw [List.length_eq_zero_iff.1 h]; rfl
  | cons v vs ih =>
    cases fs with
    | nil => cases h
    | cons f fs =>
      have ih := ih fs (by simpa using h)
      cases hs : f.skip
      · simpa [keep, withouts, hs] using ih
      · simpa [keep, withouts, hs] using ih

theorem okFields_keep {at' : Attrs} {fs : List Field} {vs : List RV} (h : okFields at' fs vs.length) :
    okFields at' (keep fs) (withouts fs vs).length := by
  obtain ⟨h1, h2, h3⟩ := h
  refine ⟨?_, fun f hf => h2 f (List.mem_filter.1 hf).1, length_keep fs vs h3⟩
  simp only [Derive.accepted, plans_keep, Bool.and_eq_true] at h1 ⊢
  refine ⟨List.all_eq_true.2 fun f hf => List.all_eq_true.1 h1.1 f (List.mem_filter.1 hf).1, h1.2⟩

theorem getElem_withouts (fs : List Field) (vs : List RV) (k : Nat) (x : RV) (h : (withouts fs vs)[k]? = some x) :
    ∃ v, vs[place fs k]? = some v ∧ x = without v := by
  induction vs generalizing fs k with
  | nil => cases fs <;> simp [withouts] at h
  | cons v vs ih =>
    cases fs with
    | nil =>
      rw [withouts_nil, List.getElem?_map] at h
      simp only [Option.map_eq_some_iff] at h
      obtain ⟨w, h1, rfl⟩ := h
      exact ⟨w, h1, rfl⟩
    | cons f fs =>
      cases hs : f.skip
      · simp only [withouts, hs, Bool.false_eq_true, if_false] at h
        cases k with
        | zero => cases h; exact ⟨v, by simp [place, hs], rfl⟩
        | succ k =>
          obtain ⟨w, h1, h2⟩ := ih fs k h
          exact ⟨w, by simpa [place, hs] using h1, h2⟩
      · simp only [withouts, hs, if_true] at h
        obtain ⟨w, h1, h2⟩ := ih fs k h
        exact ⟨w, by simpa [place, hs] using h1, h2⟩

theorem has_without (ty : Ty) (x : RV) (hx : ty.has x) : ty.without.has (without x) := by
  have all : ∀ (t : Ty) (xs : List RV), (∀ x, t.has x → t.without.has (without x)) → (∀ x ∈ xs, t.has x) →
      ∀ x ∈ withouts [] xs, t.without.has x := by
    intro t xs h hx x h'
    rw [withouts_nil, List.mem_map] at h'
    obtain ⟨y, hy, rfl⟩ := h'
    exact h y (hx y hy)
  induction ty generalizing x with
  | unit | bool | f32 | f64 | int | char | str | bytes | byteArray | unitStruct =>
    cases x <;> first | exact (show False from hx).elim | exact hx
  | option t ih =>
    cases x <;> first | exact (show False from hx).elim | skip
    · trivial
    · exact ih _ hx
  | boxed t ih =>
    cases x <;> first | exact (show False from hx).elim | skip
    exact ih _ hx
  | slice t ih | array t ih =>
    cases x <;> first | exact (show False from hx).elim | skip
    exact all t _ ih hx
  | tuple n ts ih =>
    cases x <;> first | exact (show False from hx).elim | skip
    refine ⟨by rw [withouts_nil, List.length_map]; exact hx.1, fun i y hy => ?_⟩
    obtain ⟨v, h1, rfl⟩ := getElem_withouts _ _ _ _ hy
    exact ih i v (hx.2 i v h1)
  | map k t ihk ih =>
    cases x <;> first | exact (show False from hx).elim | skip
    obtain ⟨hl, h1, h2⟩ := hx
    refine ⟨by simpa [withouts_nil] using hl, all k _ ihk h1, all t _ ih h2⟩
  | newtype n a b t ih =>
    cases x <;> first | exact (show False from hx).elim | skip
    exact ⟨hx.1, hx.2.1, hx.2.2.1, ih _ hx.2.2.2⟩
  | struct b n a fs ts ih =>
    cases x <;> first | exact (show False from hx).elim | skip
    obtain ⟨rfl, rfl, rfl, rfl, ho, hx⟩ := hx
    refine ⟨rfl, rfl, rfl, rfl, okFields_keep ho, fun k y hy => ?_⟩
    obtain ⟨v, h1, rfl⟩ := getElem_withouts _ _ _ _ hy
    exact ih _ v (hx _ v h1)
  | enum d ts ih =>
    cases x <;> first | exact (show False from hx).elim | skip
    rename_i i vs
    obtain ⟨rfl, ⟨v, hv, ho⟩, hx⟩ := hx
    refine ⟨rfl, ⟨keepVariant v, by simp [keepEnum, hv], ?_⟩, fun k y hy => ?_⟩
    · simp only [fieldsAt, hv, Option.map_some, Option.getD_some]
      simp only [okVariant, keepVariant] at ho ⊢
      cases hs : v.shape with
      | unit => simp only [hs] at ho; simp only [keepShape, fieldsOf, withouts_nil, List.length_map, ho]
      | newtype => simp only [hs] at ho; simp only [keepShape, fieldsOf, withouts_nil, List.length_map, ho]
      | named fs => simp only [hs] at ho; exact okFields_keep ho
      | unnamed fs => simp only [hs] at ho; exact okFields_keep ho
    · obtain ⟨v, h1, rfl⟩ := getElem_withouts _ _ _ _ hy
      exact ih _ _ v (hx _ v h1)

/-! ## They only differ in skipped fields -/

theorem withouts_blanks (fs : List Field) (vs : List RV) (h : ∀ v ∈ vs, without (blank v) = without v) :
    withouts fs (blanks fs vs) = withouts fs vs := by
  induction vs generalizing fs with
  | nil => cases fs <;> rfl
  | cons v vs ih =>
    have ih := fun fs => ih fs fun w hw => h w (by simp [hw])
    cases fs with
    | nil => rw [blanks, withouts, withouts, ih, h v (by simp)]
    | cons f fs =>
      rw [blanks, withouts, withouts, ih]
      cases f.skip
      · simp [h v (by simp)]
      · simp

theorem without_blank (x : RV) : without (blank x) = without x := by
  induction x using RV.ind with
  | h x ih =>
    cases x <;> first
      | rfl
      | (simp only [blank, without]; rw [withouts_blanks _ _ fun v hv => ih v (by simp [Rust.parts, hv])]; done)
      | (simp only [blank, without]; rw [withouts_blanks _ _ fun v hv => ih v (by simp [Rust.parts, hv]),
          withouts_blanks _ _ fun v hv => ih v (by simp [Rust.parts, hv])])
      | (simp only [blank, without]; rw [ih _ (by simp [Rust.parts])])
      | (simp only [blank, without]; rw [show ∀ d i, ((d.variants[i]?.map fun v => fieldsOf v.shape).getD []) = fieldsAt d i from fun _ _ => rfl, withouts_blanks _ _ fun v hv => ih v (by simp [Rust.parts, hv])])

theorem blanks_of (fs : List Field) (vs ws : List RV) (hl : vs.length = ws.length) (h : withouts fs vs = withouts fs ws)
    (hi : ∀ (i : Nat) x y, vs[i]? = some x → ws[i]? = some y → without x = without y → blank x = blank y) : blanks fs vs = blanks fs ws := by
  induction vs generalizing fs ws with
  | nil => rw [List.length_eq_zero_iff.1 hl.symm]
  | cons v vs ih =>
    cases ws with
    | nil => cases hl
    | cons w ws =>
      have ih := fun fs h => ih fs ws (by simpa using hl) h fun i x y e1 e2 => hi (i + 1) x y e1 e2
      cases fs with
      | nil =>
        simp only [withouts, List.cons.injEq] at h
        rw [blanks, blanks, ih [] h.2, hi 0 v w rfl rfl h.1]
      | cons f fs =>
        simp only [withouts] at h
        rw [blanks, blanks]
        cases hs : f.skip with
        | true =>
          rw [hs, if_pos rfl, if_pos rfl] at h
          rw [ih fs h]; rfl
        | false =>
          rw [hs] at h
          simp only [Bool.false_eq_true, if_false, List.cons.injEq] at h
          rw [ih fs h.2, hi 0 v w rfl rfl h.1]

/-- Values of a type are the same without what is skipped exactly if they are the same but for that. -/
theorem without_iff (ty : Ty) (x y : RV) (hx : ty.has x) (hy : ty.has y) : without x = without y ↔ blank x = blank y := by
  refine ⟨fun h => ?_, fun h => by rw [← without_blank x, h, without_blank]⟩
  have len : ∀ xs ys : List RV, withouts [] xs = withouts [] ys → xs.length = ys.length := by
    intro xs ys h
    have := congrArg List.length h
    simpa [withouts_nil] using this
  induction ty generalizing x y with
  | unit | bool | f32 | f64 | int | char | str | bytes | byteArray | unitStruct =>
    cases x <;> first | exact (show False from hx).elim | skip
    cases y <;> first | exact (show False from hy).elim | skip
    exact h
  | option t ih =>
    cases x <;> first | exact (show False from hx).elim | skip
    · cases y <;> first | exact (show False from hy).elim | skip
      · rfl
      · cases h
    · cases y <;> first | exact (show False from hy).elim | skip
      · cases h
      · exact congrArg RV.some (ih _ _ hx hy (RV.some.inj h))
  | boxed t ih =>
    cases x <;> first | exact (show False from hx).elim | skip
    cases y <;> first | exact (show False from hy).elim | skip
    exact congrArg RV.boxed (ih _ _ hx hy (RV.boxed.inj h))
  | slice t ih =>
    cases x <;> first | exact (show False from hx).elim | skip
    cases y <;> first | exact (show False from hy).elim | skip
    have h := RV.slice.inj h
    exact congrArg RV.slice (blanks_of _ _ _ (len _ _ h) h fun i x y e1 e2 => ih x y (hx x (List.mem_of_getElem? e1)) (hy y (List.mem_of_getElem? e2)))
  | array t ih =>
    cases x <;> first | exact (show False from hx).elim | skip
    cases y <;> first | exact (show False from hy).elim | skip
    have h := RV.array.inj h
    exact congrArg RV.array (blanks_of _ _ _ (len _ _ h) h fun i x y e1 e2 => ih x y (hx x (List.mem_of_getElem? e1)) (hy y (List.mem_of_getElem? e2)))
  | tuple n ts ih =>
    cases x <;> first | exact (show False from hx).elim | skip
    cases y <;> first | exact (show False from hy).elim | skip
    have h := RV.tuple.inj h
    exact congrArg RV.tuple (blanks_of _ _ _ (len _ _ h) h fun i x y e1 e2 => ih i x y (hx.2 i x e1) (hy.2 i y e2))
  | map k t ihk ih =>
    cases x <;> first | exact (show False from hx).elim | skip
    cases y <;> first | exact (show False from hy).elim | skip
    obtain ⟨_, h1, h2⟩ := hx
    obtain ⟨_, h3, h4⟩ := hy
    obtain ⟨e1, e2⟩ := RV.map.inj h
    simp only [blank]
    rw [blanks_of _ _ _ (len _ _ e1) e1 fun i x y e1 e2 => ihk x y (h1 x (List.mem_of_getElem? e1)) (h3 y (List.mem_of_getElem? e2)),
      blanks_of _ _ _ (len _ _ e2) e2 fun i x y e1 e2 => ih x y (h2 x (List.mem_of_getElem? e1)) (h4 y (List.mem_of_getElem? e2))]
  | newtype n a b t ih =>
    cases x <;> first | exact (show False from hx).elim | skip
    cases y <;> first | exact (show False from hy).elim | skip
    obtain ⟨rfl, rfl, rfl, hx⟩ := hx
    obtain ⟨rfl, rfl, rfl, hy⟩ := hy
    simp only [blank, ih _ _ hx hy (RV.newtype.inj h).2.2.2]
  | struct b n a fs ts ih =>
    cases x <;> first | exact (show False from hx).elim | skip
    cases y <;> first | exact (show False from hy).elim | skip
    obtain ⟨rfl, rfl, rfl, rfl, ho, hx⟩ := hx
    obtain ⟨rfl, rfl, rfl, rfl, ho', hy⟩ := hy
    have h := (RV.struct.inj h).2.2.2.2
    simp only [blank]
    rw [blanks_of _ _ _ (ho.2.2.symm.trans ho'.2.2) h fun i x y e1 e2 => ih i x y (hx i x e1) (hy i y e2)]
  | enum d ts ih =>
    cases x <;> first | exact (show False from hx).elim | skip
    cases y <;> first | exact (show False from hy).elim | skip
    rename_i i xs _ i' ys
    obtain ⟨rfl, ⟨v, hv, ho⟩, hx⟩ := hx
    obtain ⟨rfl, ⟨v', hv', ho'⟩, hy⟩ := hy
    obtain ⟨_, rfl, h⟩ := RV.enum.inj h
    rw [hv] at hv'
    cases hv'
    have hl : xs.length = ys.length := by
      simp only [okVariant] at ho ho'
      cases hs : v.shape <;> simp only [hs] at ho ho'
      · rw [ho, ho']
      · rw [ho, ho']
      · exact ho.2.2.symm.trans ho'.2.2
      · exact ho.2.2.symm.trans ho'.2.2
    have := blanks_of _ _ _ hl h fun n x y e1 e2 => ih i n x y (hx n x e1) (hy n y e2)
    simp only [fieldsAt] at this
    simp only [blank, this]

end Skip

/-! ## C104 and C106 -/

theorem json_tree (env : Json.Env) (x : RV) (hx : ok x) : Json.toString env (prog (items x)) = Json.toString env (valueOf (tree x)) := by
  simp only [Json.toString, Json.toFmt, (C38 _ x hx _).1]

/-- C104 with skipped fields, exactly: the JSON of two values is the same if and only if they are the same but for skipped fields, for types that
are fine without these. -/
theorem C104_skip (env : Json.Env) (ty : Ty) (hf : ty.without.fine) (x y : RV) (hx : ty.has x) (hy : ty.has y) (hc : clear (without x) = true)
    (hc' : clear (without y) = true) :
    Json.toString env (prog (items x)) = Json.toString env (prog (items y)) ↔ blank x = blank y := by
  rw [← without_iff ty x y hx hy]
  have wx := has_without ty x hx
  have wy := has_without ty y hy
  rw [json_tree env x (ty.has_ok x hx), json_tree env y (ty.has_ok y hy), ← tree_without x, ← tree_without y,
    ← json_tree env _ (ty.without.has_ok _ wx), ← json_tree env _ (ty.without.has_ok _ wy)]
  exact ⟨C104_partial env ty.without hf _ _ wx wy hc hc', fun h => by rw [h]⟩

/-- C106 with skipped fields, exactly: two values are printed the same if and only if they are the same but for skipped fields, for types that
are fine without these. -/
theorem C106_skip (env : Fmt.Env) (ty : Ty) (hk : ty.without.shown) (x y : RV) (hx : ty.has x) (hy : ty.has y) :
    Fmt.toString env (prog (items x)) = Fmt.toString env (prog (items y)) ↔ blank x = blank y := by
  rw [← without_iff ty x y hx hy]
  have wx := has_without ty x hx
  have wy := has_without ty y hy
  rw [toString_say env x (ty.has_ok x hx), toString_say env y (ty.has_ok y hy), ← tree_without x, ← tree_without y,
    ← toString_say env _ (ty.without.has_ok _ wx), ← toString_say env _ (ty.without.has_ok _ wy)]
  exact ⟨C106_partial env ty.without hk _ _ wx wy, fun h => by rw [h]⟩

/-- `struct P { x: Option<bool>, #[sval(skip)] y: f64 }`, where `y` is all that is lost in JSON and in text, although it is a float. -/
example (je : Json.Env) (fe : Fmt.Env) (x x' : Bool) (y y' : UInt64) :
    let p (x : Bool) (y : UInt64) : RV := .struct true (t! "P") {} [{ ident := some (t! "x") }, { ident := some (t! "y"), skip := true }] [.some (.bool x), .f64 y]
    (Json.toString je (prog (items (p x y))) = Json.toString je (prog (items (p x' y'))) ↔ x = x') ∧
      (Fmt.toString fe (prog (items (p x y))) = Fmt.toString fe (prog (items (p x' y'))) ↔ x = x') := by
  intro p
  let ty : Ty := .struct true (t! "P") {} [{ ident := some (t! "x") }, { ident := some (t! "y"), skip := true }] fun
    | 0 => .option .bool
    | 1 => .f64
    | _ => .unit
  have hp : ∀ x y, ty.has (p x y) := by
    intro x y
    refine ⟨rfl, rfl, rfl, rfl, ⟨rfl, ?_, rfl⟩, ?_⟩
    · intro f hf
      simp only [List.mem_cons, List.not_mem_nil, or_false] at hf
      rcases hf with rfl | rfl <;> exact .inr rfl
    · rintro (_ | _ | i) v hv <;> cases hv <;> trivial
  have hf : ty.without.fine := by
    refine ⟨?_, ?_⟩
    · intro f hf
      simp only [keep, List.mem_filter, Bool.not_eq_true'] at hf
      exact hf.2
    · rintro (_ | i)
      · exact ⟨trivial, trivial⟩
      · exact trivial
  have hs : ty.without.shown := by
    refine ⟨⟨nofun, rfl⟩, ?_, ?_⟩
    · intro f hf
      simp only [keep, List.mem_filter, Bool.not_eq_true', List.mem_cons, List.not_mem_nil, or_false] at hf
      refine ⟨hf.2, ?_⟩
      rcases hf.1 with rfl | rfl <;> nofun
    · rintro (_ | i) <;> exact trivial
  have hb : blank (p x y) = blank (p x' y') ↔ x = x' := by simp [p, blank, blanks]
  refine ⟨?_, ?_⟩
  · rw [C104_skip je ty hf _ _ (hp x y) (hp x' y') rfl rfl, hb]
  · rw [C106_skip fe ty hs _ _ (hp x y) (hp x' y'), hb]

end Sval
