import Verif.Props.Kept

set_option autoImplicit false

/-!
# C105, exactly: what can be told from the calls

Skipped fields are the only thing that is lost: two values of a type make the same calls exactly if they are the same but for those.
-/

namespace Sval

open Nested (prog Sees)
open Rust
open Derive (Field Attrs Shape Variant EnumDef)
open Buf (collect replay)
open Serde (calls)

namespace Rust

mutual
/-- The value with `()` for everything in skipped fields. -/
def blank : RV → RV
  | .some v => .some (blank v)
  | .boxed v => .boxed (blank v)
  | .slice xs => .slice (blanks [] xs)
  | .array xs => .array (blanks [] xs)
  | .tuple xs => .tuple (blanks [] xs)
  | .map ks vs => .map (blanks [] ks) (blanks [] vs)
  | .newtype n a b v => .newtype n a b (blank v)
  | .struct b n a fs vs => .struct b n a fs (blanks fs vs)
  | .enum d i vs => .enum d i (blanks ((d.variants[i]?.map fun v => fieldsOf v.shape).getD []) vs)
  | v => v
/-- The same for values in fields, if there are fields. -/
def blanks : List Field → List RV → List RV
  | _, [] => []
  | [], v :: vs => blank v :: blanks [] vs
  | f :: fs, v :: vs => (if f.skip then .unit else blank v) :: blanks fs vs
end

theorem blanks_nil (vs : List RV) : blanks [] vs = vs.map blank := by
  induction vs with
  | nil => rfl
  | cons v vs ih => rw [blanks, ih]; rfl

theorem blanks_length (fs : List Field) (vs : List RV) : (blanks fs vs).length = vs.length := by
  induction vs generalizing fs with
  | nil => cases fs <;> rfl
  | cons v vs ih => cases fs <;> simp [blanks, ih]

/-! ## Skipped fields are not streamed -/

theorem rows_blanks (fs : List Field) (vs : List RV) (h : ∀ v ∈ vs, tree (blank v) = tree v) :
    Derive.rows fs (trees (blanks fs vs)) = Derive.rows fs (trees vs) := by
  induction vs generalizing fs with
  | nil => cases fs <;> rfl
  | cons v vs ih =>
    cases fs with
    | nil => rfl
    | cons f fs =>
      have ih := ih fs fun w hw => h w (by simp [hw])
      simp only [Derive.rows] at ih
      simp only [blanks, trees, Derive.rows, List.zip_cons_cons, List.filter_cons, ih]
      cases hs : f.skip
      · simp [h v (by simp)]
      · simp

theorem structTree_blanks (named : Bool) (at' : Attrs) (m : Meta) (fs : List Field) (vs : List RV) (h : ∀ v ∈ vs, tree (blank v) = tree v) :
    Derive.structTree named at' m fs (trees (blanks fs vs)) = Derive.structTree named at' m fs (trees vs) := by
  simp only [Derive.structTree, rows_blanks fs vs h]

theorem tree_blank (x : RV) : tree (blank x) = tree x := by
  induction x using RV.ind with
  | h x ih =>
    have all : ∀ vs : List RV, (∀ v ∈ vs, tree (blank v) = tree v) → trees (blanks [] vs) = trees vs := by
      intro vs h
      rw [blanks_nil, trees_eq, trees_eq, List.map_map]
      exact List.map_congr_left h
    cases x with
    | some v => simp only [blank, tree, ih v (by simp [parts])]
    | boxed v => simp only [blank, tree, ih v (by simp [parts])]
    | newtype n a b v => simp only [blank, tree, ih v (by simp [parts])]
    | slice xs => simp only [blank, tree, blanks_length, all xs fun v hv => ih v (by simp [parts, hv])]
    | array xs => simp only [blank, tree, blanks_length, all xs fun v hv => ih v (by simp [parts, hv])]
    | tuple xs => simp only [blank, tree, blanks_length, all xs fun v hv => ih v (by simp [parts, hv])]
    | map ks vs =>
      simp only [blank, tree, blanks_length, all ks fun v hv => ih v (by simp [parts, hv]), all vs fun v hv => ih v (by simp [parts, hv])]
    | struct b n a fs vs => simp only [blank, tree, structTree_blanks _ _ _ fs vs fun v hv => ih v (by simp [parts, hv])]
    | enum d i vs =>
      have ih : ∀ v ∈ vs, tree (blank v) = tree v := fun v hv => ih v (by simp [parts, hv])
      rw [blank, tree, tree]
      cases hv : d.variants[i]? with
      | none => rfl
      | some v =>
        simp only [Option.map_some, Option.getD_some]
        have : ∀ k, Derive.variantTree d v k (trees (blanks (fieldsOf v.shape) vs)) = Derive.variantTree d v k (trees vs) := by
          intro k
          simp only [Derive.variantTree]
          cases hs : v.shape with
          | unit => rfl
          | newtype => simp only [fieldsOf, all vs ih]
          | named fs => simp only [fieldsOf, structTree_blanks _ _ _ fs vs ih]
          | unnamed fs => simp only [fieldsOf, structTree_blanks _ _ _ fs vs ih]
        rw [this]
    | _ => rfl

end Rust

/-! ## All others are -/

theorem struct_told {named : Bool} {at' : Attrs} {m m' : Meta} {fs : List Field} {vs ws : List RV}
    (hv : fs.length = vs.length) (hw : fs.length = ws.length)
    (h : skel (Derive.structTree named at' m fs (trees vs)) = skel (Derive.structTree named at' m' fs (trees ws)))
    (hi : ∀ (i : Nat) x y, vs[i]? = some x → ws[i]? = some y → skel (tree x) = skel (tree y) → blank x = blank y) :
    blanks fs vs = blanks fs ws := by
  replace h := congrArg Sk.fields h
  rw [struct_fields, struct_fields] at h
  induction fs generalizing vs ws with
  | nil =>
    rw [List.length_eq_zero_iff.1 hv.symm, List.length_eq_zero_iff.1 hw.symm]
  | cons f fs ih =>
    cases vs with
    | nil => cases hv
    | cons v vs =>
      cases ws with
      | nil => cases hw
      | cons w ws =>
        have ih := ih (vs := vs) (ws := ws) (by simpa using hv) (by simpa using hw)
        have hi' := fun (i : Nat) x y (e1 : vs[i]? = some x) (e2 : ws[i]? = some y) => hi (i + 1) x y e1 e2
        simp only [Derive.rows, trees, List.zip_cons_cons, List.filter_cons] at h ih
        rw [blanks, blanks]
        cases hs : f.skip with
        | true =>
          simp only [hs, Bool.not_true, Bool.false_eq_true, if_false] at h
          rw [ih hi' h]
          rfl
        | false =>
          simp only [hs, Bool.not_false, if_true, List.map_cons, List.cons.injEq] at h
          rw [ih hi' h.2]
          simp only [Bool.false_eq_true, if_false]
          rw [hi 0 v w rfl rfl (skel_data h.1)]

theorem variant_told {d : EnumDef} {v : Variant} {i : Option Index} {vs ws : List RV} (hd : d.dyn = false)
    (ho : okVariant v vs.length) (ho' : okVariant v ws.length)
    (h : skel (Derive.variantTree d v i (trees vs)) = skel (Derive.variantTree d v i (trees ws)))
    (hi : ∀ (i : Nat) x y, vs[i]? = some x → ws[i]? = some y → skel (tree x) = skel (tree y) → blank x = blank y) :
    blanks (fieldsOf v.shape) vs = blanks (fieldsOf v.shape) ws := by
  simp only [Derive.variantTree] at h
  cases hsh : v.shape with
  | unit =>
    simp only [okVariant, hsh] at ho ho'
    rw [List.length_eq_zero_iff.1 ho, List.length_eq_zero_iff.1 ho']
  | newtype =>
    simp only [okVariant, hsh] at ho ho'
    obtain ⟨x, rfl⟩ := List.length_eq_one_iff.mp ho
    obtain ⟨y, rfl⟩ := List.length_eq_one_iff.mp ho'
    simp only [hsh, trees, hd, Bool.false_eq_true, if_false, skel, Sk.node.injEq, List.cons.injEq, and_true, true_and] at h
    simp only [fieldsOf, blanks, hi 0 x y rfl rfl h]
  | named fs =>
    simp only [okVariant, hsh] at ho ho'
    simp only [hsh] at h
    exact struct_told ho.2.2 ho'.2.2 h hi
  | unnamed fs =>
    simp only [okVariant, hsh] at ho ho'
    simp only [hsh] at h
    exact struct_told ho.2.2 ho'.2.2 h hi

namespace Ty

/-- Enums are not dynamic, and their variants differ in tag, label or index. -/
def told : Ty → Prop
  | .option t | .boxed t | .newtype _ _ _ t | .slice t | .array t => t.told
  | .tuple _ ts => ∀ i, (ts i).told
  | .map k t => k.told ∧ t.told
  | .struct _ _ _ _ ts => ∀ i, (ts i).told
  | .enum d ts => d.dyn = false ∧
      (∀ i i' v v', d.variants[i]? = some v → d.variants[i']? = some v' → (∃ n, okVariant v n) → (∃ n, okVariant v' n) →
        look d i v = look d i' v' → i = i') ∧
      ∀ i k, (ts i k).told
  | _ => True

/-- Values that look the same are the same but for skipped fields. -/
theorem skel_told (ty : Ty) (hk : ty.told) (x y : RV) (hx : ty.has x) (hy : ty.has y) (h : skel (tree x) = skel (tree y)) :
    blank x = blank y := by
  have list : ∀ (xs ys : List RV), (trees xs).map skel = (trees ys).map skel →
      (∀ (i : Nat) x y, xs[i]? = some x → ys[i]? = some y → skel (tree x) = skel (tree y) → blank x = blank y) →
      blanks [] xs = blanks [] ys := by
    intro xs ys h hi
    induction xs generalizing ys with
    | nil => cases ys with
      | nil => rfl
      | cons _ _ => cases h
    | cons x xs ih => cases ys with
      | nil => cases h
      | cons y ys =>
        simp only [trees, List.map_cons, List.cons.injEq] at h
        rw [blanks, blanks, hi 0 x y rfl rfl h.1, ih ys h.2 fun i x y e1 e2 => hi (i + 1) x y e1 e2]
  induction ty generalizing x y with
  | unit =>
    cases x <;> first | exact (show False from hx).elim | skip
    cases y <;> first | exact (show False from hy).elim | skip
    rfl
  | bool | f32 | f64 =>
    cases x <;> first | exact (show False from hx).elim | skip
    cases y <;> first | exact (show False from hy).elim | skip
    cases h; rfl
  | int t =>
    cases x <;> first | exact (show False from hx).elim | skip
    cases y <;> first | exact (show False from hy).elim | skip
    cases h
    rw [show _ = t from hx, show _ = t from hy]
  | char =>
    cases x <;> first | exact (show False from hx).elim | skip
    cases y <;> first | exact (show False from hy).elim | skip
    cases h; rfl
  | str =>
    cases x <;> first | exact (show False from hx).elim | skip
    cases y <;> first | exact (show False from hy).elim | skip
    simp only [tree, skel, fragsText, Frag.content, List.map_cons, List.map_nil, List.flatten_cons, List.flatten_nil, List.append_nil,
      Sk.leaf.injEq, Leaf.text.injEq] at h
    rw [h]
  | bytes =>
    cases x <;> first | exact (show False from hx).elim | skip
    cases y <;> first | exact (show False from hy).elim | skip
    simp only [tree, skel, fragsBytes, Frag.content, List.map_cons, List.map_nil, List.flatten_cons, List.flatten_nil, List.append_nil,
      Sk.leaf.injEq, Leaf.bytes.injEq] at h
    rw [h]
  | byteArray =>
    cases x <;> first | exact (show False from hx).elim | skip
    cases y <;> first | exact (show False from hy).elim | skip
    simp only [tree, skel, fragsBytes, Frag.content, List.map_cons, List.map_nil, List.flatten_cons, List.flatten_nil, List.append_nil,
      Sk.node.injEq, List.cons.injEq, and_true, true_and, Sk.leaf.injEq, Leaf.bytes.injEq] at h
    rw [h]
  | option t ih =>
    cases x <;> first | exact (show False from hx).elim | skip
    · cases y <;> first | exact (show False from hy).elim | skip
      · rfl
      · cases h
    · cases y <;> first | exact (show False from hy).elim | skip
      · cases h
      · rename_i v w
        simp only [tree, skel, Sk.node.injEq, List.cons.injEq, and_true, true_and] at h
        exact congrArg RV.some (ih hk v w hx hy h)
  | boxed t ih =>
    cases x <;> first | exact (show False from hx).elim | skip
    cases y <;> first | exact (show False from hy).elim | skip
    rename_i v w
    exact congrArg RV.boxed (ih hk v w hx hy h)
  | slice t ih =>
    cases x <;> first | exact (show False from hx).elim | skip
    cases y <;> first | exact (show False from hy).elim | skip
    simp only [tree, skel, skelSeq_eq, Sk.node.injEq, true_and] at h
    simp only [blank]
    rw [list _ _ h fun i x y e1 e2 => ih hk x y (hx x (List.mem_of_getElem? e1)) (hy y (List.mem_of_getElem? e2))]
  | array t ih =>
    cases x <;> first | exact (show False from hx).elim | skip
    cases y <;> first | exact (show False from hy).elim | skip
    simp only [tree, skel, skelSeq_eq, Sk.node.injEq, List.cons.injEq, and_true, true_and] at h
    simp only [blank]
    rw [list _ _ h fun i x y e1 e2 => ih hk x y (hx x (List.mem_of_getElem? e1)) (hy y (List.mem_of_getElem? e2))]
  | tuple n ts ih =>
    cases x <;> first | exact (show False from hx).elim | skip
    cases y <;> first | exact (show False from hy).elim | skip
    have hz : ∀ us : List V, (us.zipIdx.map fun x => skel x.1) = us.map skel := by
      intro us
      have : us.zipIdx.map Prod.fst = us := List.zipIdx_map_fst 0 us
      conv => rhs; rw [← this]
      rw [List.map_map]; rfl
    simp only [tree, skel, skelTup_eq, List.map_map, Function.comp_def, hz, Sk.node.injEq, true_and] at h
    simp only [blank]
    rw [list _ _ h fun i x y e1 e2 => ih i (hk i) x y (hx.2 i x e1) (hy.2 i y e2)]
  | map k t ihk ih =>
    cases x <;> first | exact (show False from hx).elim | skip
    cases y <;> first | exact (show False from hy).elim | skip
    rename_i ks vs ks' vs'
    obtain ⟨hl, hxk, hxv⟩ := hx
    obtain ⟨hl', hyk, hyv⟩ := hy
    simp only [tree, skel, skelMap_eq, Sk.node.injEq, true_and] at h
    have h1 : (trees ks).map skel = (trees ks').map skel ∧ (trees vs).map skel = (trees vs').map skel := by
      clear hxk hxv hyk hyv
      induction ks generalizing vs ks' vs' with
      | nil =>
        cases vs with
        | cons _ _ => cases hl
        | nil => cases ks' with
          | nil => cases vs' with
            | nil => exact ⟨rfl, rfl⟩
            | cons _ _ => cases hl'
          | cons _ _ => cases vs' with
            | nil => cases hl'
            | cons _ _ => cases h
      | cons a ks ih1 =>
        cases vs with
        | nil => cases hl
        | cons b vs => cases ks' with
          | nil => cases h
          | cons a' ks' => cases vs' with
            | nil => cases hl'
            | cons b' vs' =>
              simp only [trees, List.zip_cons_cons, List.map_cons, List.cons.injEq, Sk.node.injEq, and_true, true_and] at h ⊢
              obtain ⟨h1, h2⟩ := ih1 vs ks' vs' (by simpa using hl) (by simpa using hl') h.2
              exact ⟨⟨h.1.1, h1⟩, h.1.2, h2⟩
    simp only [blank]
    rw [list ks ks' h1.1 fun i x y e1 e2 => ihk hk.1 x y (hxk x (List.mem_of_getElem? e1)) (hyk y (List.mem_of_getElem? e2)),
      list vs vs' h1.2 fun i x y e1 e2 => ih hk.2 x y (hxv x (List.mem_of_getElem? e1)) (hyv y (List.mem_of_getElem? e2))]
  | unitStruct n a =>
    cases x <;> first | exact (show False from hx).elim | skip
    cases y <;> first | exact (show False from hy).elim | skip
    rw [hx.1, hx.2, hy.1, hy.2]
  | newtype n a b t ih =>
    cases x <;> first | exact (show False from hx).elim | skip
    cases y <;> first | exact (show False from hy).elim | skip
    rename_i v _ _ _ w
    obtain ⟨rfl, rfl, rfl, hx⟩ := hx
    obtain ⟨rfl, rfl, rfl, hy⟩ := hy
    simp only [blank]
    rw [ih hk v w hx hy ?_]
    simp only [tree] at h
    split at h
    · exact h
    · simp only [skel, Sk.node.injEq, List.cons.injEq, and_true, true_and] at h
      exact h
  | struct b n a fs ts ih =>
    cases x <;> first | exact (show False from hx).elim | skip
    cases y <;> first | exact (show False from hy).elim | skip
    obtain ⟨rfl, rfl, rfl, rfl, ho, hx⟩ := hx
    obtain ⟨rfl, rfl, rfl, rfl, ho', hy⟩ := hy
    simp only [blank]
    rw [struct_told ho.2.2 ho'.2.2 h fun i x y e1 e2 => ih i (hk i) x y (hx i x e1) (hy i y e2)]
  | enum d ts ih =>
    cases x <;> first | exact (show False from hx).elim | skip
    cases y <;> first | exact (show False from hy).elim | skip
    rename_i i xs _ i' ys
    obtain ⟨rfl, ⟨v, hv, ho⟩, hx⟩ := hx
    obtain ⟨rfl, ⟨v', hv', ho'⟩, hy⟩ := hy
    obtain ⟨hd, hu, ht⟩ := hk
    have hlx : okVariant v (trees xs).length := by rw [trees_eq, List.length_map]; exact ho
    have hly : okVariant v' (trees ys).length := by rw [trees_eq, List.length_map]; exact ho'
    simp only [tree, hv, hv', hd, Bool.false_eq_true, if_false, skel, Sk.node.injEq, List.cons.injEq, and_true, true_and] at h
    have hi : i = i' := by
      refine hu i i' v v' hv hv' ⟨_, ho⟩ ⟨_, ho'⟩ ?_
      have := congrArg Sk.look h
      rw [variant_look hd hlx, variant_look hd hly] at this
      exact this
    subst hi
    rw [hv] at hv'
    cases hv'
    simp only [blank, hv, Option.map_some, Option.getD_some]
    rw [variant_told hd ho ho' h fun n x y e1 e2 => ih i n (ht i n) x y (hx n x e1) (hy n y e2)]

end Ty

/-! ## C105 -/

/-- C105, exactly: two values of a type make the same calls if and only if they are the same but for skipped fields. -/
theorem C105_exact (ty : Ty) (hk : ty.told) (x y : RV) (hx : ty.has x) (hy : ty.has y) :
    exec (recorder fun _ _ => true) (prog (items x)) .base [] = exec (recorder fun _ _ => true) (prog (items y)) .base [] ↔
      blank x = blank y := by
  rw [C38_calls x (ty.has_ok x hx), C38_calls y (ty.has_ok y hy)]
  constructor
  · intro h
    exact ty.skel_told hk x y hx hy (by rw [toks_inj (congrArg Prod.fst h)])
  · intro h
    rw [← tree_blank x, ← tree_blank y, h]

/-- C105, exactly, with `value_computed`. -/
theorem C105_computed_exact (ty : Ty) (hk : ty.told) (x y : RV) (hx : ty.has x) (hy : ty.has y) :
    exec (recorder fun _ _ => true) (prog (items x)) (.computed .base) [] =
        exec (recorder fun _ _ => true) (prog (items y)) (.computed .base) [] ↔
      blank x = blank y := by
  have hr : ∀ (ts h : List Token), calls (recorder fun _ _ => true) ts h = (h ++ ts, true) := by
    intro ts
    induction ts with
    | nil => simp [calls]
    | cons t ts ih => intro h; simp [calls, recorder, ih]
  rw [C38_computed _ x (ty.has_ok x hx), C38_computed _ y (ty.has_ok y hy), hr, hr, List.nil_append, List.nil_append, ← Buf.toks_comp,
    ← Buf.toks_comp]
  constructor
  · intro h
    have := congrArg skel (toks_inj (congrArg Prod.fst h))
    rw [skel_comp, skel_comp] at this
    exact ty.skel_told hk x y hx hy this
  · intro h
    rw [← tree_blank x, ← tree_blank y, h]

/-- C105, exactly, for buffers: they replay the same if and only if the values are the same but for skipped fields. -/
theorem C105_buffer_exact (ty : Ty) (hk : ty.told) (x y : RV) (hx : ty.has x) (hy : ty.has y) (computed : Bool) :
    ∃ s s', collect true computed (prog (items x)) = .ok s ∧ collect true computed (prog (items y)) = .ok s' ∧
      (replay s.parts = replay s'.parts ↔ blank x = blank y) := by
  have hc : ∀ x, ok x → collect true computed (prog (items x)) = collect true computed (valueOf (tree x)) := by
    intro x hx
    cases computed with
    | false => simp only [collect, Bool.false_eq_true, if_false, (C38 _ x hx _).1]
    | true => simp only [collect, if_true, C38_computed _ x hx, exec_toks_computed]
  rw [hc x (ty.has_ok x hx), hc y (ty.has_ok y hy)]
  cases computed with
  | false =>
    obtain ⟨s, h1, h2⟩ := (C15_collect (tree x)).1
    obtain ⟨s', h3, h4⟩ := (C15_collect (tree y)).1
    refine ⟨s, s', h1, h3, fun h => ?_, fun h => ?_⟩
    · rw [h2, h4] at h
      have := congrArg skel (toks_inj (congrArg (fun r => r.toks) h))
      rw [skel_norm, skel_norm] at this
      exact ty.skel_told hk x y hx hy this
    · rw [h2, h4, ← tree_blank x, ← tree_blank y, h]
  | true =>
    obtain ⟨s, h1, h2⟩ := (C15_collect (tree x)).2
    obtain ⟨s', h3, h4⟩ := (C15_collect (tree y)).2
    refine ⟨s, s', h1, h3, fun h => ?_, fun h => ?_⟩
    · rw [h2, h4] at h
      have := congrArg skel (toks_inj (congrArg (fun r => r.toks) h))
      rw [skel_norm, skel_norm, skel_comp, skel_comp] at this
      exact ty.skel_told hk x y hx hy this
    · rw [h2, h4, ← tree_blank x, ← tree_blank y, h]

/-- C105, exactly, for recursive streams: some tree is seen in both if and only if the values are the same but for skipped fields. -/
theorem C105_sees_exact (ty : Ty) (hk : ty.told) (x y : RV) (hx : ty.has x) (hy : ty.has y) (b : Bool) :
    (∃ v, Sees ⟨b, prog (items x)⟩ v ∧ Sees ⟨b, prog (items y)⟩ v) ↔ blank x = blank y := by
  have hx' := C32_rust x (ty.has_ok x hx) b
  have hy' := C32_rust y (ty.has_ok y hy) b
  constructor
  · rintro ⟨v, h, h'⟩
    obtain rfl := C32_unique _ _ _ h hx'
    have := congrArg skel (C32_unique _ _ _ h' hy')
    rw [skel_seen, skel_seen] at this
    exact ty.skel_told hk x y hx hy this
  · intro h
    rw [← tree_blank y, ← h, tree_blank x] at hy'
    exact ⟨_, hx', hy'⟩

/-- The calls of `struct P { x: bool, #[sval(skip)] y: bool, z: Option<bool> }` tell `x` and `z`, and nothing about `y`. -/
example (x y : Bool) (z : Option Bool) (x' y' : Bool) (z' : Option Bool) :
    let fs : List Field := [{ ident := some (t! "x") }, { ident := some (t! "y"), skip := true }, { ident := some (t! "z") }]
    let p (x y : Bool) (z : Option Bool) : RV :=
      .struct true (t! "P") {} fs [.bool x, .bool y, match z with | none => .none | some b => .some (.bool b)]
    exec (recorder fun _ _ => true) (prog (items (p x y z))) .base [] =
        exec (recorder fun _ _ => true) (prog (items (p x' y' z'))) .base [] ↔ x = x' ∧ z = z' := by
  intro fs p
  let ts : Nat → Ty := fun i => if i < 2 then .bool else .option .bool
  have hts : ∀ i, (ts i).told := by intro i; simp only [ts]; split <;> trivial
  have hp : ∀ x y z, (Ty.struct true (t! "P") {} fs ts).has (p x y z) := by
    intro x y z
    refine ⟨rfl, rfl, rfl, rfl, ⟨rfl, ?_, rfl⟩, ?_⟩
    · intro f hf
      simp only [fs, List.mem_cons, List.not_mem_nil, or_false] at hf
      rcases hf with rfl | rfl | rfl <;> exact .inr rfl
    · rintro (_ | _ | _ | i) v hv
      · cases hv; trivial
      · cases hv; trivial
      · cases z <;> cases hv <;> trivial
      · cases hv
  rw [C105_exact (.struct true (t! "P") {} fs ts) hts _ _ (hp x y z) (hp x' y' z')]
  cases z <;> cases z' <;> simp [p, fs, blank, blanks]

end Sval
