import Verif.Props.Kept
import Verif.Props.SerdeBack
import Verif.Props.SerdeThrough

set_option autoImplicit false

/-!
# C105 for serde

Different values of a type are different serde values.
-/

namespace Sval

open Nested (prog)
open Rust
open Json (consO)
open Derive (Field Attrs Shape Variant EnumDef)
open Serde (SV SCall svOf svVariant svsOf svMap svTup svVals svValsRT svRec svRT staticName serialize ser consO_some bindMap_some calls)

/-! ## Types -/

namespace Ty

/-- No field is skipped, and variants differ in label or index. -/
def keptSerde : Ty → Prop
  | .option t | .boxed t | .newtype _ _ _ t | .slice t | .array t => t.keptSerde
  | .tuple _ ts => ∀ i, (ts i).keptSerde
  | .map k t => k.keptSerde ∧ t.keptSerde
  | .struct _ _ _ fs ts => (∀ f ∈ fs, f.skip = false) ∧ ∀ i, (ts i).keptSerde
  | .enum d ts => d.dyn = false ∧ (∀ v ∈ d.variants, ∀ f ∈ fieldsOf v.shape, f.skip = false) ∧
      (∀ i i' v v', d.variants[i]? = some v → d.variants[i']? = some v' → (∃ n, okVariant v n) → (∃ n, okVariant v' n) →
        (Derive.variantName d v).map Label.text = (Derive.variantName d v').map Label.text →
        (indexOf d i).map Index.val = (indexOf d i').map Index.val → i = i') ∧
      ∀ i k, (ts i k).keptSerde
  | _ => True

end Ty

/-! ## Lists -/

theorem svsOf_map {xs : List V} {ys : List SV} (h : svsOf xs = some ys) : xs.map svOf = ys.map some := by
  induction xs generalizing ys with
  | nil => cases h; rfl
  | cons x xs ih =>
    obtain ⟨a, as, h1, h2, rfl⟩ := consO_some h
    simp [h1, ih h2]

theorem svTup_map {xs : List (Option Tag × Index × V)} {ys : List SV} (h : svTup xs = some ys) :
    (xs.map fun x => svOf x.2.2) = ys.map some := by
  induction xs generalizing ys with
  | nil => cases h; rfl
  | cons x xs ih =>
    obtain ⟨a, as, h1, h2, rfl⟩ := consO_some h
    simp [h1, ih h2]

theorem svVals_map {xs : List (Option Tag × Label × V)} {ys : List SV} (h : svVals xs = some ys) :
    (xs.map fun x => svOf x.2.2) = ys.map some := by
  induction xs generalizing ys with
  | nil => cases h; rfl
  | cons x xs ih =>
    obtain ⟨a, as, h1, h2, rfl⟩ := consO_some h
    simp [h1, ih h2]

theorem svValsRT_map {xs : List (Option Tag × Label × Index × V)} {ys : List SV} (h : svValsRT xs = some ys) :
    (xs.map fun x => svOf x.2.2.2) = ys.map some := by
  induction xs generalizing ys with
  | nil => cases h; rfl
  | cons x xs ih =>
    obtain ⟨a, as, h1, h2, rfl⟩ := consO_some h
    simp [h1, ih h2]

theorem svRec_map {xs : List (Option Tag × Label × V)} {ys : List (Text × SV)} (h : svRec xs = some ys) :
    (xs.map fun x => svOf x.2.2) = (ys.map (·.2)).map some := by
  induction xs generalizing ys with
  | nil => cases h; rfl
  | cons x xs ih =>
    obtain ⟨a, as, h1, h2, rfl⟩ := consO_some h
    obtain ⟨_, b, _, h3, rfl⟩ := bindMap_some h1
    simp [h3, ih h2]

theorem svRT_map {xs : List (Option Tag × Label × Index × V)} {ys : List (Text × SV)} (h : svRT xs = some ys) :
    (xs.map fun x => svOf x.2.2.2) = (ys.map (·.2)).map some := by
  induction xs generalizing ys with
  | nil => cases h; rfl
  | cons x xs ih =>
    obtain ⟨a, as, h1, h2, rfl⟩ := consO_some h
    obtain ⟨_, b, _, h3, rfl⟩ := bindMap_some h1
    simp [h3, ih h2]

/-! ## Structs and variants -/

/-- What is in the fields. -/
def svFields : SV → List SV
  | .struct _ _ fs | .structVariant _ _ _ _ fs => fs.map (·.2)
  | .tupleStruct _ _ xs | .tuple _ xs | .tupleVariant _ _ _ _ xs => xs
  | .newtypeStruct _ (.seq _ xs) | .some (.seq _ xs) | .newtypeVariant _ _ _ (.seq _ xs) => xs
  | _ => []

/-- Which variant it is. -/
def svWhich : SV → Option (UInt32 × Text)
  | .unitVariant _ i v | .newtypeVariant _ i v _ | .tupleVariant _ i v _ _ | .structVariant _ i v _ _ => some (i, v)
  | _ => none

theorem sv_entries_map {β : Type} (fs : List Field) (vs : List V) (g : Field × V → β) :
    (Derive.entries (Derive.rows fs vs)).map (fun r => g r.1) = (Derive.rows fs vs).map g := by
  have : (Derive.entries (Derive.rows fs vs)).map Prod.fst = Derive.rows fs vs := by
    rw [Derive.entries, List.map_fst_zip]
    rw [Derive.indexes_length, List.length_map]; exact Nat.le_refl _
  conv => rhs; rw [← this]
  rw [List.map_map]; rfl

theorem struct_sv {named : Bool} {at' : Attrs} {m : Meta} {fs : List Field} {vs : List V} {s : SV}
    (h : svOf (Derive.structTree named at' m fs vs) = some s) :
    ((Derive.rows fs vs).map fun r => svOf (Derive.data r.1 r.2)) = (svFields s).map some := by
  simp only [Derive.structTree] at h
  split at h
  · simp only [svOf, Option.bind_some] at h
    split at h
    · simp only [Option.map_eq_some_iff] at h
      obtain ⟨ys, h, rfl⟩ := h
      have := svValsRT_map h
      rw [List.map_map] at this
      exact (sv_entries_map fs vs fun r => svOf (Derive.data r.1 r.2)).symm.trans this
    · obtain ⟨_, ys, _, h2, rfl⟩ := bindMap_some h
      have := svRT_map h2
      rw [List.map_map] at this
      exact (sv_entries_map fs vs fun r => svOf (Derive.data r.1 r.2)).symm.trans this
  · simp only [svOf, Option.bind_some] at h
    split at h
    · simp only [Option.map_eq_some_iff] at h
      obtain ⟨ys, h, rfl⟩ := h
      have := svTup_map h
      rw [List.map_map] at this
      exact (sv_entries_map fs vs fun r => svOf (Derive.data r.1 r.2)).symm.trans this
    · obtain ⟨_, ys, _, h2, rfl⟩ := bindMap_some h
      have := svTup_map h2
      rw [List.map_map] at this
      exact (sv_entries_map fs vs fun r => svOf (Derive.data r.1 r.2)).symm.trans this
  · simp only [svOf, Option.bind_some] at h
    split at h
    · simp only [Option.map_eq_some_iff] at h
      obtain ⟨ys, h, rfl⟩ := h
      have := svVals_map h
      rw [List.map_map] at this
      exact this
    · obtain ⟨_, ys, _, h2, rfl⟩ := bindMap_some h
      have := svRec_map h2
      rw [List.map_map] at this
      exact this
  · simp only [svOf] at h
    have key : ∀ ys, svsOf ((Derive.rows fs vs).map fun r => Derive.data r.1 r.2) = some ys →
        ((Derive.rows fs vs).map fun r => svOf (Derive.data r.1 r.2)) = ys.map some := by
      intro ys hy
      have := svsOf_map hy
      rw [List.map_map] at this
      exact this
    split at h
    · simp only [Option.map_eq_some_iff] at h
      obtain ⟨_, ⟨ys, h, rfl⟩, rfl⟩ := h
      exact key ys h
    · obtain ⟨_, z, _, h2, rfl⟩ := bindMap_some h
      simp only [Option.map_eq_some_iff] at h2
      obtain ⟨ys, h3, rfl⟩ := h2
      exact key ys h3

theorem struct_svVariant {named : Bool} {at' : Attrs} {m : Meta} {fs : List Field} {vs : List V} {name : Text} {s : SV}
    (h : svVariant name (Derive.structTree named at' m fs vs) = some s) :
    ((Derive.rows fs vs).map fun r => svOf (Derive.data r.1 r.2)) = (svFields s).map some ∧ Serde.variantOf m = svWhich s ∧ (svWhich s).isSome := by
  simp only [Derive.structTree] at h
  split at h
  · simp only [svVariant, Option.bind_some] at h
    obtain ⟨x, ys, h1, h2, rfl⟩ := bindMap_some h
    have := svRT_map h2
    rw [List.map_map] at this
    exact ⟨(sv_entries_map fs vs fun r => svOf (Derive.data r.1 r.2)).symm.trans this, h1, rfl⟩
  · simp only [svVariant, Option.bind_some] at h
    obtain ⟨x, ys, h1, h2, rfl⟩ := bindMap_some h
    have := svTup_map h2
    rw [List.map_map] at this
    exact ⟨(sv_entries_map fs vs fun r => svOf (Derive.data r.1 r.2)).symm.trans this, h1, rfl⟩
  · simp only [svVariant, Option.bind_some] at h
    obtain ⟨x, ys, h1, h2, rfl⟩ := bindMap_some h
    have := svRec_map h2
    rw [List.map_map] at this
    exact ⟨this, h1, rfl⟩
  · simp only [svVariant, svOf] at h
    obtain ⟨x, y, h1, h2, rfl⟩ := bindMap_some h
    simp only [Option.map_eq_some_iff] at h2
    obtain ⟨ys, h3, rfl⟩ := h2
    have := svsOf_map h3
    rw [List.map_map] at this
    exact ⟨this, h1, rfl⟩

theorem data_sv {f : Field} {v : V} {s : SV} (h : svOf (Derive.data f v) = some s) : ∃ t, svOf v = some t ∧
    ∀ w, svOf (Derive.data f w) = some s → svOf w = some t := by
  cases hf : f.dataTag with
  | none => exact ⟨s, by simpa only [Derive.data, hf] using h, fun w hw => by simpa only [Derive.data, hf] using hw⟩
  | some t =>
    simp only [Derive.data, hf, svOf] at h
    split at h
    · rename_i ht
      simp only [Option.map_eq_some_iff] at h
      obtain ⟨u, hu, rfl⟩ := h
      refine ⟨u, hu, fun w hw => ?_⟩
      simp only [Derive.data, hf, svOf, if_pos ht, Option.map_eq_some_iff, SV.some.injEq, exists_eq_right] at hw
      exact hw
    · simp [staticName] at h

/-- What the fields hold. -/
theorem rows_sv {fs : List Field} {vs ws : List V} {ss : List SV} (hs : ∀ f ∈ fs, f.skip = false)
    (hv : fs.length = vs.length) (hw : fs.length = ws.length)
    (h : ((Derive.rows fs vs).map fun r => svOf (Derive.data r.1 r.2)) = ss.map some)
    (h' : ((Derive.rows fs ws).map fun r => svOf (Derive.data r.1 r.2)) = ss.map some) :
    ∃ ts : List SV, vs.map svOf = ts.map some ∧ ws.map svOf = ts.map some := by
  have hr : ∀ us : List V, Derive.rows fs us = fs.zip us := by
    intro us
    rw [Derive.rows, List.filter_eq_self]
    intro r hr
    rw [hs r.1 (List.of_mem_zip hr).1]; rfl
  rw [hr] at h h'
  clear hr hs
  induction fs generalizing vs ws ss with
  | nil =>
    cases vs with
    | nil => cases ws with
      | nil => exact ⟨[], rfl, rfl⟩
      | cons _ _ => cases hw
    | cons _ _ => cases hv
  | cons f fs ih =>
    cases vs with
    | nil => cases hv
    | cons v vs =>
      cases ws with
      | nil => cases hw
      | cons w ws =>
        cases ss with
        | nil => cases h
        | cons s ss =>
          simp only [List.zip_cons_cons, List.map_cons, List.cons.injEq] at h h'
          obtain ⟨t, h1, h2⟩ := data_sv h.1
          obtain ⟨ts, h3, h4⟩ := ih (by simpa using hv) (by simpa using hw) h.2 h'.2
          exact ⟨t :: ts, by simp [h1, h3], by simp [h2 w h'.1, h4]⟩

theorem variantOf_which {m m' : Meta} {x : UInt32 × Text} (h : Serde.variantOf m = some x) (h' : Serde.variantOf m' = some x) :
    m.label.map Label.text = m'.label.map Label.text ∧ m.index.map Index.val = m'.index.map Index.val := by
  have key : ∀ {m : Meta}, Serde.variantOf m = some x → m.label.map Label.text = some x.2 ∧ m.index.map Index.val = some (x.1.toNat : Int) := by
    intro m h
    unfold Serde.variantOf at h
    split at h
    · rename_i v i hv hi
      cases h
      constructor
      · simp only [staticName, Option.bind_eq_some_iff] at hv
        obtain ⟨l, hl, hv⟩ := hv
        simp only [Label.asStaticStr] at hv
        split at hv
        · cases hv; rw [hl]; rfl
        · cases hv
      · simp only [Option.bind_eq_some_iff] at hi
        obtain ⟨k, hk, hi⟩ := hi
        simp only [Serde.toU32] at hi
        split at hi
        · rename_i hb
          cases hi
          rw [hk]
          simp only [Option.map_some, Option.some.injEq, UInt32.toNat_ofNat']
          omega
        · cases hi
    · cases h
  exact ⟨(key h).1.trans (key h').1.symm, (key h).2.trans (key h').2.symm⟩

theorem variant_sv {d : EnumDef} {v : Variant} {i : Option Index} {vs : List V} {name : Text} {s : SV} (hd : d.dyn = false)
    (ho : okVariant v vs.length) (h : svVariant name (Derive.variantTree d v i vs) = some s) :
    ∃ x, svWhich s = some x ∧ Serde.variantOf { tag := v.attrs.tag, label := Derive.variantName d v, index := i } = some x := by
  simp only [Derive.variantTree] at h
  cases hs : v.shape with
  | unit =>
    simp only [hs, svVariant, Option.map_eq_some_iff] at h
    obtain ⟨x, h, rfl⟩ := h
    exact ⟨x, rfl, h⟩
  | newtype =>
    simp only [okVariant, hs] at ho
    obtain ⟨y, rfl⟩ := List.length_eq_one_iff.mp ho
    simp only [hs, hd, Bool.false_eq_true, if_false, svVariant] at h
    obtain ⟨x, z, h2, _, rfl⟩ := bindMap_some h
    exact ⟨x, rfl, h2⟩
  | named fs | unnamed fs =>
    simp only [hs] at h
    obtain ⟨_, h1, h2⟩ := struct_svVariant h
    obtain ⟨x, hx⟩ := Option.isSome_iff_exists.1 h2
    exact ⟨x, hx, h1.trans hx⟩

theorem variant_svFields {d : EnumDef} {v : Variant} {i : Option Index} {vs ws : List V} {name : Text} {s : SV} (hd : d.dyn = false)
    (hs : ∀ f ∈ fieldsOf v.shape, f.skip = false) (ho : okVariant v vs.length) (ho' : okVariant v ws.length)
    (h : svVariant name (Derive.variantTree d v i vs) = some s) (h' : svVariant name (Derive.variantTree d v i ws) = some s) :
    ∃ ts : List SV, vs.map svOf = ts.map some ∧ ws.map svOf = ts.map some := by
  simp only [Derive.variantTree] at h h'
  cases hsh : v.shape with
  | unit =>
    simp only [okVariant, hsh] at ho ho'
    rw [List.length_eq_zero_iff.1 ho, List.length_eq_zero_iff.1 ho']
    exact ⟨[], rfl, rfl⟩
  | newtype =>
    simp only [okVariant, hsh] at ho ho'
    obtain ⟨x, rfl⟩ := List.length_eq_one_iff.mp ho
    obtain ⟨y, rfl⟩ := List.length_eq_one_iff.mp ho'
    simp only [hsh, hd, Bool.false_eq_true, if_false, svVariant] at h h'
    obtain ⟨_, z, _, h2, rfl⟩ := bindMap_some h
    obtain ⟨_, z', _, h3, e⟩ := bindMap_some h'
    simp only [SV.newtypeVariant.injEq] at e
    exact ⟨[z], by simp [h2], by simp [h3, e.2.2.2]⟩
  | named fs | unnamed fs =>
    simp only [okVariant, hsh] at ho ho'
    simp only [hsh] at h h'
    rw [hsh] at hs
    exact rows_sv hs ho.2.2 ho'.2.2 (struct_svVariant h).1 (struct_svVariant h').1

/-! ## Values -/

namespace Ty

/-- Different values are different serde values. -/
theorem sv_inj (ty : Ty) (hk : ty.keptSerde) (x y : RV) (hx : ty.has x) (hy : ty.has y) (s : SV) (h : svOf (tree x) = some s)
    (h' : svOf (tree y) = some s) : x = y := by
  have list : ∀ (xs ys : List RV) (ss : List SV), (trees xs).map svOf = ss.map some → (trees ys).map svOf = ss.map some →
      (∀ (i : Nat) x y s, xs[i]? = some x → ys[i]? = some y → svOf (tree x) = some s → svOf (tree y) = some s → x = y) → xs = ys := by
    intro xs ys ss h h' hi
    rw [trees_eq, List.map_map] at h h'
    refine map_inj_at (h.trans h'.symm) fun i x y hx hy e => ?_
    have h1 := congrArg (fun l => l[i]?) h
    simp only [List.getElem?_map, hx, Option.map_some, Function.comp_apply] at h1
    cases hs : ss[i]? with
    | none => rw [hs] at h1; cases h1
    | some s =>
      rw [hs] at h1
      have h1 : svOf (tree x) = some s := by simpa using h1
      exact hi i x y s hx hy h1 ((show svOf (tree x) = svOf (tree y) from e).symm.trans h1)
  induction ty generalizing x y s with
  | unit =>
    cases x <;> first | exact (show False from hx).elim | skip
    cases y <;> first | exact (show False from hy).elim | skip
    rfl
  | bool | f32 | f64 =>
    cases x <;> first | exact (show False from hx).elim | skip
    cases y <;> first | exact (show False from hy).elim | skip
    cases h; cases h'; rfl
  | int t =>
    cases x <;> first | exact (show False from hx).elim | skip
    cases y <;> first | exact (show False from hy).elim | skip
    cases h; cases h'; rfl
  | char =>
    cases x <;> first | exact (show False from hx).elim | skip
    cases y <;> first | exact (show False from hy).elim | skip
    cases h; cases h'; rfl
  | str =>
    cases x <;> first | exact (show False from hx).elim | skip
    cases y <;> first | exact (show False from hy).elim | skip
    have := h.trans h'.symm
    simp only [tree, svOf, Frag.content, List.map_cons, List.map_nil, List.flatten_cons, List.flatten_nil, List.append_nil,
      Option.some.injEq, SV.str.injEq] at this
    rw [this]
  | bytes =>
    cases x <;> first | exact (show False from hx).elim | skip
    cases y <;> first | exact (show False from hy).elim | skip
    have := h.trans h'.symm
    simp only [tree, svOf, Frag.content, List.map_cons, List.map_nil, List.flatten_cons, List.flatten_nil, List.append_nil,
      Option.some.injEq, SV.bytes.injEq] at this
    rw [this]
  | byteArray =>
    cases x <;> first | exact (show False from hx).elim | skip
    cases h
  | option t ih =>
    cases x <;> first | exact (show False from hx).elim | skip
    · cases y <;> first | exact (show False from hy).elim | skip
      · rfl
      · rename_i w
        have h1 : svOf (tree (.some w)) = (svOf (tree w)).map .some := rfl
        rw [h1] at h'
        cases h
        cases hw : svOf (tree w) <;> rw [hw] at h' <;> cases h'
    · rename_i v
      have h1 : ∀ w, svOf (tree (.some w)) = (svOf (tree w)).map .some := fun _ => rfl
      rw [h1] at h
      cases hv : svOf (tree v) with
      | none => rw [hv] at h; cases h
      | some a =>
        rw [hv] at h
        cases h
        cases y <;> first | exact (show False from hy).elim | skip
        · cases h'
        · rename_i w
          rw [h1] at h'
          cases hw : svOf (tree w) with
          | none => rw [hw] at h'; cases h'
          | some b =>
            rw [hw] at h'
            cases h'
            rw [ih hk v w hx hy a hv hw]
  | boxed t ih =>
    cases x <;> first | exact (show False from hx).elim | skip
    cases y <;> first | exact (show False from hy).elim | skip
    rename_i v w
    rw [ih hk v w hx hy s h h']
  | slice t ih =>
    cases x <;> first | exact (show False from hx).elim | skip
    cases y <;> first | exact (show False from hy).elim | skip
    simp only [tree, svOf, Option.map_eq_some_iff] at h h'
    obtain ⟨a, ha, rfl⟩ := h
    obtain ⟨b, hb, e⟩ := h'
    simp only [SV.seq.injEq] at e
    obtain ⟨_, rfl⟩ := e
    rw [list _ _ _ (svsOf_map ha) (svsOf_map hb) fun i x y s e1 e2 => ih hk x y (hx x (List.mem_of_getElem? e1)) (hy y (List.mem_of_getElem? e2)) s]
  | array t ih =>
    cases x <;> first | exact (show False from hx).elim | skip
    cases h
  | tuple n ts ih =>
    cases x <;> first | exact (show False from hx).elim | skip
    cases y <;> first | exact (show False from hy).elim | skip
    have hz : ∀ us : List V, (us.zipIdx.map fun x => svOf x.1) = us.map svOf := by
      intro us
      have : us.zipIdx.map Prod.fst = us := List.zipIdx_map_fst 0 us
      conv => rhs; rw [← this]
      rw [List.map_map]; rfl
    simp only [tree, svOf, Option.bind_some, Option.map_eq_some_iff] at h h'
    obtain ⟨a, ha, rfl⟩ := h
    obtain ⟨b, hb, e⟩ := h'
    simp only [SV.tuple.injEq] at e
    obtain ⟨_, rfl⟩ := e
    have ha := svTup_map ha
    have hb := svTup_map hb
    simp only [List.map_map, Function.comp_def, hz] at ha hb
    rw [list _ _ _ ha hb fun i x y s e1 e2 => ih i (hk i) x y (hx.2 i x e1) (hy.2 i y e2) s]
  | map k t ihk ih =>
    cases x <;> first | exact (show False from hx).elim | skip
    cases y <;> first | exact (show False from hy).elim | skip
    rename_i ks vs ks' vs'
    obtain ⟨hl, hxk, hxv⟩ := hx
    obtain ⟨hl', hyk, hyv⟩ := hy
    simp only [tree, svOf, Option.map_eq_some_iff] at h h'
    obtain ⟨a, ha, rfl⟩ := h
    obtain ⟨b, hb, e⟩ := h'
    simp only [SV.map.injEq] at e
    obtain ⟨_, rfl⟩ := e
    have key : ∀ (ks vs : List RV) (b : List (SV × SV)), ks.length = vs.length → svMap ((trees ks).zip (trees vs)) = some b →
        (trees ks).map svOf = (b.map (·.1)).map some ∧ (trees vs).map svOf = (b.map (·.2)).map some := by
      intro ks
      induction ks with
      | nil => intro vs b hl hb; cases vs with
        | nil => cases hb; exact ⟨rfl, rfl⟩
        | cons _ _ => cases hl
      | cons k ks ihm => intro vs b hl hb; cases vs with
        | nil => cases hl
        | cons v vs =>
          simp only [trees, List.zip_cons_cons, svMap] at hb
          obtain ⟨p, ps, h1, h2, rfl⟩ := consO_some hb
          obtain ⟨c, d, h3, h4, rfl⟩ := bindMap_some h1
          obtain ⟨h5, h6⟩ := ihm vs ps (by simpa using hl) h2
          exact ⟨by simp [trees, h3, h5], by simp [trees, h4, h6]⟩
    have h1 := key ks vs _ hl ha
    have h2 := key ks' vs' _ hl' hb
    rw [list ks ks' _ h1.1 h2.1 fun i x y s e1 e2 => ihk hk.1 x y (hxk x (List.mem_of_getElem? e1)) (hyk y (List.mem_of_getElem? e2)) s,
      list vs vs' _ h1.2 h2.2 fun i x y s e1 e2 => ih hk.2 x y (hxv x (List.mem_of_getElem? e1)) (hyv y (List.mem_of_getElem? e2)) s]
  | unitStruct n a =>
    cases x <;> first | exact (show False from hx).elim | skip
    cases y <;> first | exact (show False from hy).elim | skip
    rw [hx.1, hx.2, hy.1, hy.2]
  | newtype n a b t ih =>
    cases x <;> first | exact (show False from hx).elim | skip
    cases y <;> first | exact (show False from hy).elim | skip
    rename_i v _ _ _ w
    obtain ⟨rfl, rfl, rfl, hx⟩ := hx
    obtain ⟨rfl, rfl, rfl, hy⟩ := hy
    simp only [tree] at h h'
    split at h
    · rename_i hb
      rw [if_pos hb] at h'
      rw [ih hk v w hx hy s h h']
    · rename_i hb
      rw [if_neg hb] at h'
      simp only [svOf] at h h'
      split at h
      · rename_i ht
        rw [if_pos ht] at h'
        simp only [Option.map_eq_some_iff] at h h'
        obtain ⟨a, ha, rfl⟩ := h
        obtain ⟨b, hb, e⟩ := h'
        cases e
        rw [ih hk v w hx hy a ha hb]
      · rename_i ht
        rw [if_neg ht] at h'
        obtain ⟨_, a, _, ha, rfl⟩ := bindMap_some h
        obtain ⟨_, b, _, hb, e⟩ := bindMap_some h'
        cases e
        rw [ih hk v w hx hy a ha hb]
  | struct b n a fs ts ih =>
    cases x <;> first | exact (show False from hx).elim | skip
    cases y <;> first | exact (show False from hy).elim | skip
    obtain ⟨rfl, rfl, rfl, rfl, ho, hx⟩ := hx
    obtain ⟨rfl, rfl, rfl, rfl, ho', hy⟩ := hy
    obtain ⟨us, h1, h2⟩ := rows_sv hk.1 (by rw [trees_eq, List.length_map]; exact ho.2.2) (by rw [trees_eq, List.length_map]; exact ho'.2.2)
      (struct_sv h) (struct_sv h')
    rw [list _ _ _ h1 h2 fun i x y s e1 e2 => ih i (hk.2 i) x y (hx i x e1) (hy i y e2) s]
  | enum d ts ih =>
    cases x <;> first | exact (show False from hx).elim | skip
    cases y <;> first | exact (show False from hy).elim | skip
    rename_i i xs _ i' ys
    obtain ⟨rfl, ⟨v, hv, ho⟩, hx⟩ := hx
    obtain ⟨rfl, ⟨v', hv', ho'⟩, hy⟩ := hy
    obtain ⟨hd, hs, hu, ht⟩ := hk
    have hlx : okVariant v (trees xs).length := by rw [trees_eq, List.length_map]; exact ho
    have hly : okVariant v' (trees ys).length := by rw [trees_eq, List.length_map]; exact ho'
    simp only [tree, hv, hv', hd, Bool.false_eq_true, if_false, svOf, Option.bind_eq_some_iff] at h h'
    obtain ⟨name, hn, h⟩ := h
    obtain ⟨name', hn', h'⟩ := h'
    rw [hn] at hn'
    cases hn'
    have hi : i = i' := by
      obtain ⟨p, h1, h2⟩ := variant_sv hd hlx h
      obtain ⟨p', h1', h2'⟩ := variant_sv hd hly h'
      rw [h1] at h1'
      cases h1'
      obtain ⟨e1, e2⟩ := variantOf_which h2 h2'
      exact hu i i' v v' hv hv' ⟨_, ho⟩ ⟨_, ho'⟩ e1 e2
    subst hi
    rw [hv] at hv'
    cases hv'
    obtain ⟨us, h1, h2⟩ := variant_svFields hd (hs v (List.mem_of_getElem? hv)) hlx hly h h'
    rw [list _ _ _ h1 h2 fun n x y s e1 e2 => ih i n (ht i n) x y (hx n x e1) (hy n y e2) s]

end Ty

/-! ## What serializers can tell -/

theorem svOf_serde (a : SV) : svOf (Serde.tree a) = some (Serde.asText a) := by
  induction a using Serde.SV.ind with | h a ih => ?_
  have seqs : ∀ xs : List SV, (∀ x ∈ xs, svOf (Serde.tree x) = some (Serde.asText x)) → svsOf (Serde.trees xs) = some (Serde.asTexts xs) := by
    intro xs h
    induction xs with
    | nil => rfl
    | cons x xs ihx => simp [Serde.trees, svsOf, Serde.asTexts, h x (.head _), ihx fun y hy => h y (.tail _ hy), consO]
  have tups : ∀ xs : List SV, (∀ x ∈ xs, svOf (Serde.tree x) = some (Serde.asText x)) → ∀ i, svTup (Serde.treeTup i xs) = some (Serde.asTexts xs) := by
    intro xs h
    induction xs with
    | nil => exact fun _ => rfl
    | cons x xs ihx => intro i; simp [Serde.treeTup, svTup, Serde.asTexts, h x (.head _), ihx (fun y hy => h y (.tail _ hy)), consO]
  have recs : ∀ xs : List (Text × SV), (∀ x ∈ xs, svOf (Serde.tree x.2) = some (Serde.asText x.2)) → svRec (Serde.treeRec xs) = some (Serde.asTextRec xs) := by
    intro xs h
    induction xs with
    | nil => rfl
    | cons x xs ihx =>
      have h0 := h x (.head _)
      obtain ⟨l, v⟩ := x
      simp only at h0
      simp [Serde.treeRec, svRec, Serde.asTextRec, h0, ihx fun y hy => h y (.tail _ hy), consO, Label.new, Label.asStaticStr]
  have maps : ∀ xs : List (SV × SV), (∀ x ∈ xs, svOf (Serde.tree x.1) = some (Serde.asText x.1) ∧ svOf (Serde.tree x.2) = some (Serde.asText x.2)) →
      svMap (Serde.treeMap xs) = some (Serde.asTextMap xs) := by
    intro xs h
    induction xs with
    | nil => rfl
    | cons x xs ihx =>
      have h0 := h x (.head _)
      obtain ⟨k, v⟩ := x
      simp only at h0
      simp [Serde.treeMap, svMap, Serde.asTextMap, h0.1, h0.2, ihx fun y hy => h y (.tail _ hy), consO]
  have named : ∀ n : Text, staticName (Serde.named n) = some n := fun _ => rfl
  have hn : ∀ n : Text, (Serde.named n).tag = none := fun _ => rfl
  have fields : ∀ fs : List (Text × SV), (∀ w ∈ fs.map (·.2), svOf (Serde.tree w) = some (Serde.asText w)) →
      svRec (Serde.treeRec fs) = some (Serde.asTextRec fs) := fun fs h => recs fs fun x hx => h x.2 (List.mem_map_of_mem hx)
  cases a with
  | bool | int | f32 | f64 | none | unit => rfl
  | unitStruct name => simp [Serde.tree, svOf, Serde.asText, named, hn]
  | char c => simp [Serde.tree, svOf, Serde.asText, Frag.content]
  | str s => simp [Serde.tree, svOf, Serde.asText, Frag.content]
  | collectStr s => simp [Serde.tree, svOf, Serde.asText, Frag.content, Function.comp_def]
  | bytes s => simp [Serde.tree, svOf, Serde.asText, Frag.content]
  | some v =>
    simp [Serde.tree, svOf, Serde.variant, Serde.asText, ih v (by simp [Serde.parts])]
  | newtypeStruct name v =>
    simp [Serde.tree, svOf, Serde.asText, named, hn, ih v (by simp [Serde.parts])]
  | unitVariant name i variant => simp [Serde.tree, svOf, svVariant, named, Serde.variantOf_meta, Serde.asText]
  | newtypeVariant name i variant v =>
    simp [Serde.tree, svOf, svVariant, named, Serde.variantOf_meta, Serde.asText, ih v (by simp [Serde.parts])]
  | seq len xs => simp [Serde.tree, svOf, Serde.asText, seqs xs ih]
  | tuple len xs => simp [Serde.tree, svOf, Serde.asText, tups xs ih]
  | tupleStruct name len xs =>
    simp [Serde.tree, svOf, Serde.asText, Serde.named, Label.new, Label.asStaticStr, tups xs ih]
  | tupleVariant name i variant len xs =>
    simp [Serde.tree, svOf, svVariant, named, Serde.variantOf_meta, Serde.asText, tups xs ih]
  | map len kvs =>
    have := maps kvs fun x hx => ⟨ih x.1 (List.mem_flatMap.2 ⟨x, hx, by simp⟩), ih x.2 (List.mem_flatMap.2 ⟨x, hx, by simp⟩)⟩
    simp [Serde.tree, svOf, Serde.asText, this]
  | struct name len fs =>
    simp [Serde.tree, svOf, Serde.asText, Serde.named, Label.new, Label.asStaticStr, fields fs ih]
  | structVariant name i variant len fs =>
    simp [Serde.tree, svOf, svVariant, named, Serde.variantOf_meta, Serde.asText, fields fs ih]

/-- Serde values that sval values are have no characters. -/
theorem asText_svOf (v : V) : (∀ a, svOf v = some a → Serde.asText a = a) ∧ ∀ name a, svVariant name v = some a → Serde.asText a = a := by
  have texts : ∀ (us : List V) (ys : List SV), us.map svOf = ys.map some → (∀ u ∈ us, ∀ a, svOf u = some a → Serde.asText a = a) →
      Serde.asTexts ys = ys := by
    intro us
    induction us with
    | nil => intro ys h _; cases ys with
      | nil => rfl
      | cons _ _ => cases h
    | cons u us ihu => intro ys h hu; cases ys with
      | nil => cases h
      | cons y ys =>
        simp only [List.map_cons, List.cons.injEq] at h
        rw [Serde.asTexts, hu u (.head _) y h.1, ihu ys h.2 fun w hw => hu w (.tail _ hw)]
  have recs : ∀ ys : List (Text × SV), Serde.asTexts (ys.map (·.2)) = ys.map (·.2) → Serde.asTextRec ys = ys := by
    intro ys h
    induction ys with
    | nil => rfl
    | cons y ys ihy =>
      simp only [List.map_cons, Serde.asTexts, List.cons.injEq] at h
      obtain ⟨l, v⟩ := y
      rw [Serde.asTextRec, ihy h.2]
      simp only at h
      rw [h.1]
  have maps : ∀ (us : List (V × V)) (ys : List (SV × SV)), svMap us = some ys →
      (∀ u ∈ us, (∀ a, svOf u.1 = some a → Serde.asText a = a) ∧ ∀ a, svOf u.2 = some a → Serde.asText a = a) → Serde.asTextMap ys = ys := by
    intro us
    induction us with
    | nil => intro ys h _; cases h; rfl
    | cons u us ihu =>
      intro ys h hu
      have h0 := hu u (.head _)
      obtain ⟨k, v⟩ := u
      obtain ⟨p, ps, h1, h2, rfl⟩ := consO_some h
      obtain ⟨c, d, h3, h4, rfl⟩ := bindMap_some h1
      rw [Serde.asTextMap, h0.1 c h3, h0.2 d h4, ihu ps h2 fun w hw => hu w (.tail _ hw)]
  have tups : ∀ (us : List (Option Tag × Index × V)) (ys : List SV), svTup us = some ys →
      (∀ u ∈ us, ∀ a, svOf u.2.2 = some a → Serde.asText a = a) → Serde.asTexts ys = ys := by
    intro us ys h hu
    refine texts (us.map (·.2.2)) ys (by rw [List.map_map]; exact svTup_map h) fun u hu' => ?_
    obtain ⟨w, hw, rfl⟩ := List.mem_map.1 hu'
    exact hu w hw
  induction v using V.ind with
  | null | bool b | int t v | f32 b | f64 b | text n fs | binary n fs => exact ⟨fun a h => by cases h; rfl, fun _ _ h => by cases h⟩
  | tag m =>
    refine ⟨fun a h => ?_, fun name a h => ?_⟩
    · rw [svOf] at h
      split at h
      · cases h; rfl
      · split at h
        · cases h; rfl
        · obtain ⟨n, _, rfl⟩ := Option.map_eq_some_iff.1 h; rfl
    · rw [svVariant] at h
      obtain ⟨n, _, rfl⟩ := Option.map_eq_some_iff.1 h; rfl
  | tagged m v ih =>
    refine ⟨fun a h => ?_, fun name a h => ?_⟩
    · rw [svOf] at h
      split at h
      · obtain ⟨n, hn, rfl⟩ := Option.map_eq_some_iff.1 h; rw [Serde.asText, ih.1 n hn]
      · obtain ⟨_, n, _, hn, rfl⟩ := bindMap_some h; rw [Serde.asText, ih.1 n hn]
    · rw [svVariant] at h
      obtain ⟨_, n, _, hn, rfl⟩ := bindMap_some h; rw [Serde.asText, ih.1 n hn]
  | seq n xs ih =>
    refine ⟨fun a h => ?_, fun _ _ h => by cases h⟩
    rw [svOf] at h
    obtain ⟨ys, hy, rfl⟩ := Option.map_eq_some_iff.1 h
    rw [Serde.asText, texts xs ys (svsOf_map hy) fun u hu => (ih u hu).1]
  | map n xs ih =>
    refine ⟨fun a h => ?_, fun _ _ h => by cases h⟩
    rw [svOf] at h
    obtain ⟨ys, hy, rfl⟩ := Option.map_eq_some_iff.1 h
    rw [Serde.asText, maps xs ys hy fun u hu => ⟨(ih u hu).1.1, (ih u hu).2.1⟩]
  | tuple m n fs ih =>
    refine ⟨fun a h => ?_, fun name a h => ?_⟩
    · rw [svOf, Option.bind_eq_some_iff] at h
      obtain ⟨len, _, h⟩ := h
      split at h
      · obtain ⟨ys, hy, rfl⟩ := Option.map_eq_some_iff.1 h
        rw [Serde.asText, tups fs ys hy fun u hu => (ih u hu).1]
      · obtain ⟨_, ys, _, hy, rfl⟩ := bindMap_some h
        rw [Serde.asText, tups fs ys hy fun u hu => (ih u hu).1]
    · rw [svVariant, Option.bind_eq_some_iff] at h
      obtain ⟨_, _, h⟩ := h
      obtain ⟨_, ys, _, hy, rfl⟩ := bindMap_some h
      rw [Serde.asText, tups fs ys hy fun u hu => (ih u hu).1]
  | record m n fs ih =>
    have hvals : ∀ ys, svVals fs = some ys → Serde.asTexts ys = ys := by
      intro ys hy
      refine texts (fs.map (·.2.2)) ys (by rw [List.map_map]; exact svVals_map hy) fun u hu' => ?_
      obtain ⟨w, hw, rfl⟩ := List.mem_map.1 hu'
      exact (ih w hw).1
    have hrec : ∀ ys, svRec fs = some ys → Serde.asTextRec ys = ys := by
      intro ys hy
      refine recs ys (texts (fs.map (·.2.2)) _ (by rw [List.map_map]; exact svRec_map hy) fun u hu' => ?_)
      obtain ⟨w, hw, rfl⟩ := List.mem_map.1 hu'
      exact (ih w hw).1
    refine ⟨fun a h => ?_, fun name a h => ?_⟩
    · rw [svOf, Option.bind_eq_some_iff] at h
      obtain ⟨len, _, h⟩ := h
      split at h
      · obtain ⟨ys, hy, rfl⟩ := Option.map_eq_some_iff.1 h
        rw [Serde.asText, hvals ys hy]
      · obtain ⟨_, ys, _, hy, rfl⟩ := bindMap_some h
        rw [Serde.asText, hrec ys hy]
    · rw [svVariant, Option.bind_eq_some_iff] at h
      obtain ⟨_, _, h⟩ := h
      obtain ⟨_, ys, _, hy, rfl⟩ := bindMap_some h
      rw [Serde.asText, hrec ys hy]
  | recordTuple m n fs ih =>
    have hvals : ∀ ys, svValsRT fs = some ys → Serde.asTexts ys = ys := by
      intro ys hy
      refine texts (fs.map (·.2.2.2)) ys (by rw [List.map_map]; exact svValsRT_map hy) fun u hu' => ?_
      obtain ⟨w, hw, rfl⟩ := List.mem_map.1 hu'
      exact (ih w hw).1
    have hrec : ∀ ys, svRT fs = some ys → Serde.asTextRec ys = ys := by
      intro ys hy
      refine recs ys (texts (fs.map (·.2.2.2)) _ (by rw [List.map_map]; exact svRT_map hy) fun u hu' => ?_)
      obtain ⟨w, hw, rfl⟩ := List.mem_map.1 hu'
      exact (ih w hw).1
    refine ⟨fun a h => ?_, fun name a h => ?_⟩
    · rw [svOf, Option.bind_eq_some_iff] at h
      obtain ⟨len, _, h⟩ := h
      split at h
      · obtain ⟨ys, hy, rfl⟩ := Option.map_eq_some_iff.1 h
        rw [Serde.asText, hvals ys hy]
      · obtain ⟨_, ys, _, hy, rfl⟩ := bindMap_some h
        rw [Serde.asText, hrec ys hy]
    · rw [svVariant, Option.bind_eq_some_iff] at h
      obtain ⟨_, _, h⟩ := h
      obtain ⟨_, ys, _, hy, rfl⟩ := bindMap_some h
      rw [Serde.asText, hrec ys hy]
  | enum m v ih =>
    refine ⟨fun a h => ?_, fun _ _ h => by cases h⟩
    rw [svOf, Option.bind_eq_some_iff] at h
    obtain ⟨name, _, h⟩ := h
    exact ih.2 name a h
  | hint t v ih => exact ⟨ih.1, ih.2⟩

/-! ## C105 -/


/-- C105 for serde, as far as it holds: values of a type that reach every serializer as the same serde value are the same. Missing:
what `C105_partial` misses, and enums whose variants only differ in tags. Of values that are not `plain`, serde makes errors:
`C37_exact`. -/
theorem C105_serde_partial (ty : Ty) (hk : ty.keptSerde) (x y : RV) (hx : ty.has x) (hy : ty.has y) (px : plain x) (py : plain y) :
    ∃ a b : SV,
      (∀ (τ : Type) (S : SCall Unit τ → τ → Res Unit τ), ∃ N, ∀ d ≥ N, ∀ s, serialize () S d (prog (items x)) s = ser S a s) ∧
      (∀ (τ : Type) (S : SCall Unit τ → τ → Res Unit τ), ∃ N, ∀ d ≥ N, ∀ s, serialize () S d (prog (items y)) s = ser S b s) ∧
      (a = b → x = y) := by
  have key : ∀ x : RV, ok x → plain x → ∃ a : SV, svOf (tree x) = some a ∧
      ∀ (τ : Type) (S : SCall Unit τ → τ → Res Unit τ), ∃ N, ∀ d ≥ N, ∀ s, serialize () S d (prog (items x)) s = ser S a s := by
    intro x hx hp
    obtain ⟨a, ha⟩ := (C79_iff (tree x)).1 (serializable_tree x hx hp)
    refine ⟨a, ha, fun τ S => ?_⟩
    obtain ⟨N, hN⟩ := Serde.serialize_shows () S (emits x hx).shows (by rw [Nested.supported_seen]; exact supported_tree x hx)
    exact ⟨N, fun d hd s => by rw [hN d hd s, (Serde.serV_seen () S _).1, (Serde.serV_svOf S _).1 a ha]⟩
  obtain ⟨a, ha, h1⟩ := key x (ty.has_ok x hx) px
  obtain ⟨b, hb, h2⟩ := key y (ty.has_ok y hy) py
  exact ⟨a, b, h1, h2, fun e => ty.sv_inj hk x y hx hy a ha (e ▸ hb)⟩

/-- C105 for serde. Values of a type that every serializer gets the same results from are the same. The depth is how far values in
values are followed; any will do. -/
theorem C105_serializers_partial (ty : Ty) (hk : ty.keptSerde) (x y : RV) (hx : ty.has x) (hy : ty.has y) (px : plain x) (py : plain y)
    (h : ∀ (τ : Type) (S : SCall Unit τ → τ → Res Unit τ) (N : Nat), ∃ d ≥ N, ∀ s,
      serialize () S d (prog (items x)) s = serialize () S d (prog (items y)) s) : x = y := by
  obtain ⟨a, ha⟩ := (C79_iff (tree x)).1 (serializable_tree x (ty.has_ok x hx) px)
  obtain ⟨b, hb⟩ := (C79_iff (tree y)).1 (serializable_tree y (ty.has_ok y hy) py)
  have key : ∀ (x : RV) (a : SV), ok x → svOf (tree x) = some a →
      ∀ (τ : Type) (S : SCall Unit τ → τ → Res Unit τ), ∃ N, ∀ d ≥ N, ∀ s, serialize () S d (prog (items x)) s = ser S a s := by
    intro x a hx ha τ S
    obtain ⟨N, hN⟩ := Serde.serialize_shows () S (emits x hx).shows (by rw [Nested.supported_seen]; exact supported_tree x hx)
    exact ⟨N, fun d hd s => by rw [hN d hd s, (Serde.serV_seen () S _).1, (Serde.serV_svOf S _).1 a ha]⟩
  let R : Token → List Token → List Token × Bool := recorder fun _ _ => true
  obtain ⟨N, hN⟩ := key x a (ty.has_ok x hx) ha _ (Serde.stream R)
  obtain ⟨M, hM⟩ := key y b (ty.has_ok y hy) hb _ (Serde.stream R)
  obtain ⟨d, hd, he⟩ := h _ (Serde.stream R) (max N M)
  have e := he { s := [], w := .base }
  rw [hN d (by omega), hM d (by omega)] at e
  have ea := C86_serializer R a false []
  have eb := C86_serializer R b false []
  simp only [Bool.false_eq_true, if_false] at ea eb
  rw [e, eb, Option.some.injEq, exec_toks, exec_toks] at ea
  have hr : ∀ (ts h : List Token), calls R ts h = (h ++ ts, true) := by
    intro ts
    induction ts with
    | nil => simp [calls]
    | cons t ts ih => intro h; simp [calls, R, recorder, ih]
  rw [hr, hr, List.nil_append, List.nil_append] at ea
  have et := congrArg svOf (toks_inj (congrArg Prod.fst ea))
  rw [svOf_serde, svOf_serde, (asText_svOf _).1 a ha, (asText_svOf _).1 b hb, Option.some.injEq] at et
  exact ty.sv_inj hk x y hx hy a ha (et ▸ hb)

/-- `struct Order`, as for C104, is such a type, and its values are `plain`. -/
example : orderT.keptSerde ∧
    plain (orderR (.enum kindD 1 [.slice [.char 'a']]) (.map [.str (t! "x"), .str (t! "y")] [.none, .some (.int .i32 (-1))])) ∧
    plain (orderR (.enum kindD 0 []) (.map [] [])) := by
  have hi : ∀ i v, kindD.variants[i]? = some v → (i = 0 ∧ v = { ident := t! "Tea", shape := .unit }) ∨ (i = 1 ∧ v = { ident := t! "Other", shape := .newtype }) := by
    intro i v h
    match i with
    | 0 => exact .inl ⟨rfl, (Option.some.inj h).symm⟩
    | 1 => exact .inr ⟨rfl, (Option.some.inj h).symm⟩
    | i + 2 => simp [kindD] at h
  have hf : plainFields [{ ident := some (t! "kind") }, { ident := some (t! "prices") }] := by
    intro f hf
    simp only [List.mem_cons, List.not_mem_nil, or_false] at hf; rcases hf with rfl | rfl <;> exact .inr ⟨rfl, trivial⟩
  have hp : ∀ i, i < 2 → ∀ v, kindD.variants[i]? = some v → staticLabel v.attrs.label ∧ plainFields (Shape.fields v.shape) ∧
        if kindD.dyn then v.attrs.unindexed = false
        else ∃ k, (variantIndexes kindD kindD.variants)[i]? = some (some k) ∧ 0 ≤ k.val ∧ k.val < 4294967296 := by
    intro i _ v h
    rcases hi i v h with ⟨rfl, rfl⟩ | ⟨rfl, rfl⟩ <;>
      refine ⟨trivial, fun f hf => absurd hf List.not_mem_nil, ?_⟩ <;>
      rw [if_neg (by decide)] <;> exact ⟨_, rfl, by decide, by decide⟩
  refine ⟨⟨?_, ?_⟩, ⟨trivial, hf, ⟨trivial, rfl, ?_, hp 1 (by decide)⟩, ?_, trivial⟩, ⟨trivial, hf, ⟨trivial, rfl, trivial, hp 0 (by decide)⟩, ?_, trivial⟩⟩
  · intro f hf
    simp only [List.mem_cons, List.not_mem_nil, or_false] at hf; rcases hf with rfl | rfl <;> rfl
  · intro i
    match i with
    | 0 =>
      refine ⟨rfl, ?_, ?_, fun _ _ => trivial⟩
      · intro v hv f hf
        simp only [kindD, List.mem_cons, List.not_mem_nil, or_false] at hv
        rcases hv with rfl | rfl <;> exact nomatch hf
      · intro i i' v v' h h' _ _ e
        rcases hi i v h with ⟨rfl, rfl⟩ | ⟨rfl, rfl⟩ <;> rcases hi i' v' h' with ⟨rfl, rfl⟩ | ⟨rfl, rfl⟩ <;>
          first | exact fun _ => rfl | exact absurd e (by decide)
    | i + 1 => exact ⟨trivial, trivial⟩
  · exact ⟨⟨trivial, trivial⟩, trivial⟩
  · exact ⟨⟨trivial, trivial, trivial⟩, trivial, trivial, trivial⟩
  · exact ⟨trivial, trivial⟩

/-- With serde, C105 is false if variants only differ in tags, for which `C105_partial` holds. -/
theorem C105_fails_serde :
    let d : EnumDef := { ident := t! "E", variants := [{ ident := t! "A", shape := .unit, attrs := { tag := some ⟨t! "a"⟩, label := some (.const (t! "X")), index := some (.const 1) } }, { ident := t! "B", shape := .unit, attrs := { tag := some ⟨t! "b"⟩, label := some (.const (t! "X")), index := some (.const 1) } }] }
    let ty : Ty := .enum d fun _ _ => .unit
    ty.kept ∧ ty.has (.enum d 0 []) ∧ ty.has (.enum d 1 []) ∧
      ∀ i, i < 2 → ∀ (τ : Type) (S : SCall Unit τ → τ → Res Unit τ), ∃ N, ∀ k ≥ N, ∀ s,
        serialize () S k (prog (items (.enum d i []))) s = ser S (.unitVariant (t! "E") 1 (t! "X")) s := by
  intro d ty
  have h0 : ty.has (.enum d 0 []) := ⟨rfl, ⟨_, rfl, rfl⟩, fun k x h => by simp at h⟩
  have h1 : ty.has (.enum d 1 []) := ⟨rfl, ⟨_, rfl, rfl⟩, fun k x h => by simp at h⟩
  have key : ∀ x : RV, ok x → svOf (tree x) = some (.unitVariant (t! "E") 1 (t! "X")) →
      ∀ (τ : Type) (S : SCall Unit τ → τ → Res Unit τ), ∃ N, ∀ k ≥ N, ∀ s,
        serialize () S k (prog (items x)) s = ser S (.unitVariant (t! "E") 1 (t! "X")) s := by
    intro x hx ha τ S
    obtain ⟨N, hN⟩ := Serde.serialize_shows () S (emits x hx).shows (by rw [Nested.supported_seen]; exact supported_tree x hx)
    exact ⟨N, fun d hd s => by rw [hN d hd s, (Serde.serV_seen () S _).1, (Serde.serV_svOf S _).1 _ ha]⟩
  refine ⟨⟨rfl, ?_, ?_, fun _ _ => trivial⟩, h0, h1, ?_⟩
  · intro v hv f hf
    simp only [d, List.mem_cons, List.not_mem_nil, or_false] at hv
    rcases hv with rfl | rfl <;> exact nomatch hf
  · intro i i' v v' h h' _ _ e
    replace e := congrArg Look.tag e
    match i, i' with
    | 0, 0 => rfl
    | 1, 1 => rfl
    | 0, 1 => cases h; cases h'; exact absurd e (by decide)
    | 1, 0 => cases h; cases h'; exact absurd e (by decide)
    | i + 2, _ => simp [d] at h
    | _, i + 2 => simp [d] at h'
  · intro i hi
    match i with
    | 0 => exact key _ (ty.has_ok _ h0) (by rfl)
    | 1 => exact key _ (ty.has_ok _ h1) (by rfl)

end Sval
