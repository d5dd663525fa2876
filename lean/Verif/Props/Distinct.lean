import Verif.Props.Members
import Verif.Props.RustJson

set_option autoImplicit false

/-!
# C104. Different values of a type are written differently

What is in a value can be told from its JSON, if its type is known. It depends on the type: `Some(())` is `null`, like
`None`; so are all floats that are not numbers; fields that are skipped are not written.
-/

namespace Sval

open Nested (prog)
open Rust
open Json (J Env Doc parse consO pairO)
open Derive (Field Attrs Shape Variant EnumDef)

/-! ## Types -/

/-- Types of Rust values. What has several parts has a type for each. -/
inductive Ty where
  | unit
  | f32
  | f64
  | bool
  | int (t : IntTy)
  | char
  | str
  | bytes
  | byteArray
  | option (t : Ty)
  | boxed (t : Ty)
  | slice (t : Ty)
  | array (t : Ty)
  | tuple (n : Nat) (ts : Nat → Ty)
  | map (k t : Ty)
  | unitStruct (ident : Text) (at' : Attrs)
  | newtype (ident : Text) (at' : Attrs) (transparent : Bool) (t : Ty)
  | struct (named : Bool) (ident : Text) (at' : Attrs) (fs : List Field) (ts : Nat → Ty)
  /-- The type of each field of each variant. -/
  | enum (d : EnumDef) (ts : Nat → Nat → Ty)

namespace Ty

/-- The values of a type. -/
def has : Ty → RV → Prop
  | .unit, .unit => True
  | .f32, .f32 _ => True
  | .f64, .f64 _ => True
  | .bool, .bool _ => True
  | .int t, .int t' _ => t' = t
  | .char, .char _ => True
  | .str, .str _ => True
  | .bytes, .bytes _ => True
  | .byteArray, .byteArray _ => True
  | .option _, .none => True
  | .option t, .some v => t.has v
  | .boxed t, .boxed v => t.has v
  | .slice t, .slice xs => ∀ x ∈ xs, t.has x
  | .array t, .array xs => ∀ x ∈ xs, t.has x
  | .tuple n ts, .tuple xs => xs.length = n ∧ ∀ i x, xs[i]? = some x → (ts i).has x
  | .map k t, .map ks vs => ks.length = vs.length ∧ (∀ x ∈ ks, k.has x) ∧ ∀ x ∈ vs, t.has x
  | .unitStruct n a, .unitStruct n' a' => n' = n ∧ a' = a
  | .newtype n a b t, .newtype n' a' b' v => n' = n ∧ a' = a ∧ b' = b ∧ t.has v
  | .struct b n a fs ts, .struct b' n' a' fs' vs =>
    b' = b ∧ n' = n ∧ a' = a ∧ fs' = fs ∧ okFields a fs vs.length ∧ ∀ i x, vs[i]? = some x → (ts i).has x
  | .enum d ts, .enum d' i vs =>
    d' = d ∧ (∃ v, d.variants[i]? = some v ∧ okVariant v vs.length) ∧ ∀ k x, vs[k]? = some x → (ts i k).has x
  | _, _ => False

/-- What a variant is called. -/
def called (d : EnumDef) (i : Nat) (v : Variant) : Option Text := ident (Derive.variantName d v) (indexOf d i)

/-- The type as a type of keys, if its values can be keys in JSON. Enums have only variants without fields. -/
def key : Ty → Option KeyTy
  | .unit => some .unit
  | .bool => some .bool
  | .int t => some (.int t)
  | .char => some .char
  | .str => some .str
  | .option t => t.key.map .option
  | .boxed t => t.key.map .boxed
  | .newtype n a b t => t.key.map (.newtype n a b)
  | .enum d _ => if d.variants.all fun v => Derive.isUnit v.shape then some (.enum d) else none
  | _ => none

/-- No value is written as `null`. -/
def notNull : Ty → Prop
  | .unit | .option _ => False
  | .boxed t | .newtype _ _ _ t => t.notNull
  | _ => True

/-- Different values are written differently: they are not floats, keys are of a type for keys (C101), what is optional is not written as `null` if it is there, no field is skipped, and the
variants of enums are called something, and each something else. -/
def fine : Ty → Prop
  | .f32 | .f64 => False
  | .option t => t.fine ∧ t.notNull
  | .boxed t | .newtype _ _ _ t | .slice t | .array t => t.fine
  | .tuple _ ts => ∀ i, (ts i).fine
  | .map k t => (∃ kt, k.key = some kt ∧ kt.fine) ∧ t.fine
  | .struct _ _ _ fs ts => (∀ f ∈ fs, f.skip = false) ∧ ∀ i, (ts i).fine
  | .enum d ts => d.dyn = false ∧ (∀ i v, d.variants[i]? = some v → (called d i v).isSome = true ∧ ∀ f ∈ fieldsOf v.shape, f.skip = false) ∧
      (∀ i i' v v', d.variants[i]? = some v → d.variants[i']? = some v' → called d i v = called d i' v' → i = i') ∧
      ∀ i k, (ts i k).fine
  | _ => True

end Ty

/-! ## Lists -/

theorem map_inj_at {α β : Type} {f : α → β} {xs ys : List α} (h : xs.map f = ys.map f)
    (hi : ∀ (i : Nat) x y, xs[i]? = some x → ys[i]? = some y → f x = f y → x = y) : xs = ys := by
  refine List.ext_getElem? fun i => ?_
  have e := congrArg (·[i]?) h
  simp only [List.getElem?_map] at e
  cases hx : xs[i]? with
  | none => cases hy : ys[i]? with
    | none => rfl
    | some y => rw [hx, hy] at e; cases e
  | some x => cases hy : ys[i]? with
    | none => rw [hx, hy] at e; cases e
    | some y => rw [hx, hy] at e; rw [hi i x y hx hy (Option.some.inj e)]

/-- Parts with the same documents are the same. -/
theorem docs_inj (env : Env) (xs ys : List RV) (js : List J) (hx : docs env xs = js.map some) (hy : docs env ys = js.map some)
    (hi : ∀ (i : Nat) x y j, xs[i]? = some x → ys[i]? = some y → doc env x = some j → doc env y = some j → x = y) : xs = ys := by
  rw [docs_eq] at hx hy
  refine map_inj_at (hx.trans hy.symm) fun i x y h1 h2 e => ?_
  have h3 : (js.map some)[i]? = some (doc env x) := by rw [← hx, List.getElem?_map, h1]; rfl
  rw [List.getElem?_map] at h3
  cases hj : js[i]? with
  | none => rw [hj] at h3; cases h3
  | some j =>
    rw [hj] at h3
    have := Option.some.inj h3
    exact hi i x y j h1 h2 this.symm (by rw [← e]; exact this.symm)

theorem bytes_inj {a b : Bytes} {j : J} (h : some (J.arr (a.map fun b => .num (b.toNat : Int))) = some j)
    (h' : some (J.arr (b.map fun b => .num (b.toNat : Int))) = some j) : a = b := by
  have e := h.trans h'.symm
  simp only [Option.some.injEq, J.arr.injEq] at e
  refine map_inj_at e fun _ x y _ _ e => ?_
  simp only [J.num.injEq, Rat.intCast_inj] at e
  exact UInt8.toNat_inj.1 (by omega)

theorem zip_pairO {as : List (Option Text)} {bs : List (Option J)} {kvs : List (Text × J)} (hl : as.length = bs.length)
    (h : List.zipWith pairO as bs = kvs.map some) : as = kvs.map (fun x => some x.1) ∧ bs = kvs.map (fun x => some x.2) := by
  induction as generalizing bs kvs with
  | nil =>
    cases bs with
    | nil => cases kvs with
      | nil => exact ⟨rfl, rfl⟩
      | cons _ _ => cases h
    | cons _ _ => cases hl
  | cons a as ih =>
    cases bs with
    | nil => cases hl
    | cons b bs =>
      cases kvs with
      | nil => cases h
      | cons kv kvs =>
        simp only [List.zipWith_cons_cons, List.map_cons, List.cons.injEq] at h
        obtain ⟨h1, h2⟩ := ih (by simpa using hl) h.2
        have := h.1
        simp only [pairO, Option.bind_eq_some_iff, Option.map_eq_some_iff] at this
        obtain ⟨k, rfl, j, rfl, rfl⟩ := this
        exact ⟨by rw [h1]; rfl, by rw [h2]; rfl⟩

/-- What is in the fields of a struct can be seen. -/
theorem structDoc_some {named : Bool} {at' : Attrs} {fs : List Field} {os : List (Option J)} {j : J} (hs : ∀ f ∈ fs, f.skip = false)
    (hl : fs.length = os.length) (h : structDoc named at' fs os = some j) :
    ∃ js, os = js.map some ∧ ((j = .arr js) ∨ ∃ kvs, j = .obj kvs ∧ kvs.map (·.2) = js) := by
  have hr : Derive.rows fs os = fs.zip os := by
    rw [Derive.rows, List.filter_eq_self]
    intro r hr
    rw [hs r.1 (List.of_mem_zip hr).1]; rfl
  have h2 : (fs.zip os).map (·.2) = os := by
    show (fs.zip os).map Prod.snd = os
    rw [List.map_snd_zip]; omega
  simp only [structDoc, hr] at h
  split at h
  · obtain ⟨kvs, h1, rfl⟩ := Option.map_eq_some_iff.1 h
    refine ⟨kvs.map (·.2), ?_, .inr ⟨kvs, rfl, rfl⟩⟩
    have h3 := allO_some h1
    rw [← h2]
    apply List.ext_getElem?
    intro i
    have e := congrArg (·[i]?) h3
    simp only [List.getElem?_map] at e ⊢
    cases hz : (fs.zip os)[i]? with
    | none =>
      rw [hz] at e
      cases hk : kvs[i]? with
      | none => rfl
      | some kv => rw [hk] at e; cases e
    | some r =>
      rw [hz] at e
      cases hk : kvs[i]? with
      | none => rw [hk] at e; cases e
      | some kv =>
        rw [hk] at e
        have e := Option.some.inj e
        simp only [pairO, Option.bind_some, Option.map_eq_some_iff] at e
        obtain ⟨j, h4, rfl⟩ := e
        simp [h4]
  · obtain ⟨js, h1, rfl⟩ := Option.map_eq_some_iff.1 h
    rw [h2] at h1
    exact ⟨js, allO_some h1, .inl rfl⟩

/-- What is in a struct is all that differs. -/
theorem structDoc_inj {named : Bool} {at' : Attrs} {fs : List Field} {os os' : List (Option J)} {j : J} (hs : ∀ f ∈ fs, f.skip = false)
    (hl : fs.length = os.length) (hl' : fs.length = os'.length) (h : structDoc named at' fs os = some j)
    (h' : structDoc named at' fs os' = some j) : ∃ js : List J, os = js.map some ∧ os' = js.map some := by
  obtain ⟨js, h1, h2⟩ := structDoc_some hs hl h
  obtain ⟨js', h3, h4⟩ := structDoc_some hs hl' h'
  have : js = js' := by
    rcases h2 with rfl | ⟨kvs, rfl, rfl⟩
    · rcases h4 with h | ⟨kvs', h, _⟩
      · cases h; rfl
      · cases h
    · rcases h4 with h | ⟨kvs', h, rfl⟩
      · cases h
      · cases h; rfl
  exact ⟨js, h1, this ▸ h3⟩

/-- What is in a variant. -/
def variantInner (v : Variant) (os : List (Option J)) : Option J :=
  match v.shape, os with
  | .unit, _ => none
  | .newtype, j :: _ => j
  | .newtype, [] => none
  | .named fs, os => structDoc true v.attrs fs os
  | .unnamed fs, os => structDoc false v.attrs fs os

/-- What a variant is called, and what is in it, can be seen. -/
theorem variantDoc_some {d : EnumDef} {v : Variant} {i : Option Index} {os : List (Option J)} {j : J} {k : Text} (hd : d.dyn = false)
    (hk : ident (Derive.variantName d v) i = some k) (h : variantDoc d v i os = some j) :
    (v.shape = .unit ∧ (j = .str k ∨ ∃ n : Int, j = .num n ∧ k = intDec n)) ∨
    (v.shape ≠ .unit ∧ ∃ j', variantInner v os = some j' ∧ j = .obj [(k, j')]) := by
  cases hs : v.shape with
  | unit =>
    refine .inl ⟨rfl, ?_⟩
    simp only [variantDoc, hs, Option.some.injEq] at h
    subst h
    cases hl : Derive.variantName d v with
    | some l => rw [hl] at hk; cases hk; exact .inl rfl
    | none =>
      rw [hl] at hk
      cases i with
      | none => cases hk
      | some i =>
        simp only [ident] at hk
        split at hk
        · next hr => cases hk; exact .inr ⟨i.val, by simp only [unitDoc, if_pos hr], rfl⟩
        · cases hk
  | newtype =>
    cases os with
    | nil => simp [variantDoc, hs] at h
    | cons o os =>
      simp only [variantDoc, hs, hd, Bool.false_eq_true, if_false, hk, Option.map_eq_some_iff] at h
      obtain ⟨j', rfl, rfl⟩ := h
      exact .inr ⟨by simp, j', by simp [variantInner, hs], rfl⟩
  | named fs =>
    simp only [variantDoc, hs, hd, Bool.false_eq_true, if_false, hk, Option.map_eq_some_iff] at h
    obtain ⟨j', h, rfl⟩ := h
    exact .inr ⟨by simp, j', by simp [variantInner, hs, h], rfl⟩
  | unnamed fs =>
    simp only [variantDoc, hs, hd, Bool.false_eq_true, if_false, hk, Option.map_eq_some_iff] at h
    obtain ⟨j', h, rfl⟩ := h
    exact .inr ⟨by simp, j', by simp [variantInner, hs, h], rfl⟩

namespace Ty

/-- Values of types of keys are keys. -/
theorem key_has (k : Ty) (kt : KeyTy) (h : k.key = some kt) (x : RV) (hx : k.has x) : kt.has x := by
  induction k generalizing kt x with
  | unit | bool | int | char | str =>
    cases h
    cases x <;> first | exact (show False from hx).elim | exact hx
  | option t ih =>
    obtain ⟨kt', h', rfl⟩ := Option.map_eq_some_iff.1 h
    cases x <;> first | exact (show False from hx).elim | skip
    · trivial
    · rename_i v
      exact ih kt' h' v hx
  | boxed t ih =>
    obtain ⟨kt', h', rfl⟩ := Option.map_eq_some_iff.1 h
    cases x <;> first | exact (show False from hx).elim | skip
    rename_i v
    exact ih kt' h' v hx
  | newtype n a b t ih =>
    obtain ⟨kt', h', rfl⟩ := Option.map_eq_some_iff.1 h
    cases x <;> first | exact (show False from hx).elim | skip
    rename_i v
    exact ⟨hx.1, hx.2.1, hx.2.2.1, ih kt' h' v hx.2.2.2⟩
  | enum d ts ih =>
    simp only [key] at h
    split at h
    · next hu =>
      cases h
      cases x <;> first | exact (show False from hx).elim | skip
      obtain ⟨rfl, ⟨v, hv, ho⟩, _⟩ := hx
      have hv' : v.shape = .unit := by
        have := List.all_eq_true.1 hu v (List.mem_of_getElem? hv)
        cases hs : v.shape <;> simp [hs, Derive.isUnit] at this
        rfl
      simp only [okVariant, hv'] at ho
      exact ⟨rfl, List.length_eq_zero_iff.1 ho, v, hv, hv'⟩
    · cases h
  | _ => cases h

theorem notNull_doc (env : Env) (ty : Ty) (hf : ty.fine) (hn : ty.notNull) (x : RV) (hx : ty.has x) : doc env x ≠ some .null := by
  have mp : ∀ {α : Type} (o : Option α) (f : α → J), (∀ a, f a ≠ .null) → o.map f ≠ some .null := by
    intro α o f hf h
    obtain ⟨a, _, h⟩ := Option.map_eq_some_iff.1 h
    exact hf a h
  induction ty generalizing x with
  | unit => exact hn.elim
  | f32 | f64 => exact hf.elim
  | option t ih => exact hn.elim
  | boxed t ih =>
    cases x <;> first | exact (show False from hx).elim | skip
    rename_i v
    exact ih hf hn v hx
  | newtype n a b t ih =>
    cases x <;> first | exact (show False from hx).elim | skip
    rename_i v
    exact ih hf hn v hx.2.2.2
  | bool | int | char | str | bytes | byteArray | unitStruct =>
    cases x <;> first | exact (show False from hx).elim | skip
    exact fun h => by cases h
  | slice | array | tuple | map =>
    cases x <;> first | exact (show False from hx).elim | skip
    exact mp _ _ fun _ h => by cases h
  | struct b n a fs ts ih =>
    cases x <;> first | exact (show False from hx).elim | skip
    obtain ⟨rfl, rfl, rfl, rfl, ho, _⟩ := hx
    intro h
    obtain ⟨js, _, h | ⟨_, h, _⟩⟩ := structDoc_some hf.1 (by rw [docs_eq, List.length_map]; exact ho.2.2) h
    · cases h
    · cases h
  | enum d ts ih =>
    cases x <;> first | exact (show False from hx).elim | skip
    obtain ⟨rfl, ⟨v, hv, ho⟩, _⟩ := hx
    intro h
    simp only [doc, hv] at h
    obtain ⟨k, hk⟩ := Option.isSome_iff_exists.1 (hf.2.1 _ _ hv).1
    rcases variantDoc_some hf.1 hk h with ⟨_, h | ⟨_, h, _⟩⟩ | ⟨_, _, _, h⟩ <;> cases h

/-- Different values have different documents. -/
theorem inj (env : Env) (ty : Ty) (hf : ty.fine) (x y : RV) (j : J) (hx : ty.has x) (hy : ty.has y)
    (h : doc env x = some j) (h' : doc env y = some j) : x = y := by
  induction ty generalizing x y j with
  | f32 | f64 => exact hf.elim
  | unit =>
    cases x <;> first | exact (show False from hx).elim | skip
    cases y <;> first | exact (show False from hy).elim | skip
    rfl
  | bool =>
    cases x <;> first | exact (show False from hx).elim | skip
    cases y <;> first | exact (show False from hy).elim | skip
    cases h; cases h'; rfl
  | int t =>
    cases x <;> first | exact (show False from hx).elim | skip
    cases y <;> first | exact (show False from hy).elim | skip
    cases h
    simp only [doc, Option.some.injEq, J.num.injEq] at h'
    rw [show _ = t from hx, show _ = t from hy, Rat.intCast_inj.1 h']
  | char =>
    cases x <;> first | exact (show False from hx).elim | skip
    cases y <;> first | exact (show False from hy).elim | skip
    cases h; cases h'; rfl
  | str =>
    cases x <;> first | exact (show False from hx).elim | skip
    cases y <;> first | exact (show False from hy).elim | skip
    cases h; cases h'; rfl
  | bytes =>
    cases x <;> first | exact (show False from hx).elim | skip
    cases y <;> first | exact (show False from hy).elim | skip
    exact congrArg RV.bytes (bytes_inj h h')
  | byteArray =>
    cases x <;> first | exact (show False from hx).elim | skip
    cases y <;> first | exact (show False from hy).elim | skip
    exact congrArg RV.byteArray (bytes_inj h h')
  | option t ih =>
    cases x <;> first | exact (show False from hx).elim | skip
    · cases y <;> first | exact (show False from hy).elim | skip
      · rfl
      · rename_i v
        cases h
        exact absurd h' (notNull_doc env t hf.1 hf.2 v hy)
    · cases y <;> first | exact (show False from hy).elim | skip
      · rename_i v
        cases h'
        exact absurd h (notNull_doc env t hf.1 hf.2 v hx)
      · exact congrArg RV.some (ih hf.1 _ _ j hx hy h h')
  | boxed t ih =>
    cases x <;> first | exact (show False from hx).elim | skip
    cases y <;> first | exact (show False from hy).elim | skip
    exact congrArg RV.boxed (ih hf _ _ j hx hy h h')
  | slice t ih =>
    cases x <;> first | exact (show False from hx).elim | skip
    cases y <;> first | exact (show False from hy).elim | skip
    obtain ⟨js, h1, rfl⟩ := Option.map_eq_some_iff.1 h
    obtain ⟨js', h2, e⟩ := Option.map_eq_some_iff.1 h'
    cases e
    exact congrArg RV.slice (docs_inj env _ _ js (allO_some h1) (allO_some h2) fun i x y j e1 e2 =>
      ih hf x y j (hx x (List.mem_of_getElem? e1)) (hy y (List.mem_of_getElem? e2)))
  | array t ih =>
    cases x <;> first | exact (show False from hx).elim | skip
    cases y <;> first | exact (show False from hy).elim | skip
    obtain ⟨js, h1, rfl⟩ := Option.map_eq_some_iff.1 h
    obtain ⟨js', h2, e⟩ := Option.map_eq_some_iff.1 h'
    cases e
    exact congrArg RV.array (docs_inj env _ _ js (allO_some h1) (allO_some h2) fun i x y j e1 e2 =>
      ih hf x y j (hx x (List.mem_of_getElem? e1)) (hy y (List.mem_of_getElem? e2)))
  | tuple n ts ih =>
    cases x <;> first | exact (show False from hx).elim | skip
    cases y <;> first | exact (show False from hy).elim | skip
    obtain ⟨js, h1, rfl⟩ := Option.map_eq_some_iff.1 h
    obtain ⟨js', h2, e⟩ := Option.map_eq_some_iff.1 h'
    cases e
    exact congrArg RV.tuple (docs_inj env _ _ js (allO_some h1) (allO_some h2) fun i x y j e1 e2 =>
      ih i (hf i) x y j (hx.2 i x e1) (hy.2 i y e2))
  | map k t _ ih =>
    obtain ⟨⟨kt, hkt, hkf⟩, hf⟩ := hf
    cases x <;> first | exact (show False from hx).elim | skip
    cases y <;> first | exact (show False from hy).elim | skip
    obtain ⟨kvs, h1, rfl⟩ := Option.map_eq_some_iff.1 h
    obtain ⟨kvs', h2, e⟩ := Option.map_eq_some_iff.1 h'
    cases e
    obtain ⟨g1, g2⟩ := zip_pairO (by rw [docKeys_eq, docs_eq, List.length_map, List.length_map]; exact hx.1) (allO_some h1)
    obtain ⟨g3, g4⟩ := zip_pairO (by rw [docKeys_eq, docs_eq, List.length_map, List.length_map]; exact hy.1) (allO_some h2)
    have e1 := g1.trans g3.symm
    rw [docKeys_eq, docKeys_eq] at e1
    rw [map_inj_at e1 fun i x y m1 m2 e => kt.inj env hkf x y (k.key_has kt hkt x (hx.2.1 x (List.mem_of_getElem? m1)))
        (k.key_has kt hkt y (hy.2.1 y (List.mem_of_getElem? m2))) e,
      docs_inj env _ _ (kvs.map (·.2)) (by rw [g2, List.map_map]; rfl) (by rw [g4, List.map_map]; rfl) fun i x y j m1 m2 =>
        ih hf x y j (hx.2.2 x (List.mem_of_getElem? m1)) (hy.2.2 y (List.mem_of_getElem? m2))]
  | unitStruct n a =>
    cases x <;> first | exact (show False from hx).elim | skip
    cases y <;> first | exact (show False from hy).elim | skip
    rw [hx.1, hx.2, hy.1, hy.2]
  | newtype n a b t ih =>
    cases x <;> first | exact (show False from hx).elim | skip
    cases y <;> first | exact (show False from hy).elim | skip
    obtain ⟨rfl, rfl, rfl, hx⟩ := hx
    obtain ⟨rfl, rfl, rfl, hy⟩ := hy
    rw [ih hf _ _ j hx hy h h']
  | struct b n a fs ts ih =>
    cases x <;> first | exact (show False from hx).elim | skip
    cases y <;> first | exact (show False from hy).elim | skip
    obtain ⟨rfl, rfl, rfl, rfl, ho, hx⟩ := hx
    obtain ⟨rfl, rfl, rfl, rfl, ho', hy⟩ := hy
    obtain ⟨js, h1, h2⟩ := structDoc_inj hf.1 (by rw [docs_eq, List.length_map]; exact ho.2.2)
      (by rw [docs_eq, List.length_map]; exact ho'.2.2) h h'
    rw [docs_inj env _ _ js h1 h2 fun i x y j e1 e2 => ih i (hf.2 i) x y j (hx i x e1) (hy i y e2)]
  | enum d ts ih =>
    cases x <;> first | exact (show False from hx).elim | skip
    cases y <;> first | exact (show False from hy).elim | skip
    rename_i i xs _ i' ys
    obtain ⟨rfl, ⟨v, hv, ho⟩, hx⟩ := hx
    obtain ⟨rfl, ⟨v', hv', ho'⟩, hy⟩ := hy
    simp only [doc, hv] at h
    simp only [doc, hv'] at h'
    obtain ⟨hd, hn, hu, ht⟩ := hf
    obtain ⟨k, hk⟩ := Option.isSome_iff_exists.1 (hn _ _ hv).1
    obtain ⟨k', hk'⟩ := Option.isSome_iff_exists.1 (hn _ _ hv').1
    have key : k = k' → i = i' := fun e => hu i i' v v' hv hv' (by rw [hk, hk', e])
    have parts : i = i' → ∀ js : List J, docs env xs = js.map some → docs env ys = js.map some → xs = ys := by
      rintro rfl js h1 h2
      exact docs_inj env _ _ js h1 h2 fun n x y j e1 e2 => ih i n (ht i n) x y j (hx n x e1) (hy n y e2)
    rcases variantDoc_some hd hk h with ⟨hs, h1⟩ | ⟨hs, j1, h1, rfl⟩
    · rcases variantDoc_some hd hk' h' with ⟨hs', h2⟩ | ⟨_, _, _, h2⟩
      · have e : k = k' := by
          rcases h1 with rfl | ⟨n, rfl, rfl⟩
          · rcases h2 with h2 | ⟨_, h2, _⟩
            · cases h2; rfl
            · cases h2
          · rcases h2 with h2 | ⟨n', h2, rfl⟩
            · cases h2
            · simp only [J.num.injEq, Rat.intCast_inj] at h2
              rw [h2]
        cases key e
        simp only [okVariant, hs] at ho
        simp only [okVariant, hs'] at ho'
        rw [List.length_eq_zero_iff.1 ho, List.length_eq_zero_iff.1 ho']
      · rcases h1 with rfl | ⟨n, rfl, rfl⟩ <;> cases h2
    · rcases variantDoc_some hd hk' h' with ⟨_, h2 | ⟨_, h2, _⟩⟩ | ⟨hs', j2, h2, e⟩
      · cases h2
      · cases h2
      · cases e
        have hi := key rfl
        subst hi
        rw [hv] at hv'
        cases hv'
        have hsk := (hn _ _ hv).2
        obtain ⟨js, g1, g2⟩ : ∃ js : List J, docs env xs = js.map some ∧ docs env ys = js.map some := by
          cases hsh : v.shape with
          | unit => exact absurd hsh hs
          | newtype =>
            simp only [okVariant, hsh] at ho ho'
            obtain ⟨x, rfl⟩ := List.length_eq_one_iff.mp ho
            obtain ⟨y, rfl⟩ := List.length_eq_one_iff.mp ho'
            simp only [variantInner, hsh, docs] at h1 h2
            exact ⟨[j1], by simp [docs, h1], by simp [docs, h2]⟩
          | named fs =>
            simp only [okVariant, hsh] at ho ho'
            simp only [hsh, fieldsOf] at hsk
            simp only [variantInner, hsh] at h1 h2
            exact structDoc_inj hsk (by rw [docs_eq, List.length_map]; exact ho.2.2) (by rw [docs_eq, List.length_map]; exact ho'.2.2) h1 h2
          | unnamed fs =>
            simp only [okVariant, hsh] at ho ho'
            simp only [hsh, fieldsOf] at hsk
            simp only [variantInner, hsh] at h1 h2
            exact structDoc_inj hsk (by rw [docs_eq, List.length_map]; exact ho.2.2) (by rw [docs_eq, List.length_map]; exact ho'.2.2) h1 h2
        rw [parts rfl js g1 g2]

/-- Every value of a type is one that can be written in Rust. -/
theorem has_ok (ty : Ty) (x : RV) (h : ty.has x) : ok x := by
  induction ty generalizing x with
  | unit | f32 | f64 | bool | int | char | str | bytes | byteArray | unitStruct =>
    cases x <;> first | exact (show False from h).elim | trivial
  | option t ih =>
    cases x <;> first | exact (show False from h).elim | skip
    · trivial
    · rename_i v
      exact ih v h
  | boxed t ih =>
    cases x <;> first | exact (show False from h).elim | skip
    rename_i v
    exact ih v h
  | slice t ih | array t ih =>
    cases x <;> first | exact (show False from h).elim | skip
    rw [ok, oks_iff]
    exact fun x hx => ih x (h x hx)
  | tuple n ts ih =>
    cases x <;> first | exact (show False from h).elim | skip
    rw [ok, oks_iff]
    intro x hx
    obtain ⟨i, hi⟩ := List.mem_iff_getElem?.1 hx
    exact ih i x (h.2 i x hi)
  | map k t ihk ih =>
    cases x <;> first | exact (show False from h).elim | skip
    rw [ok, oks_iff, oks_iff]
    exact ⟨h.1, fun x hx => ihk x (h.2.1 x hx), fun x hx => ih x (h.2.2 x hx)⟩
  | newtype n a b t ih =>
    cases x <;> first | exact (show False from h).elim | skip
    rename_i v
    exact ih v h.2.2.2
  | struct b n a fs ts ih =>
    cases x <;> first | exact (show False from h).elim | skip
    obtain ⟨rfl, rfl, rfl, rfl, ho, h⟩ := h
    rw [ok, oks_iff]
    refine ⟨ho, fun x hx => ?_⟩
    obtain ⟨i, hi⟩ := List.mem_iff_getElem?.1 hx
    exact ih i x (h i x hi)
  | enum d ts ih =>
    cases x <;> first | exact (show False from h).elim | skip
    obtain ⟨rfl, ho, h⟩ := h
    rw [ok, oks_iff]
    refine ⟨ho, fun x hx => ?_⟩
    obtain ⟨i, hi⟩ := List.mem_iff_getElem?.1 hx
    exact ih _ i x (h i x hi)

/-- Every value of such a type has a document. -/
theorem has_doc (env : Env) (ty : Ty) (hf : ty.fine) (x : RV) (h : ty.has x) : (doc env x).isSome = true := by
  have all : ∀ {α : Type} (xs : List (Option α)), (∀ x ∈ xs, x.isSome = true) → (allO xs).isSome = true := by
    intro α xs
    induction xs with
    | nil => exact fun _ => rfl
    | cons x xs ih =>
      intro h
      obtain ⟨y, hy⟩ := Option.isSome_iff_exists.1 (h x (.head _))
      obtain ⟨ys, hys⟩ := Option.isSome_iff_exists.1 (ih fun x hx => h x (.tail _ hx))
      simp [allO, consO, hy, hys]
  have st : ∀ named at' fs (os : List (Option J)), (∀ o ∈ os, o.isSome = true) → (structDoc named at' fs os).isSome = true := by
    intro named at' fs os h
    have hr : ∀ r ∈ Derive.rows fs os, r.2.isSome = true := fun r hr => h _ (List.of_mem_zip (List.mem_filter.mp hr).1).2
    simp only [structDoc]
    split
    · rw [Option.isSome_map]
      refine all _ fun o ho => ?_
      obtain ⟨r, h1, rfl⟩ := List.mem_map.1 ho
      simp [pairO, hr r h1]
    · rw [Option.isSome_map]
      refine all _ fun o ho => ?_
      obtain ⟨r, h1, rfl⟩ := List.mem_map.1 ho
      exact hr r h1
  have each : ∀ (xs : List RV) (ts : Nat → Ty), (∀ i x, (ts i).has x → (doc env x).isSome = true) → (∀ (i : Nat) x, xs[i]? = some x → (ts i).has x) →
      ∀ o ∈ docs env xs, o.isSome = true := by
    intro xs ts ih h o ho
    rw [docs_eq] at ho
    obtain ⟨x, hx, rfl⟩ := List.mem_map.1 ho
    obtain ⟨i, hi⟩ := List.mem_iff_getElem?.1 hx
    exact ih i x (h i x hi)
  induction ty generalizing x with
  | f32 | f64 => exact hf.elim
  | unit | bool | int | char | str | bytes | byteArray | unitStruct =>
    cases x <;> first | exact (show False from h).elim | rfl
  | option t ih =>
    cases x <;> first | exact (show False from h).elim | skip
    · rfl
    · rename_i v
      exact ih hf.1 v h
  | boxed t ih =>
    cases x <;> first | exact (show False from h).elim | skip
    rename_i v
    exact ih hf v h
  | slice t ih | array t ih =>
    cases x <;> first | exact (show False from h).elim | skip
    rw [doc, Option.isSome_map]
    exact all _ (each _ (fun _ => t) (fun _ => ih hf) fun i x hi => h x (List.mem_of_getElem? hi))
  | tuple n ts ih =>
    cases x <;> first | exact (show False from h).elim | skip
    rw [doc, Option.isSome_map]
    exact all _ (each _ ts (fun i => ih i (hf i)) h.2)
  | map k t _ ih =>
    obtain ⟨⟨kt, hkt, _⟩, hf⟩ := hf
    cases x <;> first | exact (show False from h).elim | skip
    rename_i ks vs
    rw [doc, Option.isSome_map]
    refine all _ fun o ho => ?_
    obtain ⟨i, hi⟩ := List.mem_iff_getElem?.1 ho
    rw [List.getElem?_zipWith_eq_some] at hi
    obtain ⟨a, b, ha, hb, rfl⟩ := hi
    have ha := List.mem_of_getElem? ha
    have hb := List.mem_of_getElem? hb
    rw [docKeys_eq] at ha
    obtain ⟨x, hx, rfl⟩ := List.mem_map.1 ha
    obtain ⟨t', ht', _⟩ := kt.named env x (k.key_has kt hkt x (h.2.1 x hx))
    have := each _ (fun _ => t) (fun _ => ih hf) (fun i x hi => h.2.2 x (List.mem_of_getElem? hi)) b hb
    simp [pairO, ht', this]
  | newtype n a b t ih =>
    cases x <;> first | exact (show False from h).elim | skip
    rename_i v
    exact ih hf v h.2.2.2
  | struct b n a fs ts ih =>
    cases x <;> first | exact (show False from h).elim | skip
    obtain ⟨rfl, rfl, rfl, rfl, ho, h⟩ := h
    exact st _ _ _ _ (each _ ts (fun i => ih i (hf.2 i)) h)
  | enum d ts ih =>
    cases x <;> first | exact (show False from h).elim | skip
    obtain ⟨rfl, ⟨v, hv, ho⟩, h⟩ := h
    have hs := each _ _ (fun k => ih _ k (hf.2.2.2 _ k)) h
    simp only [doc, hv]
    cases hsh : v.shape with
    | unit => simp [variantDoc, hsh]
    | newtype =>
      simp only [okVariant, hsh] at ho
      obtain ⟨x, rfl⟩ := List.length_eq_one_iff.mp ho
      simp only [variantDoc, hsh, docs, Option.isSome_map]
      exact hs _ (.head _)
    | named fs => simp only [variantDoc, hsh, Option.isSome_map]; exact st _ _ _ _ hs
    | unnamed fs => simp only [variantDoc, hsh, Option.isSome_map]; exact st _ _ _ _ hs

end Ty

/-! ## C104 -/

/-- C104, of documents: different values of a type stand for different documents. -/
theorem C104_doc (env : Env) (ty : Ty) (hf : ty.fine) (x y : RV) (hx : ty.has x) (hy : ty.has y) (h : doc env x = doc env y) : x = y := by
  obtain ⟨j, hj⟩ := Option.isSome_iff_exists.1 (ty.has_doc env hf x hx)
  exact ty.inj env hf x y j hx hy hj (by rw [← h, hj])

/-- C104, as far as it holds: if the text is the same, so are the values, and whoever knows the type can tell the value from
the text. Missing: types like `Option<()>`, `C104_fails`; floats, `C104_fails_float`; fields that are skipped, `C104_fails_skip`; variants with
the same name, `C104_fails_variants`; values that are not written as they should be, C68. -/
theorem C104_partial (env : Env) (ty : Ty) (hf : ty.fine) (x y : RV) (hx : ty.has x) (hy : ty.has y) (hc : clear x = true)
    (hc' : clear y = true) (h : Json.toString env (prog (items x)) = Json.toString env (prog (items y))) : x = y := by
  obtain ⟨j, hj⟩ := Option.isSome_iff_exists.1 (ty.has_doc env hf x hx)
  obtain ⟨j', hj'⟩ := Option.isSome_iff_exists.1 (ty.has_doc env hf y hy)
  obtain ⟨t, h1, h2, _⟩ := C68_partial env x j (ty.has_ok x hx) hj hc
  obtain ⟨t', h3, h4, _⟩ := C68_partial env y j' (ty.has_ok y hy) hj' hc'
  rw [h1, h3] at h
  cases h
  rw [h2] at h4
  cases h4
  exact ty.inj env hf x y j hx hy hj hj'

/-- C104. Any parser of JSON, and any further program, can find out which value it was. -/
theorem C104_decoder (env : Env) (ty : Ty) (hf : ty.fine) :
    ∃ decode : Text → Option RV, ∀ x, ty.has x → clear x = true →
      ∃ t, Json.toString env (prog (items x)) = some t ∧ decode t = some x := by
  classical
  refine ⟨fun t => if h : ∃ x, ty.has x ∧ clear x = true ∧ Json.toString env (prog (items x)) = some t then some h.choose else none,
    fun x hx hc => ?_⟩
  obtain ⟨j, hj⟩ := Option.isSome_iff_exists.1 (ty.has_doc env hf x hx)
  obtain ⟨t, h1, _⟩ := C68_partial env x j (ty.has_ok x hx) hj hc
  have h : ∃ x, ty.has x ∧ clear x = true ∧ Json.toString env (prog (items x)) = some t := ⟨x, hx, hc, h1⟩
  refine ⟨t, h1, ?_⟩
  simp only [dif_pos h, Option.some.injEq]
  exact C104_partial env ty hf _ _ h.choose_spec.1 hx h.choose_spec.2.1 hc (h.choose_spec.2.2.trans h1.symm)

/-- `struct Order { kind: Kind, prices: HashMap<String, Option<i32>> }`, where `enum Kind { Tea, Other(Vec<char>) }`. -/
def orderT : Ty := .struct true (t! "Order") {} [{ ident := some (t! "kind") }, { ident := some (t! "prices") }]
  fun | 0 => .enum kindD fun _ _ => .slice .char
      | _ => .map .str (.option (.int .i32))

def orderR (k : RV) (p : RV) : RV := .struct true (t! "Order") {} [{ ident := some (t! "kind") }, { ident := some (t! "prices") }] [k, p]

/-- There are values of such types that are written as they should be. -/
example : orderT.fine ∧ orderT.has (orderR (.enum kindD 1 [.slice [.char 'a']]) (.map [.str (t! "x"), .str (t! "y")] [.none, .some (.int .i32 (-1))])) ∧
    clear (orderR (.enum kindD 1 [.slice [.char 'a']]) (.map [.str (t! "x"), .str (t! "y")] [.none, .some (.int .i32 (-1))])) = true ∧
    orderT.has (orderR (.enum kindD 0 []) (.map [] [])) ∧ clear (orderR (.enum kindD 0 []) (.map [] [])) = true := by
  have ho : okFields {} [{ ident := some (t! "kind") }, { ident := some (t! "prices") }] 2 := by
    refine ⟨rfl, fun f hf => ?_, rfl⟩
    exact .inr (by simp only [List.mem_cons, List.not_mem_nil, or_false] at hf; rcases hf with rfl | rfl <;> rfl)
  have hi : ∀ i v, kindD.variants[i]? = some v → (i = 0 ∧ v = { ident := t! "Tea", shape := .unit }) ∨ (i = 1 ∧ v = { ident := t! "Other", shape := .newtype }) := by
    intro i v h
    match i with
    | 0 => exact .inl ⟨rfl, (Option.some.inj h).symm⟩
    | 1 => exact .inr ⟨rfl, (Option.some.inj h).symm⟩
    | i + 2 => simp [kindD] at h
  refine ⟨⟨?_, ?_⟩, ⟨rfl, rfl, rfl, rfl, ho, ?_⟩, rfl, ⟨rfl, rfl, rfl, rfl, ho, ?_⟩, rfl⟩
  · intro f hf
    simp only [List.mem_cons, List.not_mem_nil, or_false] at hf; rcases hf with rfl | rfl <;> rfl
  · intro i
    match i with
    | 0 =>
      refine ⟨rfl, ?_, ?_, fun _ _ => trivial⟩
      · intro i v h
        rcases hi i v h with ⟨rfl, rfl⟩ | ⟨rfl, rfl⟩ <;> exact ⟨rfl, fun f hf => nomatch hf⟩
      · intro i i' v v' h h' e
        rcases hi i v h with ⟨rfl, rfl⟩ | ⟨rfl, rfl⟩ <;> rcases hi i' v' h' with ⟨rfl, rfl⟩ | ⟨rfl, rfl⟩ <;>
          first | rfl | exact absurd e (by decide)
    | i + 1 => exact ⟨⟨.str, rfl, trivial⟩, trivial, trivial⟩
  · intro i x h
    match i with
    | 0 =>
      cases h
      refine ⟨rfl, ⟨_, rfl, rfl⟩, fun k x h => ?_⟩
      match k with
      | 0 => cases h; intro x hx; rcases List.mem_singleton.1 hx with rfl; trivial
      | k + 1 => simp at h
    | 1 =>
      cases h
      refine ⟨rfl, ?_, ?_⟩ <;> intro x hx <;> simp only [List.mem_cons, List.not_mem_nil, or_false] at hx <;>
        rcases hx with rfl | rfl <;> trivial
    | i + 2 => simp at h
  · intro i x h
    match i with
    | 0 => cases h; exact ⟨rfl, ⟨_, rfl, rfl⟩, fun k x h => by simp at h⟩
    | 1 => cases h; exact ⟨rfl, by simp, by simp⟩
    | i + 2 => simp at h

/-- C104 is false: `Some(())` and `None` are both `null`, and so is `Some(None)`. -/
theorem C104_fails :
    (Ty.option .unit).has (.some .unit) ∧ (Ty.option .unit).has .none ∧ RV.some .unit ≠ .none ∧ ¬ (Ty.option .unit).fine ∧
      Json.toString anyEnv (prog (items (.some .unit))) = some (t! "null") ∧ Json.toString anyEnv (prog (items .none)) = some (t! "null") ∧
      (Ty.option (.option .bool)).has (.some .none) ∧ ¬ (Ty.option (.option .bool)).fine ∧
      Json.toString anyEnv (prog (items (.some .none))) = some (t! "null") := by
  refine ⟨trivial, trivial, nofun, fun h => h.2, ?_, ?_, trivial, fun h => h.2, ?_⟩
  · rw [toString_rust _ _ (show ok (.some .unit) from trivial)]; decide +kernel
  · rw [toString_rust _ _ (show ok .none from trivial)]; decide +kernel
  · rw [toString_rust _ _ (show ok (.some .none) from trivial)]; decide +kernel

/-- C104 is false of floats: infinity and what is not a number are both `null`. -/
theorem C104_fails_float : RV.f32 0x7f800000 ≠ .f32 0x7fc00000 ∧ RV.f32 0x7f800000 ≠ .f32 0xff800000 ∧
    Json.toString anyEnv (prog (items (.f32 0x7f800000))) = some (t! "null") ∧
    Json.toString anyEnv (prog (items (.f32 0x7fc00000))) = some (t! "null") ∧
    Json.toString anyEnv (prog (items (.f32 0xff800000))) = some (t! "null") := by
  refine ⟨fun h => absurd (RV.f32.inj h) (by decide), fun h => absurd (RV.f32.inj h) (by decide), ?_, ?_, ?_⟩
  · rw [toString_rust _ _ (show ok (.f32 0x7f800000) from trivial)]; decide +kernel
  · rw [toString_rust _ _ (show ok (.f32 0x7fc00000) from trivial)]; decide +kernel
  · rw [toString_rust _ _ (show ok (.f32 0xff800000) from trivial)]; decide +kernel

/-- C104 is false if fields are skipped. -/
theorem C104_fails_skip :
    let x (b : Bool) : RV := .struct true (t! "P") {} [{ ident := some (t! "x"), skip := true }] [.bool b]
    (∀ b, ok (x b)) ∧ x true ≠ x false ∧ ∀ b, Json.toString anyEnv (prog (items (x b))) = some (t! "{}") := by
  intro x
  have hx : ∀ b, ok (x b) := by
    intro b
    refine ⟨⟨rfl, fun f hf => ?_, rfl⟩, trivial, trivial⟩
    rcases List.mem_singleton.1 hf with rfl
    exact .inr rfl
  refine ⟨hx, nofun, fun b => ?_⟩
  rw [toString_rust _ _ (hx b)]
  cases b <;> decide +kernel

/-- C104 is false if variants have the same label, which the derive macro accepts. -/
theorem C104_fails_variants :
    let d : EnumDef := { ident := t! "E", variants := [{ ident := t! "A", shape := .unit }, { ident := t! "B", shape := .unit, attrs := { label := some (.const (t! "A")) } }] }
    ok (.enum d 0 []) ∧ ok (.enum d 1 []) ∧ RV.enum d 0 [] ≠ .enum d 1 [] ∧
    Json.toString anyEnv (prog (items (.enum d 0 []))) = some (t! "\"A\"") ∧
    Json.toString anyEnv (prog (items (.enum d 1 []))) = some (t! "\"A\"") := by
  intro d
  have h0 : ok (.enum d 0 []) := ⟨⟨_, rfl, rfl⟩, trivial⟩
  have h1 : ok (.enum d 1 []) := ⟨⟨_, rfl, rfl⟩, trivial⟩
  refine ⟨h0, h1, nofun, ?_, ?_⟩
  · rw [toString_rust _ _ h0]; decide +kernel
  · rw [toString_rust _ _ h1]; decide +kernel

end Sval
