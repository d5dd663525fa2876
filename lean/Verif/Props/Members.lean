import Verif.Props.FlattenJson

set_option autoImplicit false

/-!
# The members of objects: C101

No member of an object that `sval_json` writes has the name of another if the keys of maps differ and the fields of
structs have different labels. This depends on the type of the keys.
-/

namespace Sval

open Nested (prog)
open Rust
open Json (J Env Doc parse consO pairO)
open Derive (Field Attrs Shape Variant EnumDef)

/-! ## Specification -/

mutual
/-- No object has two members with the same name. -/
def J.unique : J → Prop
  | .arr xs => J.uniques xs
  | .obj kvs => (kvs.map (·.1)).Nodup ∧ J.uniqueMembers kvs
  | _ => True
def J.uniques : List J → Prop
  | [] => True
  | x :: xs => J.unique x ∧ J.uniques xs
def J.uniqueMembers : List (Text × J) → Prop
  | [] => True
  | (_, x) :: xs => J.unique x ∧ J.uniqueMembers xs
end

/-- Types of keys. -/
inductive KeyTy where
  | unit
  | bool
  | int (t : IntTy)
  | char
  | str
  | option (k : KeyTy)
  | boxed (k : KeyTy)
  | newtype (ident : Text) (at' : Attrs) (transparent : Bool) (k : KeyTy)
  /-- An enum, of which only the variants without fields are keys. -/
  | enum (d : EnumDef)

namespace KeyTy

/-- A variant without fields. -/
def isCase (d : EnumDef) (i : Nat) : Prop := ∃ v, d.variants[i]? = some v ∧ v.shape = .unit

/-- The name of a variant: its label, or else its index. -/
def caseName (d : EnumDef) (i : Nat) : Text :=
  match d.variants[i]? with
  | some v => (ident (Derive.variantName d v) (indexOf d i)).getD (t! "null")
  | none => []

/-- The keys of a type. -/
def has : KeyTy → RV → Prop
  | .unit, .unit => True
  | .bool, .bool _ => True
  | .int t, .int t' _ => t' = t
  | .char, .char _ => True
  | .str, .str _ => True
  | .option _, .none => True
  | .option k, .some v => k.has v
  | .boxed k, .boxed v => k.has v
  | .newtype n a b k, .newtype n' a' b' v => n' = n ∧ a' = a ∧ b' = b ∧ k.has v
  | .enum d, .enum d' i vs => d' = d ∧ vs = [] ∧ isCase d i
  | _, _ => False

/-- No key is written as `null`. -/
def notNull : KeyTy → Prop
  | .unit | .str | .option _ => False
  | .bool | .int _ | .char => True
  | .boxed k | .newtype _ _ _ k => k.notNull
  | .enum d => ∀ i, isCase d i → caseName d i ≠ t! "null"

/-- Different keys have different names: the variants of enums do, and what is optional is not written as `null` if it
is there. -/
def fine : KeyTy → Prop
  | .unit | .bool | .int _ | .char | .str => True
  | .option k => k.fine ∧ k.notNull
  | .boxed k | .newtype _ _ _ k => k.fine
  | .enum d => ∀ i j, isCase d i → isCase d j → caseName d i = caseName d j → i = j

end KeyTy

/-- The labels of the fields differ. -/
def fieldsDiffer (at' : Attrs) (fs : List Field) : Prop :=
  at'.unlabeled = true ∨ (∀ f ∈ fs, f.skip = false → Derive.nameOf f = none) ∨
    ((fs.filter fun f => !f.skip).map fun f => (Derive.name f).text).Nodup

mutual
/-- In every map there are different keys of one of these types, and in every struct different labels. -/
def differ : RV → Prop
  | .some v | .boxed v | .newtype _ _ _ v => differ v
  | .slice xs | .array xs | .tuple xs => differs xs
  | .map ks vs => (∃ ty : KeyTy, ty.fine ∧ ∀ k ∈ ks, ty.has k) ∧ ks.Nodup ∧ differs vs
  | .struct _ _ at' fs vs => fieldsDiffer at' fs ∧ differs vs
  | .enum d i vs => (∀ v, d.variants[i]? = some v → fieldsDiffer v.attrs (fieldsOf v.shape)) ∧ differs vs
  | _ => True
def differs : List RV → Prop
  | [] => True
  | x :: xs => differ x ∧ differs xs
end

/-! ## Keys -/

theorem intDec_inj {a b : Int} (h : intDec a = intDec b) : a = b := by
  have := congrArg readInt h
  simpa [readInt_intDec] using this

theorem intDec_null (v : Int) : intDec v ≠ t! "null" := by
  intro h
  have := congrArg readInt h
  rw [readInt_intDec] at this
  have h' : readInt (t! "null") = none := by decide +kernel
  rw [h'] at this
  cases this

namespace KeyTy

theorem docKey_enum (env : Env) (d : EnumDef) (i : Nat) (h : isCase d i) : docKey env (.enum d i []) = some (caseName d i) := by
  obtain ⟨v, h1, h2⟩ := h
  simp [docKey, docKeys, caseName, h1, h2]

/-- Every key has a name, and if the type is without `null` it is another. -/
theorem named (env : Env) (ty : KeyTy) (x : RV) (h : ty.has x) :
    ∃ t, docKey env x = some t ∧ (ty.notNull → t ≠ t! "null") := by
  induction ty generalizing x with
  | unit =>
    cases x <;> first | exact (show False from h).elim | skip
    exact ⟨_, rfl, fun h => h.elim⟩
  | bool =>
    cases x <;> first | exact (show False from h).elim | skip
    exact ⟨_, rfl, fun _ => by split <;> decide⟩
  | int t =>
    cases x <;> first | exact (show False from h).elim | skip
    exact ⟨_, rfl, fun _ => intDec_null _⟩
  | char =>
    cases x <;> first | exact (show False from h).elim | skip
    exact ⟨_, rfl, fun _ h => by cases h⟩
  | str =>
    cases x <;> first | exact (show False from h).elim | skip
    exact ⟨_, rfl, fun h => h.elim⟩
  | option k ih =>
    cases x <;> first | exact (show False from h).elim | skip
    · exact ⟨_, rfl, fun h => h.elim⟩
    · obtain ⟨t, h1, _⟩ := ih _ h
      exact ⟨t, h1, fun h => h.elim⟩
  | boxed k ih =>
    cases x <;> first | exact (show False from h).elim | skip
    obtain ⟨t, h1, h2⟩ := ih _ h
    exact ⟨t, h1, h2⟩
  | newtype n a b k ih =>
    cases x <;> first | exact (show False from h).elim | skip
    obtain ⟨t, h1, h2⟩ := ih _ h.2.2.2
    exact ⟨t, h1, h2⟩
  | enum d =>
    cases x <;> first | exact (show False from h).elim | skip
    obtain ⟨rfl, rfl, h⟩ := h
    exact ⟨_, docKey_enum env _ _ h, fun hn => hn _ h⟩

/-- Otherwise some key is. -/
theorem null (env : Env) (ty : KeyTy) (h : ¬ ty.notNull) : ∃ x, ty.has x ∧ docKey env x = some (t! "null") := by
  induction ty with
  | unit => exact ⟨.unit, trivial, rfl⟩
  | bool => exact (h trivial).elim
  | int t => exact (h trivial).elim
  | char => exact (h trivial).elim
  | str => exact ⟨.str (t! "null"), trivial, rfl⟩
  | option k ih => exact ⟨.none, trivial, rfl⟩
  | boxed k ih =>
    obtain ⟨x, h1, h2⟩ := ih h
    exact ⟨.boxed x, h1, h2⟩
  | newtype n a b k ih =>
    obtain ⟨x, h1, h2⟩ := ih h
    exact ⟨.newtype n a b x, ⟨rfl, rfl, rfl, h1⟩, h2⟩
  | enum d =>
    simp only [notNull, Classical.not_forall, not_not] at h
    obtain ⟨i, h1, h2⟩ := h
    exact ⟨.enum d i [], ⟨rfl, rfl, h1⟩, by rw [docKey_enum env d i h1, h2]⟩

theorem inj (env : Env) (ty : KeyTy) (hf : ty.fine) (x y : RV) (hx : ty.has x) (hy : ty.has y) (h : docKey env x = docKey env y) :
    x = y := by
  induction ty generalizing x y with
  | unit =>
    cases x <;> first | exact (show False from hx).elim | skip
    cases y <;> first | exact (show False from hy).elim | skip
    rfl
  | bool =>
    cases x <;> first | exact (show False from hx).elim | skip
    cases y <;> first | exact (show False from hy).elim | skip
    rename_i a b
    cases a <;> cases b <;> first | rfl | (simp [docKey] at h)
  | int t =>
    cases x <;> first | exact (show False from hx).elim | skip
    cases y <;> first | exact (show False from hy).elim | skip
    simp only [docKey, Option.some.injEq] at h
    rw [intDec_inj h, show _ = t from hx, show _ = t from hy]
  | char =>
    cases x <;> first | exact (show False from hx).elim | skip
    cases y <;> first | exact (show False from hy).elim | skip
    simp only [docKey, Option.some.injEq, List.cons.injEq, and_true] at h
    rw [h]
  | str =>
    cases x <;> first | exact (show False from hx).elim | skip
    cases y <;> first | exact (show False from hy).elim | skip
    simp only [docKey, Option.some.injEq] at h
    rw [h]
  | option k ih =>
    cases x <;> first | exact (show False from hx).elim | skip
    · cases y <;> first | exact (show False from hy).elim | skip
      · rfl
      · obtain ⟨t, h1, h2⟩ := named env k _ hy
        simp only [docKey] at h
        rw [h1, Option.some.injEq] at h
        exact absurd h.symm (h2 hf.2)
    · cases y <;> first | exact (show False from hy).elim | skip
      · obtain ⟨t, h1, h2⟩ := named env k _ hx
        simp only [docKey] at h
        rw [h1, Option.some.injEq] at h
        exact absurd h (h2 hf.2)
      · exact congrArg RV.some (ih hf.1 _ _ hx hy h)
  | boxed k ih =>
    cases x <;> first | exact (show False from hx).elim | skip
    cases y <;> first | exact (show False from hy).elim | skip
    exact congrArg RV.boxed (ih hf _ _ hx hy h)
  | newtype n a b k ih =>
    cases x <;> first | exact (show False from hx).elim | skip
    cases y <;> first | exact (show False from hy).elim | skip
    obtain ⟨rfl, rfl, rfl, hx⟩ := hx
    obtain ⟨rfl, rfl, rfl, hy⟩ := hy
    rw [ih hf _ _ hx hy h]
  | enum d =>
    cases x <;> first | exact (show False from hx).elim | skip
    cases y <;> first | exact (show False from hy).elim | skip
    obtain ⟨rfl, rfl, hx⟩ := hx
    obtain ⟨rfl, rfl, hy⟩ := hy
    rw [docKey_enum env _ _ hx, docKey_enum env _ _ hy, Option.some.injEq] at h
    rw [hf _ _ hx hy h]

theorem inj_iff (env : Env) (ty : KeyTy) :
    (∀ x y, ty.has x → ty.has y → docKey env x = docKey env y → x = y) ↔ ty.fine := by
  refine ⟨fun h => ?_, fun hf x y => inj env ty hf x y⟩
  induction ty with
  | unit => trivial
  | bool => trivial
  | int t => trivial
  | char => trivial
  | str => trivial
  | option k ih =>
    refine ⟨ih fun x y hx hy he => ?_, ?_⟩
    · have := h (.some x) (.some y) hx hy he
      injection this
    · refine Classical.byContradiction fun hn => ?_
      obtain ⟨x, h1, h2⟩ := null env k hn
      have := h .none (.some x) trivial h1 (by simpa [docKey] using h2.symm)
      cases this
  | boxed k ih =>
    refine ih fun x y hx hy he => ?_
    have := h (.boxed x) (.boxed y) hx hy he
    injection this
  | newtype n a b k ih =>
    refine ih fun x y hx hy he => ?_
    have := h (.newtype n a b x) (.newtype n a b y) ⟨rfl, rfl, rfl, hx⟩ ⟨rfl, rfl, rfl, hy⟩ he
    injection this
  | enum d =>
    intro i j hi hj he
    have := h (.enum d i []) (.enum d j []) ⟨rfl, rfl, hi⟩ ⟨rfl, rfl, hj⟩ (by
      rw [docKey_enum env d i hi, docKey_enum env d j hj, he])
    injection this

end KeyTy

/-! ## Values -/

theorem J.uniques_iff (xs : List J) : J.uniques xs ↔ ∀ x ∈ xs, J.unique x := by
  induction xs with
  | nil => simp [J.uniques]
  | cons x xs ih => simp [J.uniques, ih]
theorem J.uniqueMembers_iff (xs : List (Text × J)) : J.uniqueMembers xs ↔ ∀ x ∈ xs, J.unique x.2 := by
  induction xs with
  | nil => simp [J.uniqueMembers]
  | cons x xs ih => simp [J.uniqueMembers, ih]
theorem differs_iff (xs : List RV) : differs xs ↔ ∀ x ∈ xs, differ x := by
  induction xs with
  | nil => simp [differs]
  | cons x xs ih => simp [differs, ih]

theorem allO_some {α : Type} {xs : List (Option α)} {ys : List α} (h : allO xs = some ys) : xs = ys.map some := by
  induction xs generalizing ys with
  | nil => cases h; rfl
  | cons x xs ih =>
    simp only [allO, consO, Option.bind_eq_some_iff, Option.map_eq_some_iff] at h
    obtain ⟨y, rfl, zs, hz, rfl⟩ := h
    rw [ih hz]; rfl

theorem unique_map (env : Env) (ks vs : List RV) (kvs : List (Text × J))
    (h : allO (List.zipWith pairO (docKeys env ks) (docs env vs)) = some kvs)
    (hi : ∀ x ∈ ks, ∀ y ∈ ks, docKey env x = docKey env y → x = y) (hn : ks.Nodup)
    (hv : ∀ v ∈ vs, ∀ j, doc env v = some j → J.unique j) :
    (kvs.map (·.1)).Nodup ∧ ∀ x ∈ kvs, J.unique x.2 ∧ ∃ k ∈ ks, docKey env k = some x.1 := by
  induction ks generalizing vs kvs with
  | nil =>
    simp only [docKeys, List.zipWith_nil_left, allO, Option.some.injEq] at h
    subst h
    exact ⟨.nil, fun x hx => by cases hx⟩
  | cons k ks ih =>
    cases vs with
    | nil =>
      simp only [docs, List.zipWith_nil_right, allO, Option.some.injEq] at h
      subst h
      exact ⟨.nil, fun x hx => by cases hx⟩
    | cons v vs =>
      simp only [docKeys, docs, List.zipWith_cons_cons, allO, consO, pairO, Option.bind_eq_some_iff, Option.map_eq_some_iff] at h
      obtain ⟨kv, ⟨t, ht, j, hj, rfl⟩, r, hr, rfl⟩ := h
      rw [List.nodup_cons] at hn
      obtain ⟨h1, h2⟩ := ih vs r hr (fun x hx y hy => hi x (.tail _ hx) y (.tail _ hy)) hn.2 fun v hv' => hv v (.tail _ hv')
      refine ⟨?_, ?_⟩
      · simp only [List.map_cons, List.nodup_cons]
        refine ⟨fun hm => ?_, h1⟩
        obtain ⟨x, hx, he⟩ := List.mem_map.mp hm
        obtain ⟨k', hk', hd⟩ := (h2 x hx).2
        have : k = k' := hi k (.head _) k' (.tail _ hk') (by rw [ht, hd, he])
        exact hn.1 (this ▸ hk')
      · intro x hx
        rcases List.mem_cons.mp hx with rfl | hx
        · exact ⟨hv v (.head _) j hj, k, .head _, ht⟩
        · exact ⟨(h2 x hx).1, (h2 x hx).2.imp fun k hk => ⟨.tail _ hk.1, hk.2⟩⟩

theorem rows_sublist {α : Type} (fs : List Field) (xs : List α) :
    ((Derive.rows fs xs).map (·.1)).Sublist (fs.filter fun f => !f.skip) := by
  induction fs generalizing xs with
  | nil => simp [Derive.rows]
  | cons f fs ih =>
    cases xs with
    | nil => simp [Derive.rows]
    | cons x xs =>
      have := ih xs
      cases hf : f.skip <;> simp_all [Derive.rows]

theorem unique_struct (named : Bool) (at' : Attrs) (fs : List Field) (js : List (Option J)) (j : J)
    (h : structDoc named at' fs js = some j) (hd : fieldsDiffer at' fs) (hj : ∀ o ∈ js, ∀ j, o = some j → J.unique j) :
    J.unique j := by
  have hm : ∀ r ∈ Derive.rows fs js, r.1 ∈ fs ∧ r.1.skip = false ∧ r.2 ∈ js := by
    intro r hr
    obtain ⟨h1, h2⟩ := List.mem_filter.mp hr
    exact ⟨(List.of_mem_zip h1).1, by simpa using h2, (List.of_mem_zip h1).2⟩
  simp only [structDoc] at h
  split at h
  · next hl =>
    simp only [Option.map_eq_some_iff] at h
    obtain ⟨kvs, h, rfl⟩ := h
    have he := allO_some h
    have h1 : kvs.map (·.1) = (Derive.rows fs js).map fun r => (Derive.name r.1).text := by
      have : (kvs.map some).map (fun o => o.map (·.1)) = (Derive.rows fs js).map fun r => some (Derive.name r.1).text := by
        rw [← he, List.map_map]
        refine List.map_congr_left fun r hr => ?_
        have : pairO (some (Derive.name r.1).text) r.2 ∈ kvs.map some := by
          rw [← he]; exact List.mem_map.mpr ⟨r, hr, rfl⟩
        obtain ⟨kv, _, e⟩ := List.mem_map.mp this
        cases hr2 : r.2 with
        | none => rw [hr2] at e; cases e
        | some j => simp [pairO, hr2]
      rw [List.map_map] at this
      have h2 := congrArg (List.map fun o : Option Text => o.getD []) this
      simpa [Function.comp_def] using h2
    refine ⟨?_, (J.uniqueMembers_iff _).2 fun x hx => ?_⟩
    · rw [h1]
      rcases hd with hd | hd | hd
      · cases hr : Derive.rows fs js with
        | nil => exact .nil
        | cons r rs => rw [hr] at hl; simp [Derive.labeled, hd] at hl
      · cases hr : Derive.rows fs js with
        | nil => exact .nil
        | cons r rs =>
          rw [hr] at hl
          have := hm r (by rw [hr]; exact .head _)
          simp [Derive.labeled, hd _ this.1 this.2.1] at hl
      · have := ((rows_sublist fs js).map fun f => (Derive.name f).text).nodup hd
        simpa [List.map_map, Function.comp_def] using this
    · have : some x ∈ (Derive.rows fs js).map fun r => pairO (some (Derive.name r.1).text) r.2 := by
        rw [he]; exact List.mem_map.mpr ⟨x, hx, rfl⟩
      obtain ⟨r, hr, e⟩ := List.mem_map.mp this
      simp only [pairO, Option.bind_some, Option.map_eq_some_iff] at e
      obtain ⟨j, hj', rfl⟩ := e
      exact hj _ (hm r hr).2.2 j hj'
  · simp only [Option.map_eq_some_iff] at h
    obtain ⟨xs, h, rfl⟩ := h
    have he := allO_some h
    refine (J.uniques_iff _).2 fun x hx => ?_
    have : some x ∈ (Derive.rows fs js).map (·.2) := by rw [he]; exact List.mem_map.mpr ⟨x, hx, rfl⟩
    obtain ⟨r, hr, e⟩ := List.mem_map.mp this
    exact hj _ (hm r hr).2.2 x e

theorem unique_doc (env : Env) (x : RV) (j : J) (hd : differ x) (h : doc env x = some j) : J.unique j := by
  induction x using RV.ind generalizing j with | h x ih => ?_
  have arr : ∀ xs : List RV, (∀ x ∈ xs, ∀ j, differ x → doc env x = some j → J.unique j) → differs xs →
      ∀ j, (allO (docs env xs)).map J.arr = some j → J.unique j := by
    intro xs ih hd j h
    obtain ⟨js, h', rfl⟩ := Option.map_eq_some_iff.1 h
    have he := allO_some h'
    rw [docs_eq] at he
    refine (J.uniques_iff _).2 fun y hy => ?_
    have : some y ∈ xs.map (doc env) := by rw [he]; exact List.mem_map.mpr ⟨y, hy, rfl⟩
    obtain ⟨x, hx, e⟩ := List.mem_map.mp this
    exact ih x hx y ((differs_iff xs).1 hd x hx) e
  have fields : ∀ xs : List RV, (∀ x ∈ xs, ∀ j, differ x → doc env x = some j → J.unique j) → differs xs →
      ∀ o ∈ docs env xs, ∀ j, o = some j → J.unique j := by
    intro xs ih hd o ho j e
    rw [docs_eq] at ho
    obtain ⟨x, hx, rfl⟩ := List.mem_map.mp ho
    exact ih x hx j ((differs_iff xs).1 hd x hx) e
  cases x with
  | unit => cases h; trivial
  | null => cases h; trivial
  | none => cases h; trivial
  | bool b => cases h; trivial
  | int t v => cases h; trivial
  | f32 b =>
    simp only [doc] at h
    split at h
    · simp only [Json.numOf] at h
      split at h <;> cases h
      trivial
    · cases h; trivial
  | f64 b =>
    simp only [doc] at h
    split at h
    · simp only [Json.numOf] at h
      split at h <;> cases h
      trivial
    · cases h; trivial
  | char c => cases h; trivial
  | str s => cases h; trivial
  | display fs => cases h; trivial
  | bytes b =>
    cases h
    refine (J.uniques_iff _).2 fun y hy => ?_
    obtain ⟨b, _, rfl⟩ := List.mem_map.mp hy
    trivial
  | byteArray b =>
    cases h
    refine (J.uniques_iff _).2 fun y hy => ?_
    obtain ⟨b, _, rfl⟩ := List.mem_map.mp hy
    trivial
  | number fs =>
    simp only [doc, Json.numberOf] at h
    split at h
    · cases h; trivial
    · split at h <;> cases h
      trivial
  | some v => exact ih v (.head _) j hd h
  | boxed v => exact ih v (.head _) j hd h
  | newtype n a b v => exact ih v (.head _) j hd h
  | slice xs => exact arr xs ih hd j h
  | array xs => exact arr xs ih hd j h
  | tuple xs => exact arr xs ih hd j h
  | map ks vs =>
    obtain ⟨⟨ty, hf, hk⟩, hn, hv⟩ := hd
    obtain ⟨kvs, h', rfl⟩ := Option.map_eq_some_iff.1 h
    obtain ⟨h1, h2⟩ := unique_map env ks vs kvs h' (fun x hx y hy => ty.inj env hf x y (hk x hx) (hk y hy)) hn
      fun v hv' j => ih v (List.mem_append_right _ hv') j ((differs_iff vs).1 hv v hv')
    exact ⟨h1, (J.uniqueMembers_iff _).2 fun x hx => (h2 x hx).1⟩
  | unitStruct n a => cases h; trivial
  | struct named n a fs vs => exact unique_struct named a fs _ j h hd.1 (fields vs ih hd.2)
  | enum d i vs =>
    obtain ⟨hd, hv⟩ := hd
    have hf := fields vs ih hv
    simp only [doc] at h
    split at h
    · cases h
    · next v hv' =>
      have hd := hd v hv'
      have tagged : ∀ j : J, J.unique j → J.unique (if d.dyn then j
          else match ident (Derive.variantName d v) (indexOf d i) with
            | Option.some k => .obj [(k, j)]
            | Option.none => j) := by
        intro j hj
        split
        · exact hj
        · split
          · exact ⟨by simp, hj, trivial⟩
          · exact hj
      simp only [variantDoc] at h
      cases hs : v.shape with
      | unit =>
        rw [hs] at h
        simp only [Option.some.injEq] at h
        subst h
        unfold unitDoc
        split <;> try trivial
        split <;> trivial
      | newtype =>
        rw [hs] at h
        cases hjs : docs env vs with
        | nil => rw [hjs] at h; cases h
        | cons o os =>
          rw [hjs] at h
          simp only [Option.map_eq_some_iff] at h
          obtain ⟨j, hj, rfl⟩ := h
          exact tagged j (hf o (by rw [hjs]; exact .head _) j hj)
      | named fs =>
        rw [hs] at h hd
        simp only [Option.map_eq_some_iff] at h
        obtain ⟨j, hj, rfl⟩ := h
        exact tagged j (unique_struct _ _ _ _ j hj hd hf)
      | unnamed fs =>
        rw [hs] at h hd
        simp only [Option.map_eq_some_iff] at h
        obtain ⟨j, hj, rfl⟩ := h
        exact tagged j (unique_struct _ _ _ _ j hj hd hf)

/-! ## C101 -/

/-- C101 for keys: different keys of a type have different names, exactly if the type is `fine`. -/
theorem C101_keys_exact (env : Env) (ty : KeyTy) :
    (∀ x y, ty.has x → ty.has y → x ≠ y → ∃ a b, docKey env x = some a ∧ docKey env y = some b ∧ a ≠ b) ↔ ty.fine := by
  rw [← KeyTy.inj_iff env ty]
  constructor
  · intro h x y hx hy he
    refine Classical.byContradiction fun hn => ?_
    obtain ⟨a, b, h1, h2, h3⟩ := h x y hx hy hn
    rw [h1, h2, Option.some.injEq] at he
    exact h3 he
  · intro h x y hx hy hn
    obtain ⟨a, ha, _⟩ := ty.named env x hx
    obtain ⟨b, hb, _⟩ := ty.named env y hy
    exact ⟨a, b, ha, hb, fun e => hn (h x y hx hy (by rw [ha, hb, e]))⟩

/-- C101, as far as it holds: what is written is read as a document in which no object has two members with the same name.
Missing: keys that are optional texts, `C101_fails_option`, floats or numbers in text; labels that are the same, `C101_fails_label`;
flattened fields, `C101_fails_flatten`; and what C68 leaves out. -/
theorem C101_partial (env : Env) (x : RV) (j : J) (hx : ok x) (hj : doc env x = some j) (hc : clear x = true) (hd : differ x) :
    ∃ t, Json.toString env (prog (items x)) = some t ∧ parse t = some j ∧ J.unique j ∧ ∀ j', Doc j' t → J.unique j' := by
  obtain ⟨t, h1, h2, h3⟩ := C68_partial env x j hx hj hc
  have hu := unique_doc env x j hd hj
  exact ⟨t, h1, h2, hu, fun j' h => h3 j' h ▸ hu⟩

/-- `struct P { x: i32, y: HashMap<Option<u8>, bool> }`, with two entries. -/
def membersR : RV := .struct true (t! "P") {} [{ ident := some (t! "x") }, { ident := some (t! "y") }]
  [.int .i32 1, .map [.none, .some (.int .u8 0)] [.bool true, .bool false]]

example (env : Env) : ok membersR ∧ clear membersR = true ∧ differ membersR ∧
    doc env membersR = some (.obj [(t! "x", .num 1), (t! "y", .obj [(t! "null", .bool true), (t! "0", .bool false)])]) := by
  refine ⟨⟨⟨rfl, ?_, rfl⟩, trivial, ⟨rfl, ⟨trivial, trivial, trivial⟩, trivial, trivial, trivial⟩, trivial⟩, rfl, ?_, rfl⟩
  · intro f hf
    exact .inr (by simp only [List.mem_cons, List.not_mem_nil, or_false] at hf; rcases hf with rfl | rfl <;> rfl)
  · refine ⟨.inr (.inr (by decide)), trivial, ⟨⟨.option (.int .u8), ⟨trivial, trivial⟩, ?_⟩, by simp, trivial, trivial, trivial⟩, trivial⟩
    intro k hk
    simp only [List.mem_cons, List.not_mem_nil, or_false] at hk
    rcases hk with rfl | rfl
    · trivial
    · rfl

/-- An enum of two variants without fields is such a type too, and as an option. -/
example : (KeyTy.option (.enum { ident := t! "E", variants := [{ ident := t! "A", shape := .unit }, { ident := t! "B", shape := .unit }] })).fine := by
  have hc : ∀ i, KeyTy.isCase { ident := t! "E", variants := [{ ident := t! "A", shape := .unit }, { ident := t! "B", shape := .unit }] } i → i = 0 ∨ i = 1 := by
    rintro i ⟨v, h, _⟩
    match i with
    | 0 => exact .inl rfl
    | 1 => exact .inr rfl
    | i + 2 => simp at h
  refine ⟨fun i j hi hj h => ?_, fun i hi => ?_⟩
  · rcases hc i hi with rfl | rfl <;> rcases hc j hj with rfl | rfl <;> first | rfl | exact absurd h (by decide)
  · rcases hc i hi with rfl | rfl <;> decide

/-- C101 is false: `None` and `Some("null")` are written as the same name. -/
theorem C101_fails_option :
    let x : RV := .map [.none, .some (.boxed (.str (t! "null")))] [.int .u8 1, .int .u8 2]
    ok x ∧ clear x = true ∧ ¬ (KeyTy.option (.boxed .str)).fine ∧
      Json.toString anyEnv (prog (items x)) = some (t! "{\"null\":1,\"null\":2}") ∧
      parse (t! "{\"null\":1,\"null\":2}") = some (.obj [(t! "null", .num 1), (t! "null", .num 2)]) ∧
      ¬ J.unique (.obj [(t! "null", .num 1), (t! "null", .num 2)]) := by
  have hx : ok (.map [.none, .some (.boxed (.str (t! "null")))] [.int .u8 1, .int .u8 2]) :=
    ⟨rfl, ⟨trivial, trivial, trivial⟩, trivial, trivial, trivial⟩
  refine ⟨hx, rfl, fun h => h.2, ?_, ?_, fun h => absurd h.1 (by decide)⟩
  · rw [toString_rust _ _ hx]; decide +kernel
  · obtain ⟨t, h1, h2, _⟩ := C68_partial anyEnv _ _ hx rfl rfl
    rw [toString_rust _ _ hx] at h1
    have : t = t! "{\"null\":1,\"null\":2}" := by
      have h3 : Json.toString anyEnv (valueOf (tree (.map [.none, .some (.boxed (.str (t! "null")))] [.int .u8 1, .int .u8 2]))) =
        some (t! "{\"null\":1,\"null\":2}") := by decide +kernel
      rw [h3, Option.some.injEq] at h1
      exact h1.symm
    rw [← this]; exact h2

/-- C101 is false: the derive macro accepts two fields with the same label, and both are written. -/
theorem C101_fails_label :
    let x : RV := .struct true (t! "P") {} [{ ident := some (t! "x") }, { ident := some (t! "y"), label := some (.const (t! "x")) }]
      [.int .u8 1, .int .u8 2]
    ok x ∧ clear x = true ∧ Json.toString anyEnv (prog (items x)) = some (t! "{\"x\":1,\"x\":2}") := by
  have hx : ok (.struct true (t! "P") {} [{ ident := some (t! "x") }, { ident := some (t! "y"), label := some (.const (t! "x")) }]
      [.int .u8 1, .int .u8 2]) := by
    refine ⟨⟨rfl, ?_, rfl⟩, trivial, trivial, trivial⟩
    intro f hf
    exact .inr (by simp only [List.mem_cons, List.not_mem_nil, or_false] at hf; rcases hf with rfl | rfl <;> rfl)
  refine ⟨hx, rfl, ?_⟩
  rw [toString_rust _ _ hx]; decide +kernel

/-- C101 is false: a flattened map can have a key that is also a field. -/
theorem C101_fails_flatten :
    jsonOf anyEnv (Derive.stream true (fun _ => []) (.struct true (t! "P") {} [{ ident := some (t! "x") }, { ident := some (t! "m"), flatten := true }]
      [.plain (.int .u8 1), .plain (.map [.str (t! "x")] [.int .u8 2])])) = some (t! "{\"x\":1,\"x\":2}") := by
  decide +kernel

end Sval
