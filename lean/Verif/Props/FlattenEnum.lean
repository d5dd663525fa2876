import Verif.Props.FlattenJson

set_option autoImplicit false

/-!
# Flattened enums and options written as JSON: C69

`C69_fails_enum` says that a flattened enum does not have the members it has by itself. This says which ones it has. Values
that are not collections have none.
-/

namespace Sval

open Rust
open Json (J Env Doc parse consO pairO)
open Derive (Field Attrs FV stream ftree ftrees fok structRows flatRows keyText)

/-! ## Values -/

/-- The members of a flattened variant: none if it has no content, its own if it is a newtype, else those of its content. -/
def variantMembers (env : Env) : V → Option (List (Text × J))
  | .tag _ => some []
  | .tagged m v => membersOf (Json.variant env (.tagged m v))
  | .enum _ v => variantMembers env v
  | .hint _ v => variantMembers env v
  | v => membersOf (Json.value env v)

/-- The members of a flattened value: none if it is not a collection. -/
def contributed (env : Env) : V → Option (List (Text × J))
  | .enum _ v => variantMembers env v
  | .tagged _ v => contributed env v
  | .hint _ v => contributed env v
  | .map n kvs => membersOf (Json.value env (.map n kvs))
  | .record m n fs => membersOf (Json.value env (.record m n fs))
  | .recordTuple m n fs => membersOf (Json.value env (.recordTuple m n fs))
  | .seq _ _ | .tuple _ _ _ => none
  | _ => some []

/-- Labels that stand for their text. -/
def plainLabel (l : Label) : Bool := !(l.tag = some tags.VALUE_IDENT && !l.text.all Json.rawOk)

theorem plainLabel_text (l : Label) (h : plainLabel l = true) : Json.labelText l = some l.text := by
  simp only [plainLabel, Bool.not_eq_true', Bool.and_eq_false_iff, decide_eq_false_iff_not, Bool.not_eq_false'] at h
  rw [Json.labelText, if_neg]
  rintro ⟨h1, h2⟩
  rcases h with h | h
  · exact h h1
  · rw [h] at h2; cases h2

/-- Variants that have a name if they are newtypes, and else labels for what is in them. -/
def spreadVariant : V → Bool
  | .tag _ => true
  | .tagged m _ => !Json.isSpecialTag m.tag && m.label.any plainLabel
  | .record _ _ _ | .recordTuple _ _ _ => true
  | .enum _ v => spreadVariant v
  | .hint _ v => spreadVariant v
  | _ => false

/-- Values that are not collections, behind any tags. -/
def uncollected : V → Bool
  | .tagged _ v => uncollected v
  | .hint _ v => uncollected v
  | .seq _ _ | .map _ _ | .record _ _ _ | .tuple _ _ _ | .recordTuple _ _ _ | .enum _ _ => false
  | _ => true

/-- Such values, enums, and collections with labels for what is in them. -/
def spreadEnum : V → Bool
  | .enum _ v => spreadVariant v
  | .tagged m v => uncollected v || (!Json.isSpecialTag m.tag && spreadEnum v)
  | .hint _ v => spreadEnum v
  | .map n kvs => spread (.map n kvs)
  | .seq _ _ | .tuple _ _ _ => false
  | _ => true

theorem uncollected_nothing (env : Env) (v : V) (h : uncollected v = true) :
    spreadEnum v = true ∧ Flatten.entries v = [] ∧ contributed env v = some [] := by
  induction v using V.ind <;> try (cases h; done)
  case tagged m v ih =>
    obtain ⟨_, h2, h3⟩ := ih h
    exact ⟨by rw [spreadEnum, show uncollected v = true from h]; rfl, h2, h3⟩
  case hint n v ih => exact ih h
  all_goals exact ⟨rfl, rfl, rfl⟩

/-- The entries of a value have these members, and can be written. -/
def Gives (env : Env) (ryu : UInt64 → Text) (es : List Flatten.Entry) (safe : Bool) (ms : Option (List (Text × J))) : Prop :=
  ms = allO (es.map fun e => pairO (Json.labelText (Flatten.labelOf (keyText ryu) e ⟨0, none⟩)) (Json.value env e.val)) ∧
    (∀ e ∈ es, e.key.isSome = true ∨ e.label.isSome = true) ∧
    (safe = true → ∀ e ∈ es, Json.safe e.val = true)

theorem variant_gives (env : Env) (ryu : UInt64 → Text) (v : V) (h : spreadVariant v = true) :
    Gives env ryu (Flatten.variantEntries v) (Json.safeVariant v) (variantMembers env v) := by
  induction v using V.ind <;> try (cases h; done)
  case tag m => exact ⟨rfl, nofun, fun _ => nofun⟩
  case record m n fs _ =>
    obtain ⟨h1, h2, h3⟩ := spread_entries env ryu (.record m n fs) rfl
    exact ⟨h1, h2, h3⟩
  case recordTuple m n fs _ =>
    obtain ⟨h1, h2, h3⟩ := spread_entries env ryu (.recordTuple m n fs) rfl
    exact ⟨h1, h2, h3⟩
  case tagged m v _ =>
    rw [spreadVariant, Bool.and_eq_true, Bool.not_eq_true'] at h
    obtain ⟨hs, hl⟩ := h
    obtain ⟨t, l, i⟩ := m
    cases l with
    | none => cases hl
    | some l =>
      refine ⟨?_, ?_, ?_⟩
      · simp only [variantMembers, Json.variant, hs, Bool.false_eq_true, if_false, Flatten.variantEntries, List.map_cons,
          List.map_nil, allO, Flatten.labelOf]
        rw [plainLabel_text l hl]
        cases Json.value env v <;> rfl
      · intro e he
        rw [Flatten.variantEntries, List.mem_singleton] at he
        subst he
        exact .inr rfl
      · intro hsafe e he
        rw [Flatten.variantEntries, List.mem_singleton] at he
        subst he
        rw [Json.safeVariant, if_neg (by rw [hs]; nofun)] at hsafe
        exact hsafe
  case enum m v ih =>
    obtain ⟨h1, h2, h3⟩ := ih h
    refine ⟨h1, h2, fun hs => h3 ?_⟩
    rw [Json.safeVariant, Bool.and_eq_true] at hs
    exact hs.1
  case hint n v ih => exact ih h

theorem enum_gives (env : Env) (ryu : UInt64 → Text) (v : V) (h : spreadEnum v = true) :
    Gives env ryu (Flatten.entries v) (Json.safe v) (contributed env v) := by
  have nothing : ∀ v, uncollected v = true → Gives env ryu (Flatten.entries v) (Json.safe v) (contributed env v) := by
    intro v hv
    obtain ⟨_, h2, h3⟩ := uncollected_nothing env v hv
    rw [h2, h3]
    exact ⟨rfl, nofun, fun _ => nofun⟩
  induction v using V.ind <;> try (cases h; done)
  case enum m v _ => exact variant_gives env ryu v h
  case hint n v ih => exact ih h
  case tagged m v ih =>
    rw [spreadEnum, Bool.or_eq_true, Bool.and_eq_true, Bool.not_eq_true'] at h
    rcases h with h | h
    · exact nothing (.tagged m v) h
    · obtain ⟨h1, h2, h3⟩ := ih h.2
      refine ⟨h1, h2, fun hs => h3 ?_⟩
      rw [Json.safe, if_neg (by rw [h.1]; nofun)] at hs
      exact hs
  case map n kvs _ => exact spread_entries env ryu _ h
  case record m n fs _ => exact spread_entries env ryu _ rfl
  case recordTuple m n fs _ => exact spread_entries env ryu _ rfl
  all_goals exact nothing _ rfl

/-! ## Structs -/

/-- The members of fields, of which the flattened ones have those that come with them. -/
def gathered : List (Field × Option J × Option (List (Text × J))) → Option (List (Text × J))
  | [] => some []
  | (f, j, ms) :: r =>
    if f.flatten then appendO ms (gathered r) else consO (pairO (some (Derive.name f).text) j) (gathered r)

theorem structRows_gives (env : Env) (ryu : UInt64 → Text) (c fc : Bool) (i : Int) (g : Bool) (n : Int) (rs : List (Field × V))
    (hf : ∀ r ∈ rs, r.1.flatten = true → spreadEnum r.2 = true)
    (hp : ∀ r ∈ rs, plainTag r.1.dataTag = true ∧ Json.labelText (Derive.name r.1) = some (Derive.name r.1).text) :
    allO ((structRows (keyText ryu) c fc i g n rs).map fun r => pairO (Json.labelText r.2.1) (Json.value env r.2.2.2)) =
      gathered (rs.map fun r => (r.1, Json.value env r.2, contributed env r.2)) ∧
    ((∀ r ∈ rs, Json.safe r.2 = true) → ∀ r ∈ structRows (keyText ryu) c fc i g n rs, Json.safe r.2.2.2 = true) := by
  induction rs generalizing i g n with
  | nil => exact ⟨rfl, fun _ r hr => by cases hr⟩
  | cons r rs ih =>
    obtain ⟨f, v⟩ := r
    have ih := fun i g n => ih i g n (fun r h => hf r (.tail _ h)) (fun r h => hp r (.tail _ h))
    rw [List.map_cons, gathered, structRows]
    cases hfl : f.flatten with
    | true =>
      simp only [if_true, List.map_append, allO_append]
      obtain ⟨h1, h2, h3⟩ := enum_gives env ryu v (hf (f, v) (.head _) hfl)
      refine ⟨?_, fun hs r hr => ?_⟩
      · rw [(ih _ _ _).1, h1, flatRows, List.map_map]
        congr 2
        have hc := C28_count n v
        conv => rhs; rw [← hc]
        rw [List.map_map]
        refine List.map_congr_left fun x hx => ?_
        have := h2 x.1 (Flatten.number_mem hx)
        simp only [Function.comp]
        congr 2
        unfold Flatten.labelOf
        rcases this with h | h
        · obtain ⟨k, hk⟩ := Option.isSome_iff_exists.mp h; rw [hk]
        · obtain ⟨l, hk⟩ := Option.isSome_iff_exists.mp h; rw [hk]; cases x.1.key <;> rfl
      · rcases List.mem_append.mp hr with h | h
        · rw [flatRows] at h
          obtain ⟨x, hx, rfl⟩ := List.mem_map.mp h
          exact h3 (hs (f, v) (.head _)) _ (Flatten.number_mem hx)
        · exact (ih _ _ _).2 (fun r h => hs r (.tail _ h)) r h
    | false =>
      obtain ⟨hp1, hp2⟩ := hp (f, v) (.head _)
      simp only [Bool.false_eq_true, if_false, List.map_cons, allO, (ih _ _ _).1, hp2, value_data env f v hp1]
      refine ⟨trivial, fun hs r hr => ?_⟩
      rcases List.mem_cons.mp hr with rfl | h
      · show Json.safe (Derive.data f v) = true
        rw [safe_data f v hp1]; exact hs (f, v) (.head _)
      · exact (ih _ _ _).2 (fun r h => hs r (.tail _ h)) r h

/-- C69 with flattened enums, also if there are flattened fields in the fields: the struct is one object, in which a
flattened enum has no members for a variant without content, those it has by itself for a newtype, and else those of what
is in the variant. -/
theorem C69_enum_tree_partial (env : Env) (ryu : UInt64 → Text) (named : Bool) (name : Text) (at' : Attrs) (fs : List Field) (xs : List FV)
    (kvs : List (Text × J)) (hx : fok (keyText ryu) (.struct named name at' fs xs)) (hp : fs.all plainField = true)
    (hl : Derive.labeled named at' (Derive.rows fs xs) = true)
    (hf : ∀ r ∈ Derive.rows fs (ftrees (keyText ryu) xs), Json.safe r.2 = true ∧ (r.1.flatten = true → spreadEnum r.2 = true))
    (hj : gathered (Derive.rows fs ((ftrees (keyText ryu) xs).map fun v => (Json.value env v, contributed env v))) = some kvs) :
    ∃ t, jsonOf env (stream true ryu (.struct named name at' fs xs)) = some t ∧ parse t = some (.obj kvs) ∧
      ∀ j, Doc j t → j = .obj kvs := by
  rw [jsonOf_value env _ _ fun S s => (C40_exact ryu _ hx S s).1]
  have hl' : Derive.labeled named at' (Derive.rows fs (ftrees (keyText ryu) xs)) = true := by
    rw [← hl]
    have : ftrees (keyText ryu) xs = xs.map (ftree (keyText ryu)) := by
      clear hx hl hf hj
      induction xs with
      | nil => rfl
      | cons x xs ih => rw [ftrees, ih]; rfl
    rw [this, rows_map]
    exact labeled_map (fun r => (r.1, ftree (keyText ryu) r.2)) (fun _ => rfl) _ _ _
  rw [rows_map] at hj
  have key := fun c fc => structRows_gives env ryu c fc 0 false 0 (Derive.rows fs (ftrees (keyText ryu) xs))
    (fun r h => (hf r h).2) (rows_plain hp _)
  refine C20_round_trip_partial env _ (.obj kvs) ?_ ?_
  · simp only [ftree, Derive.flatTree, hl']
    cases Derive.indexed at' (Derive.rows fs (ftrees (keyText ryu) xs))
    · simp only [Json.value, json_fields, List.map_map, Function.comp_def, (key _ _).1, hj]
      rfl
    · simp only [Json.value, json_fieldsRT, (key _ _).1, hj]
      rfl
  · simp only [ftree, Derive.flatTree, hl']
    cases Derive.indexed at' (Derive.rows fs (ftrees (keyText ryu) xs))
    · simp only [Json.safe, safeFields_iff]
      intro x hx
      obtain ⟨r, hr, rfl⟩ := List.mem_map.mp hx
      exact (key _ _).2 (fun r h => (hf r h).1) r hr
    · simp only [Json.safe, safeRT_iff]
      exact (key _ _).2 (fun r h => (hf r h).1)

/-! ## In terms of documents -/

mutual
/-- The members that a flattened value gets. None if it is not a collection, which `None` is not, nor a variant without
content. A dynamic enum gets what its content gets. -/
def flattenedDoc (env : Env) : RV → Option (List (Text × J))
  | .some v | .boxed v | .newtype _ _ _ v => flattenedDoc env v
  | .map ks vs => membersOf (doc env (.map ks vs))
  | .struct named name at' fs vs => membersOf (doc env (.struct named name at' fs vs))
  | .slice _ | .array _ | .tuple _ => none
  | .enum d i vs =>
    match d.variants[i]? with
    | some v =>
      match v.shape with
      | .unit => some []
      | .newtype => if d.dyn then (flattenedDocs env vs).head?.getD none else membersOf (doc env (.enum d i vs))
      | .named fs => membersOf (structDoc true v.attrs fs (docs env vs))
      | .unnamed fs => membersOf (structDoc false v.attrs fs (docs env vs))
    | none => none
  | _ => some []
def flattenedDocs (env : Env) : List RV → List (Option (List (Text × J)))
  | [] => []
  | x :: xs => flattenedDoc env x :: flattenedDocs env xs
end

mutual
/-- Values that are not collections, collections that have labels for what is in them, and enums: variants that are
newtypes have a name that needs no escape, and others names for their fields. -/
def spreadEnumR : RV → Bool
  | .some v | .boxed v | .newtype _ _ _ v => spreadEnumR v
  | .map ks _ => ks.all labelKeyR
  | .struct named _ at' fs vs => Derive.labeled named at' (Derive.rows fs vs)
  | .slice _ | .array _ | .tuple _ => false
  | .enum d i vs =>
    match d.variants[i]? with
    | some v =>
      match v.shape with
      | .unit => true
      | .newtype =>
        if d.dyn then (spreadEnumRs vs).head?.getD false
        else !d.unlabeledVariants && plainLabel (Derive.labelOr v.attrs.label v.ident)
      | .named fs => Derive.labeled true v.attrs (Derive.rows fs vs)
      | .unnamed fs => Derive.labeled false v.attrs (Derive.rows fs vs)
    | none => false
  | _ => true
def spreadEnumRs : List RV → List Bool
  | [] => []
  | x :: xs => spreadEnumR x :: spreadEnumRs xs
end

theorem spreadEnum_tree (env : Env) (x : RV) (hx : ok x) (hc : tidy x = true) (h : spreadEnumR x = true) :
    spreadEnum (tree x) = true ∧ contributed env (tree x) = flattenedDoc env x := by
  induction x using RV.ind with | h x ih => ?_
  have tagged : ∀ m v, Json.isSpecialTag m.tag = false → spreadEnum v = true → spreadEnum (.tagged m v) = true := by
    intro m v hm hv
    rw [spreadEnum, hm, hv]
    cases uncollected v <;> rfl
  cases x <;> try (cases h; done)
  case boxed v => exact ih v (.head _) hx hc h
  case some v =>
    obtain ⟨h1, h2⟩ := ih v (.head _) hx hc h
    exact ⟨tagged _ _ rfl h1, h2⟩
  case newtype name at' transparent v =>
    rw [tidy, Bool.and_eq_true] at hc
    obtain ⟨h1, h2⟩ := ih v (.head _) hx hc.2 h
    cases transparent
    · exact ⟨tagged _ _ (plainTag_special _ hc.1) h1, h2⟩
    · exact ⟨h1, h2⟩
  case map ks vs =>
    have := spread_tree (.map ks vs) hc h
    rw [flattenedDoc, ← (fine_tree env _ hx hc).1]
    rw [tree] at this ⊢
    exact ⟨this, rfl⟩
  case struct named name at' fs vs =>
    rw [flattenedDoc, ← (fine_tree env _ hx hc).1]
    rw [spreadEnumR] at h
    have : Derive.labeled named at' (Derive.rows fs (trees vs)) = true := by
      rw [← h, trees_eq, rows_map]
      exact labeled_map (fun r => (r.1, tree r.2)) (fun _ => rfl) _ _ _
    simp only [tree, Derive.structTree, this]
    cases Derive.indexed at' (Derive.rows fs (trees vs)) <;> exact ⟨rfl, rfl⟩
  case enum d i vs =>
    rw [ok, oks_iff] at hx
    obtain ⟨⟨v, hv, hok⟩, hx⟩ := hx
    simp only [tidy, hv, Bool.and_eq_true, tidies_iff, bne_iff_ne] at hc
    simp only [spreadEnumR, hv] at h
    have hdocs : (trees vs).map (Json.value env) = docs env vs := by
      rw [trees_eq, docs_eq, List.map_map]
      exact List.map_congr_left fun x h => (fine_tree env x (hx x h) (hc.2 x h)).1
    have hstruct : ∀ n fs, fieldsOf v.shape = fs → Derive.labeled n v.attrs (Derive.rows fs vs) = true → ∀ x,
        x = Derive.structTree n v.attrs { tag := v.attrs.tag, label := Derive.variantName d v, index := indexOf d i } fs (trees vs) →
        (spreadVariant x = true ∧ spreadEnum x = true) ∧
        variantMembers env x = membersOf (structDoc n v.attrs fs (docs env vs)) ∧
        contributed env x = membersOf (structDoc n v.attrs fs (docs env vs)) := by
      intro n fs hfs hlab x hx
      obtain ⟨h1, _⟩ := value_struct env n v.attrs
        { tag := v.attrs.tag, label := Derive.variantName d v, index := indexOf d i } fs (trees vs) (hfs ▸ hc.1.2) hc.1.1.1
      rw [← hdocs, ← h1, hx]
      have : Derive.labeled n v.attrs (Derive.rows fs (trees vs)) = true := by
        rw [← hlab, trees_eq, rows_map]
        exact labeled_map (fun r => (r.1, tree r.2)) (fun _ => rfl) _ _ _
      simp only [Derive.structTree, this]
      cases Derive.indexed v.attrs (Derive.rows fs (trees vs)) <;> exact ⟨⟨rfl, rfl⟩, rfl, rfl⟩
    simp only [tree, hv, flattenedDoc, doc, variantDoc, Derive.variantTree]
    rw [show (variantIndexes d d.variants)[i]?.getD Option.none = indexOf d i from rfl]
    rw [okVariant] at hok
    cases hsh : v.shape with
    | unit => cases d.dyn <;> exact ⟨rfl, rfl⟩
    | newtype =>
      rw [hsh] at hok h
      obtain ⟨x, rfl⟩ := List.length_eq_one_iff.mp hok
      cases hd : d.dyn with
      | true =>
        simp only [hd, if_true, spreadEnumRs, List.head?, Option.getD_some] at h
        exact ih x (.head _) (hx x (.head _)) (hc.2 x (.head _)) h
      | false =>
        simp only [hd, Bool.false_eq_true, if_false, Bool.and_eq_true, Bool.not_eq_true'] at h
        have hn : Derive.variantName d v = some (Derive.labelOr v.attrs.label v.ident) := by
          simp [Derive.variantName, hd, h.1]
        have hsp := plainTag_special _ hc.1.1.1
        have hd := (fine_tree env x (hx x (.head _)) (hc.2 x (.head _))).1
        simp only [trees, docs, spreadEnum, contributed, spreadVariant, variantMembers, Json.variant, hsp, Bool.false_eq_true, if_false,
          hd, hn, Option.any, h.2, Bool.not_false, Bool.and_self, true_and, ident]
        cases doc env x <;> rfl
    | named fs =>
      rw [hsh] at h
      obtain ⟨⟨h1, h2⟩, h3, h4⟩ := hstruct true fs (by rw [hsh]; rfl) h _ rfl
      cases d.dyn
      · exact ⟨h1, h3⟩
      · exact ⟨h2, h4⟩
    | unnamed fs =>
      rw [hsh] at h
      obtain ⟨⟨h1, h2⟩, h3, h4⟩ := hstruct false fs (by rw [hsh]; rfl) h _ rfl
      cases d.dyn
      · exact ⟨h1, h3⟩
      · exact ⟨h2, h4⟩
  all_goals exact ⟨rfl, rfl⟩

/-- C69 with flattened enums and with values that are not collections, in terms of documents: one object, in which a
flattened field has the members of the object that its value is by itself. If its value is not an object, as for `None`,
there are none. For an enum there are none if its variant has no content, and those of the object under the variant's name
if that has fields. -/
theorem C69_enum_partial (env : Env) (ryu : UInt64 → Text) (named : Bool) (name : Text) (at' : Attrs) (fs : List Field) (xs : List RV)
    (kvs : List (Text × J)) (hx : fok (keyText ryu) (.struct named name at' fs (xs.map .plain))) (hp : fs.all plainField = true)
    (hl : Derive.labeled named at' (Derive.rows fs xs) = true) (hc : ∀ x ∈ xs, clear x = true)
    (hf : ∀ r ∈ Derive.rows fs xs, r.1.flatten = true → spreadEnumR r.2 = true)
    (hj : gathered (Derive.rows fs (xs.map fun x => (doc env x, flattenedDoc env x))) = some kvs) :
    ∃ t, jsonOf env (stream true ryu (.struct named name at' fs (xs.map .plain))) = some t ∧ parse t = some (.obj kvs) ∧
      ∀ j, Doc j t → j = .obj kvs := by
  have ht : ftrees (keyText ryu) (xs.map .plain) = xs.map tree := by
    clear hx hl hf hj hc
    induction xs with
    | nil => rfl
    | cons x xs ih => rw [List.map_cons, ftrees, ih]; rfl
  have hok : ∀ x ∈ xs, ok x := by
    have h : Derive.foks (keyText ryu) (xs.map .plain) := hx.2
    clear hx hl hf hj hc ht
    induction xs with
    | nil => intro x hx; cases hx
    | cons y ys ih =>
      intro x hx
      rcases List.mem_cons.mp hx with rfl | hx
      · exact h.1
      · exact ih h.2 x hx
  have hm : ∀ r ∈ Derive.rows fs xs, r.2 ∈ xs := fun r hr => (List.of_mem_zip (List.mem_filter.mp hr).1).2
  refine C69_enum_tree_partial env ryu named name at' fs (xs.map .plain) kvs hx hp ?_ ?_ ?_
  · rw [← hl, rows_map]
    exact labeled_map (fun r => (r.1, FV.plain r.2)) (fun _ => rfl) _ _ _
  · rw [ht, rows_map]
    intro r hr
    obtain ⟨r, hr', rfl⟩ := List.mem_map.mp hr
    exact ⟨(doc_tree env r.2 (hok _ (hm r hr')) (hc _ (hm r hr'))).2, fun h =>
      (spreadEnum_tree env _ (hok _ (hm r hr')) ((clear_iff _).1 (hc _ (hm r hr'))).1 (hf r hr' h)).1⟩
  · rw [ht, List.map_map, ← hj, rows_map, rows_map]
    have : ∀ rs : List (Field × RV), (∀ r ∈ rs, ok r.2 ∧ clear r.2 = true ∧ (r.1.flatten = true → spreadEnumR r.2 = true)) →
        gathered (rs.map fun r => (r.1, (Function.comp (fun v => (Json.value env v, contributed env v)) tree) r.2)) =
          gathered (rs.map fun r => (r.1, (doc env r.2, flattenedDoc env r.2))) := by
      intro rs
      induction rs with
      | nil => intro _; rfl
      | cons r rs ih =>
        intro h
        obtain ⟨f, x⟩ := r
        obtain ⟨h1, h2, h3⟩ := h (f, x) (.head _)
        simp only [List.map_cons, gathered, Function.comp] at ih ⊢
        rw [ih fun r hr => h r (.tail _ hr), (doc_tree env x h1 h2).1]
        cases hfl : f.flatten with
        | false => rfl
        | true => simp only [if_true, (spreadEnum_tree env x h1 ((clear_iff _).1 h2).1 (h3 hfl)).2]
    exact this _ fun r hr => ⟨hok _ (hm r hr), hc _ (hm r hr), hf r hr⟩

/-- So a flattened enum has the members that it has by itself exactly if its variant is a newtype, or has neither a name nor
an index. -/
theorem C69_enum_exact (env : Env) (d : Derive.EnumDef) (i : Nat) (vs : List RV) (v : Derive.Variant) (hv : d.variants[i]? = some v)
    (hdyn : d.dyn = false) (hd : (doc env (.enum d i vs)).isSome = true) :
    flattenedDoc env (.enum d i vs) = membersOf (doc env (.enum d i vs)) ↔
      v.shape = .newtype ∨ (v.shape ≠ .unit ∧ ident (Derive.variantName d v) (indexOf d i) = none) := by
  have loop : ∀ (k : Text) (j : J), membersOf (some j) ≠ some [(k, j)] := by
    intro k j hj
    cases j <;> cases hj
  have struct : ∀ x : Option J, (x.map fun j => match ident (Derive.variantName d v) (indexOf d i) with
      | some k => J.obj [(k, j)]
      | none => j).isSome = true →
      (membersOf x = membersOf (x.map fun j => match ident (Derive.variantName d v) (indexOf d i) with
      | some k => J.obj [(k, j)]
      | none => j) ↔ ident (Derive.variantName d v) (indexOf d i) = none) := by
    intro x hx
    cases x with
    | none => cases hx
    | some j =>
      cases ident (Derive.variantName d v) (indexOf d i) with
      | none => simp
      | some k => exact ⟨fun e => absurd e (loop k j), nofun⟩
  simp only [flattenedDoc, hv, doc, variantDoc, hdyn, Bool.false_eq_true, if_false] at hd ⊢
  cases hsh : v.shape with
  | unit =>
    have : membersOf (some (unitDoc (Derive.variantName d v) (indexOf d i))) = none := by
      cases Derive.variantName d v with
      | some l => rfl
      | none =>
        cases indexOf d i with
        | none => rfl
        | some k => simp only [unitDoc]; split <;> rfl
    simp [this]
  | newtype => simp
  | named fs =>
    rw [hsh] at hd
    simp only [reduceCtorEq, false_or, ne_eq, not_false_eq_true, true_and]
    exact struct _ hd
  | unnamed fs =>
    rw [hsh] at hd
    simp only [reduceCtorEq, false_or, ne_eq, not_false_eq_true, true_and]
    exact struct _ hd

/-- `enum E { U, N(u8), V { x: u8, y: bool } }` -/
def mixedEnum : Derive.EnumDef := { ident := t! "E", variants := [{ ident := t! "U", shape := .unit }, { ident := t! "N", shape := .newtype },
  { ident := t! "V", shape := .named [{ ident := some (t! "x") }, { ident := some (t! "y") }] }] }

/-- `{ a: u8, #[sval(flatten)] b: E, #[sval(flatten)] c: E, #[sval(flatten)] d: Box<E>, e: E }` -/
def mixedFields : List Field := [{ ident := some (t! "a") }, { ident := some (t! "b"), flatten := true }, { ident := some (t! "c"), flatten := true },
  { ident := some (t! "d"), flatten := true }, { ident := some (t! "e") }]

def mixedValues : List RV := [.int .u8 1, .enum mixedEnum 0 [], .enum mixedEnum 1 [.int .u8 2],
  .boxed (.enum mixedEnum 2 [.int .u8 3, .bool true]), .enum mixedEnum 0 []]

/-- The hypotheses of `C69_enum_partial` hold, and the document is `{"a":1,"N":2,"x":3,"y":true,"e":"U"}`. -/
example (env : Env) (ryu : UInt64 → Text) : fok (keyText ryu) (.struct true (t! "A") {} mixedFields (mixedValues.map .plain)) ∧
    mixedFields.all plainField = true ∧ Derive.labeled true {} (Derive.rows mixedFields mixedValues) = true ∧
    (∀ x ∈ mixedValues, clear x = true) ∧ (∀ r ∈ Derive.rows mixedFields mixedValues, r.1.flatten = true → spreadEnumR r.2 = true) ∧
    gathered (Derive.rows mixedFields (mixedValues.map fun x => (doc env x, flattenedDoc env x))) =
      some [(t! "a", .num 1), (t! "N", .num 2), (t! "x", .num 3), (t! "y", .bool true), (t! "e", .str (t! "U"))] := by
  refine ⟨⟨⟨rfl, rfl, ?_⟩, ?_⟩, rfl, rfl, ?_, ?_, rfl⟩
  · have h : ∀ v e, Flatten.untaggedEnum v = true → ∀ n, Flatten.isIsize n → Flatten.entries v = e → Flatten.inRange n n e →
        (∀ x ∈ e, Token.mapKeyEnd ∉ toks x.val) → Derive.flattens n v := by
      intro v e h1 n h2 h3 h4 h5
      exact ⟨h1, h2, h3 ▸ h4, h3 ▸ h5⟩
    refine ⟨h _ [] rfl 1 (by decide) rfl (by decide) (by simp), ?_⟩
    refine ⟨h _ [⟨none, none, some (identLabel (t! "N")), some (offset 1), .int .u8 2⟩] rfl 1 (by decide) rfl (by decide) (by simp [toks]), ?_⟩
    exact ⟨h _ [⟨none, none, some (identLabel (t! "x")), some (offset 0), .int .u8 3⟩,
        ⟨none, none, some (identLabel (t! "y")), some (offset 1), .bool true⟩] rfl 3 (by decide) rfl (by decide) (by simp [toks]), trivial⟩
  · exact ⟨trivial, ⟨⟨_, rfl, rfl⟩, trivial⟩, ⟨⟨_, rfl, rfl⟩, trivial, trivial⟩, ⟨⟨_, rfl, rfl, by simp, rfl⟩, trivial, trivial, trivial⟩,
      ⟨⟨_, rfl, rfl⟩, trivial⟩, trivial⟩
  · intro x hx
    simp only [mixedValues, List.mem_cons, List.not_mem_nil, or_false] at hx
    rcases hx with rfl | rfl | rfl | rfl | rfl <;> rfl
  · intro r hr
    have hr : r ∈ [(({ ident := some (t! "a") } : Field), RV.int .u8 1), ({ ident := some (t! "b"), flatten := true }, mixedValues[1]),
      ({ ident := some (t! "c"), flatten := true }, mixedValues[2]), ({ ident := some (t! "d"), flatten := true }, mixedValues[3]),
      ({ ident := some (t! "e") }, mixedValues[4])] := hr
    simp only [List.mem_cons, List.not_mem_nil, or_false] at hr
    rcases hr with rfl | rfl | rfl | rfl | rfl
    · exact nofun
    · exact fun _ => rfl
    · exact fun _ => rfl
    · exact fun _ => rfl
    · exact nofun

/-- Those of `C69_enum_exact` too. -/
example (env : Env) : mixedEnum.variants[1]? = some { ident := t! "N", shape := .newtype } ∧
    (doc env (.enum mixedEnum 1 [.int .u8 2])).isSome = true ∧ mixedEnum.dyn = false := ⟨rfl, rfl, rfl⟩

/-- `#[sval(dynamic)] enum D { U, N(Option<S>), V { z: u8 } }` -/
def dynEnum : Derive.EnumDef := { ident := t! "D", dyn := true, variants := [{ ident := t! "U", shape := .unit },
  { ident := t! "N", shape := .newtype }, { ident := t! "V", shape := .named [{ ident := some (t! "z") }] }] }

/-- A flattened `None` has no members, nor has a number. A flattened dynamic enum has those it has by itself: those of `S`
if it is `D::N(Some(S { x: 1 }))`, and none if it is `D::N(None)`. -/
example (env : Env) :
    let s : RV := .struct true (t! "S") {} [{ ident := some (t! "x") }] [.int .u8 1]
    (∀ x ∈ [RV.none, .int .u8 1, .some s, .enum dynEnum 0 [], .enum dynEnum 1 [.some s], .enum dynEnum 1 [.none], .enum dynEnum 2 [.int .u8 2]],
      spreadEnumR x = true) ∧
    [RV.none, .int .u8 1, .some s, .enum dynEnum 0 [], .enum dynEnum 1 [.some s], .enum dynEnum 1 [.none], .enum dynEnum 2 [.int .u8 2]].map
      (flattenedDoc env) = [some [], some [], some [(t! "x", .num 1)], some [], some [(t! "x", .num 1)], some [],
        some [(t! "z", .num 2)]] := by
  refine ⟨?_, rfl⟩
  intro x hx
  simp only [List.mem_cons, List.not_mem_nil, or_false] at hx
  rcases hx with rfl | rfl | rfl | rfl | rfl | rfl | rfl <;> rfl

end Sval
