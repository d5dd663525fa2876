import Verif.Rust.Emit
import Verif.Serde.Doc
import Verif.Json.Loose

set_option autoImplicit false

/-!
# The JSON that a value of a Rust type stands for

A specification: structs are objects, or arrays if their fields have no labels; enums are externally tagged by label, or
else by index; newtypes, references and `Some` are what they hold.
-/

namespace Sval.Rust

open Json (J Env numOf consO pairO)
open Derive (Field Attrs Shape Variant EnumDef IndexVal)

/-- All of them, if there are all. -/
def allO {α : Type} : List (Option α) → Option (List α)
  | [] => Option.some []
  | x :: xs => consO x (allO xs)

/-- What identifies a variant: its label, or else its index if that has 64 bits. -/
def ident (l : Option Label) (i : Option Index) : Option Text :=
  match l, i with
  | Option.some l, _ => Option.some l.text
  | Option.none, Option.some i => if -2 ^ 63 ≤ i.val ∧ i.val ≤ 2 ^ 63 - 1 then Option.some (intDec i.val) else Option.none
  | Option.none, Option.none => Option.none

/-- A variant without fields. -/
def unitDoc (l : Option Label) (i : Option Index) : J :=
  match l, i with
  | Option.some l, _ => .str l.text
  | Option.none, Option.some i => if -2 ^ 63 ≤ i.val ∧ i.val ≤ 2 ^ 63 - 1 then .num i.val else .null
  | Option.none, Option.none => .null

/-- The fields of a struct, or of a variant, that are not skipped. -/
def structDoc (named : Bool) (at' : Attrs) (fs : List Field) (js : List (Option J)) : Option J :=
  let rs := Derive.rows fs js
  if Derive.labeled named at' rs then (allO (rs.map fun r => pairO (Option.some (Derive.name r.1).text) r.2)).map .obj
  else (allO (rs.map (·.2))).map .arr

/-- A variant. Those of dynamic enums are not tagged. -/
def variantDoc (d : EnumDef) (v : Variant) (i : Option Index) (js : List (Option J)) : Option J :=
  let tagged (j : J) : J :=
    if d.dyn then j
    else match ident (Derive.variantName d v) i with
      | Option.some k => .obj [(k, j)]
      | Option.none => j
  match v.shape, js with
  | .unit, _ => Option.some (unitDoc (Derive.variantName d v) i)
  | .newtype, j :: _ => j.map tagged
  | .newtype, [] => Option.none
  | .named fs, js => (structDoc true v.attrs fs js).map tagged
  | .unnamed fs, js => (structDoc false v.attrs fs js).map tagged

/-- The index of a variant. -/
def indexOf (d : EnumDef) (i : Nat) : Option Index := (variantIndexes d d.variants)[i]?.getD Option.none

mutual
/-- A key: text, or something that is written like text. -/
def docKey (env : Env) : RV → Option Text
  | .unit | .null | .none => Option.some (t! "null")
  | .bool b => Option.some (if b then t! "true" else t! "false")
  | .int _ v => Option.some (intDec v)
  | .f32 b => if f32Finite b then (numOf (env.f32 b)).map fun _ => env.f32 b else Option.some (t! "null")
  | .f64 b => if f64Finite b then (numOf (env.f64 b)).map fun _ => env.f64 b else Option.some (t! "null")
  | .char c => Option.some [c]
  | .str s => Option.some s
  | .display fs => Option.some fs.flatten
  | .number fs => Json.numberKey fs.flatten
  | .some v | .boxed v | .newtype _ _ _ v => docKey env v
  | .unitStruct ident at' => Option.some (Derive.labelOr at'.label ident).text
  | .enum d i vs =>
    match d.variants[i]? with
    | Option.none => Option.none
    | Option.some v =>
      match v.shape, docKeys env vs with
      | .unit, _ => Option.some ((ident (Derive.variantName d v) (indexOf d i)).getD (t! "null"))
      | .newtype, k :: _ => if d.dyn || (ident (Derive.variantName d v) (indexOf d i)).isNone then k else Option.none
      | _, _ => Option.none
  | _ => Option.none
def docKeys (env : Env) : List RV → List (Option Text)
  | [] => []
  | x :: xs => docKey env x :: docKeys env xs
end

mutual
def doc (env : Env) : RV → Option J
  | .unit | .null | .none => Option.some .null
  | .bool b => Option.some (.bool b)
  | .int _ v => Option.some (.num v)
  | .f32 b => if f32Finite b then numOf (env.f32 b) else Option.some .null
  | .f64 b => if f64Finite b then numOf (env.f64 b) else Option.some .null
  | .char c => Option.some (.str [c])
  | .str s => Option.some (.str s)
  | .display fs => Option.some (.str fs.flatten)
  | .bytes b | .byteArray b => Option.some (.arr (b.map fun b => .num (b.toNat : Int)))
  | .number fs => Json.numberOf fs.flatten
  | .some v | .boxed v | .newtype _ _ _ v => doc env v
  | .slice xs | .array xs | .tuple xs => (allO (docs env xs)).map .arr
  | .map ks vs => (allO (List.zipWith pairO (docKeys env ks) (docs env vs))).map .obj
  | .unitStruct ident at' => Option.some (.str (Derive.labelOr at'.label ident).text)
  | .struct named _ at' fs vs => structDoc named at' fs (docs env vs)
  | .enum d i vs =>
    match d.variants[i]? with
    | Option.none => Option.none
    | Option.some v => variantDoc d v (indexOf d i) (docs env vs)
def docs (env : Env) : List RV → List (Option J)
  | [] => []
  | x :: xs => doc env x :: docs env xs
end

/-! ## Where it is written -/

mutual
/-- Does the value have a name? -/
def isNamed : RV → Bool
  | .some _ | .struct .. => true
  | .boxed v => isNamed v
  | .newtype _ _ transparent v => if transparent then isNamed v else true
  | .enum d i vs =>
    match d.variants[i]? with
    | Option.none => false
    | Option.some v =>
      if d.dyn then
        match v.shape, isNameds vs with
        | .unit, _ => false
        | .newtype, b :: _ => b
        | .newtype, [] => false
        | .named _, _ | .unnamed _, _ => (ident Option.none (indexOf d i)).isSome
      else true
  | _ => false
def isNameds : List RV → List Bool
  | [] => []
  | x :: xs => isNamed x :: isNameds xs
end

/-- Tags that say that text is a number, or JSON. -/
def plainTag (t : Option Tag) : Bool :=
  !(t = Option.some tags.NUMBER || t = Option.some tags.JSON_VALUE || t = Option.some tags.JSON_NUMBER ||
    t = Option.some tags.JSON_TEXT)

/-- Fields without such tags, and whose names are names: they need no escape. -/
def plainField (f : Field) : Bool :=
  f.skip || (plainTag f.dataTag && !((Derive.name f).tag = Option.some tags.VALUE_IDENT && !(Derive.name f).text.all Json.rawOk))

/-- The fields of a variant. -/
def fieldsOf : Shape → List Field
  | .named fs | .unnamed fs => fs
  | _ => []

mutual
/-- Values without such tags, and without numbers in text whose integral part is zero and that have an exponent but no
fraction. -/
def tidy : RV → Bool
  | .number fs => !Json.zeroExp fs.flatten
  | .some v | .boxed v => tidy v
  | .newtype _ at' _ v => plainTag at'.tag && tidy v
  | .slice xs | .array xs | .tuple xs => tidies xs
  | .map ks vs => tidies ks && tidies vs
  | .unitStruct _ at' => at'.tag != Option.some tags.RUST_OPTION_NONE
  | .struct _ _ at' fs vs => plainTag at'.tag && fs.all plainField && tidies vs
  | .enum d i vs =>
    match d.variants[i]? with
    | Option.none => true
    | Option.some v =>
      plainTag v.attrs.tag && v.attrs.tag != Option.some tags.RUST_OPTION_NONE && (fieldsOf v.shape).all plainField &&
        tidies vs
  | _ => true
def tidies : List RV → Bool
  | [] => true
  | x :: xs => tidy x && tidies xs
end

mutual
/-- No map has an entry whose key and value both have a name. Fields that are skipped do not count. -/
def apart : RV → Bool
  | .some v | .boxed v | .newtype _ _ _ v => apart v
  | .slice xs | .array xs | .tuple xs => (aparts xs).all id
  | .map ks vs => (aparts vs).all id && (List.zipWith (fun a b => !(a && b)) (isNameds ks) (isNameds vs)).all id
  | .struct _ _ _ fs vs => (Derive.rows fs (aparts vs)).all (·.2)
  | .enum d i vs =>
    match d.variants[i]? with
    | Option.none => true
    | Option.some v =>
      match v.shape with
      | .unit => true
      | .newtype => (aparts vs).all id
      | .named fs | .unnamed fs => (Derive.rows fs (aparts vs)).all (·.2)
  | _ => true
def aparts : List RV → List Bool
  | [] => []
  | x :: xs => apart x :: aparts xs
end

/-- Values whose JSON is well-formed, and what it should be. -/
def clear (x : RV) : Bool := tidy x && apart x

/-! ## Lists -/

theorem docKeys_eq (env : Env) (xs : List RV) : docKeys env xs = xs.map (docKey env) := by
  induction xs with
  | nil => rfl
  | cons x xs ih => rw [docKeys, ih]; rfl

theorem docs_eq (env : Env) (xs : List RV) : docs env xs = xs.map (doc env) := by
  induction xs with
  | nil => rfl
  | cons x xs ih => rw [docs, ih]; rfl

theorem isNameds_eq (xs : List RV) : isNameds xs = xs.map isNamed := by
  induction xs with
  | nil => rfl
  | cons x xs ih => rw [isNameds, ih]; rfl

theorem tidies_iff (xs : List RV) : tidies xs = true ↔ ∀ x ∈ xs, tidy x = true := by
  induction xs with
  | nil => simp [tidies]
  | cons x xs ih => simp [tidies, ih]

theorem aparts_eq (xs : List RV) : aparts xs = xs.map apart := by
  induction xs with
  | nil => rfl
  | cons x xs ih => rw [aparts, ih]; rfl

section
variable (env : Env)

theorem json_values (xs : List V) : Json.values env xs = allO (xs.map (Json.value env)) := by
  induction xs with
  | nil => rfl
  | cons x xs ih => rw [Json.values, ih]; rfl

theorem json_items (xs : List (Option Tag × Index × V)) : Json.items env xs = allO (xs.map fun x => Json.value env x.2.2) := by
  induction xs with
  | nil => rfl
  | cons x xs ih => obtain ⟨t, i, v⟩ := x; rw [Json.items, ih]; rfl

theorem json_entries (xs : List (V × V)) :
    Json.entries env xs = allO (xs.map fun x => pairO (Json.keyText env x.1) (Json.value env x.2)) := by
  induction xs with
  | nil => rfl
  | cons x xs ih => obtain ⟨k, v⟩ := x; rw [Json.entries, ih]; rfl

theorem json_fields (xs : List (Option Tag × Label × V)) :
    Json.fields env xs = allO (xs.map fun x => pairO (Json.labelText x.2.1) (Json.value env x.2.2)) := by
  induction xs with
  | nil => rfl
  | cons x xs ih => obtain ⟨t, l, v⟩ := x; rw [Json.fields, ih]; rfl

theorem json_fieldsRT (xs : List (Option Tag × Label × Index × V)) :
    Json.fieldsRT env xs = allO (xs.map fun x => pairO (Json.labelText x.2.1) (Json.value env x.2.2.2)) := by
  induction xs with
  | nil => rfl
  | cons x xs ih => obtain ⟨t, l, i, v⟩ := x; rw [Json.fieldsRT, ih]; rfl

end

theorem safes_iff (xs : List V) : Json.safes xs = true ↔ ∀ x ∈ xs, Json.safe x = true := by
  induction xs with
  | nil => simp [Json.safes]
  | cons x xs ih => simp [Json.safes, ih]
theorem safeItems_iff (xs : List (Option Tag × Index × V)) : Json.safeItems xs = true ↔ ∀ x ∈ xs, Json.safe x.2.2 = true := by
  induction xs with
  | nil => simp [Json.safeItems]
  | cons x xs ih => simp [Json.safeItems, ih]
theorem safeEntries_iff (xs : List (V × V)) : Json.safeEntries xs = true ↔
    ∀ x ∈ xs, (Json.safeKey x.1 = true ∧ Json.safe x.2 = true) ∧ (!(Json.named x.1 && Json.named x.2)) = true := by
  induction xs with
  | nil => simp [Json.safeEntries]
  | cons x xs ih => obtain ⟨k, v⟩ := x; simp only [Json.safeEntries, Bool.and_eq_true, ih, List.forall_mem_cons]
theorem safeFields_iff (xs : List (Option Tag × Label × V)) : Json.safeFields xs = true ↔ ∀ x ∈ xs, Json.safe x.2.2 = true := by
  induction xs with
  | nil => simp [Json.safeFields]
  | cons x xs ih => simp [Json.safeFields, ih]
theorem safeRT_iff (xs : List (Option Tag × Label × Index × V)) : Json.safeRT xs = true ↔ ∀ x ∈ xs, Json.safe x.2.2.2 = true := by
  induction xs with
  | nil => simp [Json.safeRT]
  | cons x xs ih => simp [Json.safeRT, ih]

theorem looses_iff (xs : List V) : Json.looses xs = true ↔ ∀ x ∈ xs, Json.loose x = true := by
  induction xs with
  | nil => simp [Json.looses]
  | cons x xs ih => simp [Json.looses, ih]
theorem looseItems_iff (xs : List (Option Tag × Index × V)) : Json.looseItems xs = true ↔ ∀ x ∈ xs, Json.loose x.2.2 = true := by
  induction xs with
  | nil => simp [Json.looseItems]
  | cons x xs ih => simp [Json.looseItems, ih]
theorem looseEntries_iff (xs : List (V × V)) : Json.looseEntries xs = true ↔
    ∀ x ∈ xs, (Json.safeKey x.1 = true ∧ Json.loose x.2 = true) ∧ (!(Json.named x.1 && Json.rawName x.2)) = true := by
  induction xs with
  | nil => simp [Json.looseEntries]
  | cons x xs ih => obtain ⟨k, v⟩ := x; simp only [Json.looseEntries, Bool.and_eq_true, ih, List.forall_mem_cons]
theorem looseFields_iff (xs : List (Option Tag × Label × V)) : Json.looseFields xs = true ↔ ∀ x ∈ xs, Json.loose x.2.2 = true := by
  induction xs with
  | nil => simp [Json.looseFields]
  | cons x xs ih => simp [Json.looseFields, ih]
theorem looseRT_iff (xs : List (Option Tag × Label × Index × V)) : Json.looseRT xs = true ↔ ∀ x ∈ xs, Json.loose x.2.2.2 = true := by
  induction xs with
  | nil => simp [Json.looseRT]
  | cons x xs ih => simp [Json.looseRT, ih]

/-! ## Structs -/

theorem plainTag_special (t : Option Tag) (h : plainTag t = true) : Json.isSpecialTag t = false := by
  simpa [plainTag, Json.isSpecialTag] using h

theorem idOf_ident (t : Option Tag) (l : Option Label) (i : Option Index) : Json.idOf { tag := t, label := l, index := i } = ident l i := by
  cases l <;> cases i <;> rfl

theorem entries_fst (rs : List (Field × V)) : (Derive.entries rs).map (·.1) = rs := by
  rw [Derive.entries, List.map_fst_zip]
  simp [Derive.indexes_length]

theorem rows_map {α β : Type} (f : α → β) (fs : List Field) (xs : List α) :
    Derive.rows fs (xs.map f) = (Derive.rows fs xs).map fun r => (r.1, f r.2) := by
  simp only [Derive.rows, List.zip_map_right, List.filter_map]
  rfl

theorem labeled_map {α β : Type} (g : Field × α → Field × β) (hg : ∀ r, (g r).1 = r.1) (named : Bool) (at' : Attrs) (rs : List (Field × α)) :
    Derive.labeled named at' (rs.map g) = Derive.labeled named at' rs := by
  cases rs with
  | nil => rfl
  | cons r rs => simp only [Derive.labeled, List.map_cons, hg]

theorem value_data (env : Env) (f : Field) (v : V) (h : plainTag f.dataTag = true) :
    Json.value env (Derive.data f v) = Json.value env v := by
  unfold Derive.data
  split
  · rename_i t ht
    rw [ht] at h
    rw [Json.value, plainTag_special _ h]
    rfl
  · rfl

theorem safe_data (f : Field) (v : V) (h : plainTag f.dataTag = true) : Json.safe (Derive.data f v) = Json.safe v := by
  unfold Derive.data
  split
  · rename_i t ht
    rw [ht] at h
    rw [Json.safe, plainTag_special _ h]
    rfl
  · rfl

theorem loose_data (f : Field) (v : V) (h : plainTag f.dataTag = true) : Json.loose (Derive.data f v) = Json.loose v := by
  unfold Derive.data
  split
  · rename_i t ht
    rw [ht] at h
    rw [Json.loose, plainTag_special _ h]
    rfl
  · rfl

theorem rows_plain {α : Type} {fs : List Field} (hf : fs.all plainField = true) (xs : List α) (r : Field × α) (hr : r ∈ Derive.rows fs xs) :
    plainTag r.1.dataTag = true ∧ Json.labelText (Derive.name r.1) = Option.some (Derive.name r.1).text := by
  have hm := List.mem_filter.mp hr
  have hs : r.1.skip = false := by simpa using hm.2
  have hp := List.all_eq_true.mp hf r.1 (List.of_mem_zip hm.1).1
  rw [plainField, hs, Bool.false_or, Bool.and_eq_true] at hp
  refine ⟨hp.1, ?_⟩
  have := hp.2
  rw [Json.labelText, if_neg]
  rintro ⟨h1, h2⟩
  rw [h2] at this
  simp [h1] at this

theorem value_struct (env : Env) (named : Bool) (at' : Attrs) (m : Meta) (fs : List Field) (vs : List V)
    (hf : fs.all plainField = true) (hm : plainTag m.tag = true) :
    Json.value env (Derive.structTree named at' m fs vs) = structDoc named at' fs (vs.map (Json.value env)) ∧
    Json.variant env (Derive.structTree named at' m fs vs) = (structDoc named at' fs (vs.map (Json.value env))).map (Json.wrap m) ∧
    ((Json.safe (Derive.structTree named at' m fs vs) = true ↔ ∀ r ∈ Derive.rows fs vs, Json.safe r.2 = true) ∧
      (Json.safeVariant (Derive.structTree named at' m fs vs) = true ↔ ∀ r ∈ Derive.rows fs vs, Json.safe r.2 = true) ∧
      ((∀ v ∈ vs, Json.loose v = true) → Json.loose (Derive.structTree named at' m fs vs) = true) ∧
      Json.rawName (Derive.structTree named at' m fs vs) = false ∧ Json.extraName (Derive.structTree named at' m fs vs) = false) ∧
    Json.named (Derive.structTree named at' m fs vs) = (Json.idOf m).isSome ∧
    Json.keyText env (Derive.structTree named at' m fs vs) = Option.none ∧
    Json.keyVariant env (Derive.structTree named at' m fs vs) = Option.none ∧
    Json.safeKey (Derive.structTree named at' m fs vs) = true := by
  have hs := plainTag_special _ hm
  have hp := rows_plain hf vs
  have hrow : ∀ (p : Field × V → Prop), (∀ v ∈ vs, ∀ f, p (f, v)) → ∀ r ∈ Derive.rows fs vs, p r :=
    fun p h r hr => h _ (List.of_mem_zip (List.mem_filter.mp hr).1).2 _
  have e1 : ∀ {β : Type} (g : Field × V → β), (Derive.entries (Derive.rows fs vs)).map (fun r => g r.1) = (Derive.rows fs vs).map g := by
    intro β g
    conv => rhs; rw [← entries_fst (Derive.rows fs vs)]
    rw [List.map_map]; rfl
  have hsafe : ∀ r ∈ Derive.rows fs vs, Json.safe (Derive.data r.1 r.2) = Json.safe r.2 := fun r hr => safe_data _ _ (hp r hr).1
  have hloose : (∀ v ∈ vs, Json.loose v = true) → ∀ r ∈ Derive.rows fs vs, Json.loose (Derive.data r.1 r.2) = true := by
    intro h r hr
    rw [loose_data _ _ (hp r hr).1]
    exact h _ (List.of_mem_zip (List.mem_filter.mp hr).1).2
  have he : ∀ r ∈ Derive.entries (Derive.rows fs vs), r.1 ∈ Derive.rows fs vs := fun r h => (List.of_mem_zip h).1
  have he' : ∀ r ∈ Derive.rows fs vs, ∃ e ∈ Derive.entries (Derive.rows fs vs), e.1 = r := by
    intro r hr
    rw [← entries_fst (Derive.rows fs vs)] at hr
    exact List.mem_map.mp hr
  rw [structDoc, rows_map]
  rw [labeled_map (fun r => (r.1, Json.value env r.2)) (fun _ => rfl)]
  have h1 : (Derive.rows fs vs).map (fun r => pairO (Json.labelText (Derive.name r.1)) (Json.value env (Derive.data r.1 r.2))) =
      ((Derive.rows fs vs).map fun r => (r.1, Json.value env r.2)).map fun r => pairO (Option.some (Derive.name r.1).text) r.2 := by
    rw [List.map_map]
    refine List.map_congr_left fun r hr => ?_
    rw [(hp r hr).2, value_data _ _ _ (hp r hr).1]; rfl
  have h2 : (Derive.rows fs vs).map (fun r => Json.value env (Derive.data r.1 r.2)) =
      ((Derive.rows fs vs).map fun r => (r.1, Json.value env r.2)).map (·.2) := by
    rw [List.map_map]
    refine List.map_congr_left fun r hr => ?_
    rw [value_data _ _ _ (hp r hr).1]; rfl
  dsimp only [Derive.structTree]
  cases hl : Derive.labeled named at' (Derive.rows fs vs) <;> cases hi : Derive.indexed at' (Derive.rows fs vs)
  · simp only [Bool.false_eq_true, if_false, ← h2]
    simp only [Json.value, Json.variant, hs, Bool.false_eq_true, if_false, json_values, List.map_map]
    refine ⟨rfl, rfl, ?_, rfl, ?_, ?_, ?_⟩
    · have h : Json.safes ((Derive.rows fs vs).map fun r => Derive.data r.1 r.2) = true ↔
          ∀ r ∈ Derive.rows fs vs, Json.safe r.2 = true := by
        rw [safes_iff, List.forall_mem_map]
        exact forall_congr' fun r => forall_congr' fun hr => by rw [hsafe r hr]
      refine ⟨by simpa [Json.safe, hs] using h, by simpa [Json.safe, Json.safeVariant, hs] using h, fun h => ?_,
        by simp [Json.rawName, hs], rfl⟩
      simp only [Json.loose, hs, Bool.false_eq_true, if_false]
      rw [looses_iff, List.forall_mem_map]
      exact hloose h
    · simp [Json.keyText, hs]
    · simp [Json.keyVariant, Json.keyText, hs]
    · simp [Json.safeKey, hs]
  · simp only [Bool.false_eq_true, if_false, ← h2]
    simp only [Json.value, Json.variant, json_items, List.map_map, Function.comp_def]
    rw [e1 fun r => Json.value env (Derive.data r.1 r.2)]
    refine ⟨rfl, ?_, ?_, rfl, rfl, rfl, rfl⟩
    · rw [Option.map_map]; rfl
    · have h : Json.safeItems ((Derive.entries (Derive.rows fs vs)).map fun r => (r.1.1.tag, r.2, Derive.data r.1.1 r.1.2)) = true ↔ ∀ r ∈ Derive.rows fs vs, Json.safe r.2 = true := by
        rw [safeItems_iff, List.forall_mem_map]
        refine ⟨fun h r hr => ?_, fun h r hr => ?_⟩
        · obtain ⟨e, h1, rfl⟩ := he' r hr
          rw [← hsafe _ hr]; exact h e h1
        · exact (hsafe _ (he r hr)).trans (h _ (he r hr))
      refine ⟨h, h, fun h => ?_, rfl, rfl⟩
      rw [Json.loose, looseItems_iff, List.forall_mem_map]
      exact fun r hr => hloose h _ (he r hr)
  · simp only [if_true, ← h1]
    simp only [Json.value, Json.variant, json_fields, List.map_map, Function.comp_def]
    refine ⟨trivial, ?_, ?_, rfl, rfl, rfl, rfl⟩
    · rw [Option.map_map]; rfl
    · have h : Json.safeFields ((Derive.rows fs vs).map fun r => (r.1.tag, Derive.name r.1, Derive.data r.1 r.2)) = true ↔ ∀ r ∈ Derive.rows fs vs, Json.safe r.2 = true := by
        rw [safeFields_iff, List.forall_mem_map]
        refine ⟨fun h r hr => ?_, fun h r hr => ?_⟩
        · rw [← hsafe r hr]; exact h r hr
        · exact (hsafe r hr).trans (h r hr)
      refine ⟨h, h, fun h => ?_, rfl, rfl⟩
      rw [Json.loose, looseFields_iff, List.forall_mem_map]
      exact hloose h
  · simp only [if_true, ← h1]
    simp only [Json.value, Json.variant, json_fieldsRT, List.map_map, Function.comp_def]
    rw [e1 fun r => pairO (Json.labelText (Derive.name r.1)) (Json.value env (Derive.data r.1 r.2))]
    refine ⟨rfl, ?_, ?_, rfl, rfl, rfl, rfl⟩
    · rw [Option.map_map]; rfl
    · have h : Json.safeRT ((Derive.entries (Derive.rows fs vs)).map fun r => (r.1.1.tag, Derive.name r.1.1, r.2, Derive.data r.1.1 r.1.2)) = true ↔ ∀ r ∈ Derive.rows fs vs, Json.safe r.2 = true := by
        rw [safeRT_iff, List.forall_mem_map]
        refine ⟨fun h r hr => ?_, fun h r hr => ?_⟩
        · obtain ⟨e, h1, rfl⟩ := he' r hr
          rw [← hsafe _ hr]; exact h e h1
        · exact (hsafe _ (he r hr)).trans (h _ (he r hr))
      refine ⟨h, h, fun h => ?_, rfl, rfl⟩
      rw [Json.loose, looseRT_iff, List.forall_mem_map]
      exact fun r hr => hloose h _ (he r hr)

/-! ## Everything -/

theorem fragsText_borrowed (s : Text) : fragsText [Frag.borrowed s] = s := by simp [fragsText, Frag.content]

theorem keys_tree (env : Env) (x : RV) (hx : ok x) (hc : tidy x = true) :
    Json.keyText env (tree x) = docKey env x ∧ Json.safeKey (tree x) = true ∧ Json.named (tree x) = isNamed x := by
  induction x using RV.ind with | h x ih => ?_
  cases x with
  | unit | null | bool | int | f32 | f64 | none | bytes => exact ⟨rfl, rfl, rfl⟩
  | char c => exact ⟨by simp only [tree, Json.keyText, Serde.fragsText_one, docKey], rfl, rfl⟩
  | str s => exact ⟨by simp only [tree, Json.keyText, fragsText_borrowed, docKey], rfl, rfl⟩
  | display fs => exact ⟨by simp only [tree, Json.keyText, Serde.fragsText_computed, docKey], rfl, rfl⟩
  | byteArray b => exact ⟨rfl, rfl, rfl⟩
  | number fs =>
    rw [tidy] at hc
    refine ⟨?_, ?_, rfl⟩
    · show (Option.some (fragsText (fs.map .computed))).bind (Json.specialKey (Option.some tags.NUMBER)) = Json.numberKey fs.flatten
      rw [Serde.fragsText_computed]; rfl
    · show (Json.safeText (Option.some tags.NUMBER) (.text Option.none (fs.map .computed)) && true) = true
      simp only [Json.safeText, Json.textOf, Serde.fragsText_computed]
      simpa using hc
  | some v => exact ⟨(ih v (.head _) hx hc).1, (ih v (.head _) hx hc).2.1, rfl⟩
  | boxed v => exact ih v (.head _) hx hc
  | slice | array | tuple | map => exact ⟨rfl, rfl, rfl⟩
  | unitStruct ident at' =>
    rw [tidy, bne_iff_ne] at hc
    refine ⟨?_, rfl, rfl⟩
    simp [tree, Json.keyText, Json.tagKey, hc, docKey, Json.idOf]
  | newtype ident at' transparent v =>
    rw [tidy, Bool.and_eq_true] at hc
    obtain ⟨h1, h2, h3⟩ := ih v (.head _) hx hc.2
    cases transparent with
    | true => exact ⟨h1, h2, h3⟩
    | false => refine ⟨?_, ?_, rfl⟩ <;> simp [tree, Json.keyText, Json.safeKey, plainTag_special _ hc.1, h1, h2, docKey]
  | struct named ident at' fs vs =>
    rw [tidy, Bool.and_eq_true, Bool.and_eq_true] at hc
    obtain ⟨_, _, _, h4, h5, _, h7⟩ := value_struct env named at'
      { tag := at'.tag, label := Option.some (Derive.labelOr at'.label ident), index := at'.index.map attrIndex } fs (trees vs) hc.1.2 hc.1.1
    exact ⟨h5, h7, h4⟩
  | enum d i vs =>
    rw [ok, oks_iff] at hx
    obtain ⟨⟨v, hv, hok⟩, hx⟩ := hx
    simp only [tidy, hv, Bool.and_eq_true, tidies_iff, bne_iff_ne] at hc
    have hvs : trees vs = vs.map tree := trees_eq vs
    have hstruct : ∀ n fs, fieldsOf v.shape = fs → Json.keyText env (Derive.structTree n v.attrs
          { tag := v.attrs.tag, label := Derive.variantName d v, index := indexOf d i } fs (trees vs)) = Option.none ∧
        Json.keyVariant env (Derive.structTree n v.attrs
          { tag := v.attrs.tag, label := Derive.variantName d v, index := indexOf d i } fs (trees vs)) = Option.none ∧
        Json.safeKey (Derive.structTree n v.attrs
          { tag := v.attrs.tag, label := Derive.variantName d v, index := indexOf d i } fs (trees vs)) = true ∧
        Json.named (Derive.structTree n v.attrs
          { tag := v.attrs.tag, label := Derive.variantName d v, index := indexOf d i } fs (trees vs)) =
            (ident (Derive.variantName d v) (indexOf d i)).isSome := by
      intro n fs hfs
      obtain ⟨_, _, _, h4, h5, h6, h7⟩ := value_struct env n v.attrs
        { tag := v.attrs.tag, label := Derive.variantName d v, index := indexOf d i } fs (trees vs) (hfs ▸ hc.1.2) hc.1.1.1
      exact ⟨h5, h6, h7, by rw [h4, idOf_ident]⟩
    have htag : Json.tagKey { tag := v.attrs.tag, label := Derive.variantName d v, index := indexOf d i } =
        (ident (Derive.variantName d v) (indexOf d i)).getD (t! "null") := by
      rw [Json.tagKey, if_neg hc.1.1.2, idOf_ident]
    simp only [tree, docKey, isNamed, hv]
    change (Json.keyText env (if d.dyn = true then Derive.variantTree d v (indexOf d i) (trees vs) else _) = _ ∧ _)
    dsimp only [Derive.variantTree]
    rw [show (variantIndexes d d.variants)[i]?.getD Option.none = indexOf d i from rfl]
    rw [okVariant] at hok
    cases hs : v.shape with
    | unit =>
      cases hd : d.dyn with
      | true => exact ⟨by simp [Json.keyText, htag], rfl, rfl⟩
      | false => exact ⟨by simp [Json.keyText, Json.keyVariant, htag], rfl, rfl⟩
    | newtype =>
      rw [hs] at hok
      obtain ⟨x, rfl⟩ := List.length_eq_one_iff.mp hok
      obtain ⟨h1, h2, h3⟩ := ih x (.head _) (hx x (.head _)) (hc.2 x (.head _))
      have hsp := plainTag_special _ hc.1.1.1
      cases hd : d.dyn with
      | true => exact ⟨by simp [trees, docKeys, h1], by simp [trees, h2], by simp [trees, isNameds, h3]⟩
      | false =>
        refine ⟨?_, by simp [trees, Json.safeKey, hsp, h2], rfl⟩
        simp only [trees, Bool.false_eq_true, if_false, Json.keyText, Json.keyVariant, idOf_ident, docKeys, hsp, h1, Bool.false_or]
        cases ident (Derive.variantName d v) (indexOf d i) <;> rfl
    | named fs =>
      obtain ⟨h1, h2, h3, h4⟩ := hstruct true fs (by rw [hs]; rfl)
      cases hd : d.dyn with
      | true =>
        refine ⟨by simp [h1], by simp [h3], ?_⟩
        have hn : Derive.variantName d v = Option.none := by simp [Derive.variantName, hd, hs, Derive.isUnit]
        rw [if_pos rfl, h4, hn]; rfl
      | false => exact ⟨by simp [Json.keyText, h2], by simp [Json.safeKey, h3], rfl⟩
    | unnamed fs =>
      obtain ⟨h1, h2, h3, h4⟩ := hstruct false fs (by rw [hs]; rfl)
      cases hd : d.dyn with
      | true =>
        refine ⟨by simp [h1], by simp [h3], ?_⟩
        have hn : Derive.variantName d v = Option.none := by simp [Derive.variantName, hd, hs, Derive.isUnit]
        rw [if_pos rfl, h4, hn]; rfl
      | false => exact ⟨by simp [Json.keyText, h2], by simp [Json.safeKey, h3], rfl⟩

theorem tagJ_unitDoc (t : Option Tag) (l : Option Label) (i : Option Index) (h : t ≠ Option.some tags.RUST_OPTION_NONE) :
    Json.tagJ { tag := t, label := l, index := i } = unitDoc l i := by
  rw [Json.tagJ, if_neg h]
  cases l <;> cases i <;> rfl

/-- The tree of a tidy value. -/
def Fine (env : Env) (x : RV) : Prop :=
  Json.value env (tree x) = doc env x ∧ (Json.safe (tree x) = true ↔ apart x = true) ∧ Json.loose (tree x) = true ∧
    Json.rawName (tree x) = false ∧ Json.extraName (tree x) = false

theorem rows_all (fs : List Field) (vs : List RV) (h : ∀ v ∈ vs, Json.safe (tree v) = true ↔ apart v = true) :
    (∀ r ∈ Derive.rows fs (trees vs), Json.safe r.2 = true) ↔ (Derive.rows fs (aparts vs)).all (·.2) = true := by
  rw [trees_eq, aparts_eq, rows_map, rows_map, List.forall_mem_map, List.all_map, List.all_eq_true]
  exact forall_congr' fun r => forall_congr' fun hr => h _ (List.of_mem_zip (List.mem_filter.mp hr).1).2

theorem fine_tree (env : Env) (x : RV) (hx : ok x) (hc : tidy x = true) : Fine env x := by
  induction x using RV.ind with | h y ih => ?_
  have all : ∀ xs : List RV, (∀ x ∈ xs, x ∈ parts y ∧ ok x ∧ tidy x = true) → (trees xs).map (Json.value env) = docs env xs ∧
      (∀ v ∈ trees xs, Json.loose v = true) ∧ ((∀ v ∈ trees xs, Json.safe v = true) ↔ (aparts xs).all id = true) := by
    intro xs h
    rw [trees_eq, docs_eq, aparts_eq, List.map_map]
    refine ⟨List.map_congr_left fun x hx => ?_, fun v hv => ?_, ?_⟩
    · obtain ⟨h1, h2, h3⟩ := h x hx
      exact (ih x h1 h2 h3).1
    · obtain ⟨x, hx, rfl⟩ := List.mem_map.mp hv
      obtain ⟨h1, h2, h3⟩ := h x hx
      exact (ih x h1 h2 h3).2.2.1
    · rw [List.forall_mem_map, List.all_map, List.all_eq_true]
      refine forall_congr' fun x => forall_congr' fun hx => ?_
      obtain ⟨h1, h2, h3⟩ := h x hx
      exact (ih x h1 h2 h3).2.1
  cases y with
  | unit | null | bool | int | f32 | f64 | none => exact ⟨rfl, by simp [tree, Json.safe, apart], rfl, rfl, rfl⟩
  | bytes b => exact ⟨by simp [tree, Json.value, doc, fragsBytes, Frag.content], by simp [tree, Json.safe, apart], rfl, rfl, rfl⟩
  | byteArray b =>
    refine ⟨?_, ⟨fun _ => rfl, fun _ => rfl⟩, rfl, rfl, rfl⟩
    show Json.value env (.binary (Option.some b.length) [.borrowed b]) = _
    simp [Json.value, doc, fragsBytes, Frag.content]
  | char c => exact ⟨by simp only [tree, Json.value, Serde.fragsText_one, doc], by simp [tree, Json.safe, apart], rfl, rfl, rfl⟩
  | str s => exact ⟨by simp only [tree, Json.value, fragsText_borrowed, doc], by simp [tree, Json.safe, apart], rfl, rfl, rfl⟩
  | display fs =>
    exact ⟨by simp only [tree, Json.value, Serde.fragsText_computed, doc], by simp [tree, Json.safe, apart], rfl, rfl, rfl⟩
  | number fs =>
    rw [tidy] at hc
    have h : Json.safeText (Option.some tags.NUMBER) (.text Option.none (fs.map .computed)) = true := by
      simp only [Json.safeText, Json.textOf, Serde.fragsText_computed]
      simpa using hc
    refine ⟨?_, ⟨fun _ => rfl, fun _ => h⟩, h, rfl, rfl⟩
    show (Option.some (fragsText (fs.map .computed))).bind (Json.specialJ (Option.some tags.NUMBER)) = Json.numberOf fs.flatten
    rw [Serde.fragsText_computed]; rfl
  | some v =>
    obtain ⟨h1, h2, h3, _⟩ := ih v (.head _) hx hc
    exact ⟨h1, h2, h3, rfl, rfl⟩
  | boxed v => exact ih v (.head _) hx hc
  | slice xs =>
    rw [ok, oks_iff] at hx
    rw [tidy, tidies_iff] at hc
    obtain ⟨h1, h2, h3⟩ := all xs fun x h => ⟨h, hx x h, hc x h⟩
    exact ⟨by simp only [tree, Json.value, json_values, h1, doc], by rw [tree, Json.safe, safes_iff]; exact h3,
      by rw [tree, Json.loose, looses_iff]; exact h2, rfl, rfl⟩
  | array xs =>
    rw [ok, oks_iff] at hx
    rw [tidy, tidies_iff] at hc
    obtain ⟨h1, h2, h3⟩ := all xs fun x h => ⟨h, hx x h, hc x h⟩
    refine ⟨?_, ?_, ?_, rfl, rfl⟩
    · show Json.value env (.seq (Option.some xs.length) (trees xs)) = _
      simp only [Json.value, json_values, h1, doc]
    · show Json.safe (.seq Option.none (trees xs)) = true ↔ _
      rw [Json.safe, safes_iff]; exact h3
    · show Json.loose (.seq Option.none (trees xs)) = true
      rw [Json.loose, looses_iff]; exact h2
  | tuple xs =>
    rw [ok, oks_iff] at hx
    rw [tidy, tidies_iff] at hc
    obtain ⟨h1, h2, h3⟩ := all xs fun x h => ⟨h, hx x h, hc x h⟩
    refine ⟨?_, ?_, ?_, rfl, rfl⟩
    · have : ((trees xs).zipIdx.map fun x => Json.value env x.1) = (trees xs).map (Json.value env) := by
        rw [show (fun x : V × Nat => Json.value env x.1) = Json.value env ∘ Prod.fst from rfl, ← List.map_map, List.zipIdx_map_fst]
      simp only [tree, Json.value, json_items, List.map_map, Function.comp_def, this, h1, doc]
    · rw [tree, Json.safe, safeItems_iff, List.forall_mem_map, apart, ← h3]
      refine ⟨fun h v hv => ?_, fun h r hr => h _ (List.fst_mem_of_mem_zipIdx hr)⟩
      rw [← List.zipIdx_map_fst 0 (trees xs)] at hv
      obtain ⟨r, hr, rfl⟩ := List.mem_map.mp hv
      exact h r hr
    · rw [tree, Json.loose, looseItems_iff, List.forall_mem_map]
      exact fun r hr => h2 _ (List.fst_mem_of_mem_zipIdx hr)
  | map ks vs =>
    rw [ok, oks_iff, oks_iff] at hx
    rw [tidy, Bool.and_eq_true, tidies_iff, tidies_iff] at hc
    have hk : ∀ k ∈ ks, _ := fun k h => keys_tree env k (hx.2.1 k h) (hc.1 k h)
    have hv : ∀ v ∈ vs, _ := fun v h => ih v (List.mem_append_right _ h) (hx.2.2 v h) (hc.2 v h)
    have hn : ∀ v ∈ vs, _ := fun v h => keys_tree env v (hx.2.2 v h) (hc.2 v h)
    refine ⟨?_, ?_, ?_, rfl, rfl⟩
    · simp only [tree, Json.value, json_entries, doc, trees_eq, docKeys_eq, docs_eq]
      congr 2
      rw [List.zip_map, List.map_map, List.zipWith_map, ← List.map_uncurry_zip_eq_zipWith]
      refine List.map_congr_left fun r hr => ?_
      obtain ⟨h1, h2⟩ := List.of_mem_zip hr
      simp only [Function.comp, Prod.map, Function.uncurry, (hk _ h1).1, (hv _ h2).1]
    · rw [tree, Json.safe, safeEntries_iff, trees_eq, trees_eq, List.zip_map, List.forall_mem_map, apart, Bool.and_eq_true,
        aparts_eq, isNameds_eq, isNameds_eq, List.zipWith_map, ← List.map_uncurry_zip_eq_zipWith, List.all_map, List.all_map,
        List.all_eq_true, List.all_eq_true]
      refine ⟨fun h => ⟨fun v h2 => ?_, fun r hr => ?_⟩, fun h r hr => ?_⟩
      · rw [← List.map_snd_zip (l₁ := ks) (l₂ := vs) (by omega)] at h2
        obtain ⟨r, hr, rfl⟩ := List.mem_map.mp h2
        exact (hv _ (List.of_mem_zip hr).2).2.1.1 (h r hr).1.2
      · obtain ⟨h1, h2⟩ := List.of_mem_zip hr
        have := (h r hr).2
        simp only [Prod.map, (hk _ h1).2.2, (hn _ h2).2.2] at this
        exact this
      · obtain ⟨h1, h2⟩ := List.of_mem_zip hr
        refine ⟨⟨(hk _ h1).2.1, (hv _ h2).2.1.2 (h.1 _ h2)⟩, ?_⟩
        have := h.2 r hr
        simp only [Prod.map, (hk _ h1).2.2, (hn _ h2).2.2]
        exact this
    · rw [tree, Json.loose, looseEntries_iff, trees_eq, trees_eq, List.zip_map, List.forall_mem_map]
      intro r hr
      obtain ⟨h1, h2⟩ := List.of_mem_zip hr
      refine ⟨⟨(hk _ h1).2.1, (hv _ h2).2.2.1⟩, ?_⟩
      simp only [Prod.map, (hv _ h2).2.2.2.1, Bool.and_false, Bool.not_false]
  | unitStruct ident at' =>
    rw [tidy, bne_iff_ne] at hc
    exact ⟨by rw [tree, Json.value, tagJ_unitDoc _ _ _ hc]; rfl, by simp [tree, Json.safe, apart], rfl, rfl, rfl⟩
  | newtype ident at' transparent v =>
    rw [tidy, Bool.and_eq_true] at hc
    have h := ih v (.head _) hx hc.2
    cases transparent with
    | true => exact h
    | false =>
      obtain ⟨h1, h2, h3, _⟩ := h
      refine ⟨?_, ?_, ?_, ?_, rfl⟩ <;>
        simp [tree, Json.value, Json.safe, Json.loose, Json.rawName, plainTag_special _ hc.1, h1, h2, h3, doc, apart]
  | struct named ident at' fs vs =>
    rw [ok, oks_iff] at hx
    rw [tidy, Bool.and_eq_true, Bool.and_eq_true, tidies_iff] at hc
    obtain ⟨g1, g2, _⟩ := all vs fun x h => ⟨h, hx.2 x h, hc.2 x h⟩
    obtain ⟨h1, _, ⟨h3, _, h4, h5, h6⟩, _⟩ := value_struct env named at'
      { tag := at'.tag, label := Option.some (Derive.labelOr at'.label ident), index := at'.index.map attrIndex } fs (trees vs) hc.1.2 hc.1.1
    exact ⟨by rw [tree, h1, g1, doc], by
      rw [tree, h3, apart, rows_all fs vs fun v h => (ih v h (hx.2 v h) (hc.2 v h)).2.1], h4 g2, h5, h6⟩
  | enum d i vs =>
    rw [ok, oks_iff] at hx
    obtain ⟨⟨v, hv, hok⟩, hx⟩ := hx
    simp only [tidy, hv, Bool.and_eq_true, tidies_iff, bne_iff_ne] at hc
    obtain ⟨g1, g2, g3⟩ := all vs fun x h => ⟨h, hx x h, hc.2 x h⟩
    have hstruct := fun n fs (hfs : fieldsOf v.shape = fs) => value_struct env n v.attrs
        { tag := v.attrs.tag, label := Derive.variantName d v, index := indexOf d i } fs (trees vs) (hfs ▸ hc.1.2) hc.1.1.1
    have hrows := fun fs => rows_all fs vs fun v h => (ih v h (hx v h) (hc.2 v h)).2.1
    have hwrap : ∀ j, Json.wrap { tag := v.attrs.tag, label := Derive.variantName d v, index := indexOf d i } j =
        match ident (Derive.variantName d v) (indexOf d i) with
        | Option.some k => .obj [(k, j)]
        | Option.none => j := by
      intro j
      rw [Json.wrap, idOf_ident]
      cases ident (Derive.variantName d v) (indexOf d i) <;> rfl
    simp only [Fine, tree, doc, apart, hv]
    change (Json.value env (if d.dyn = true then Derive.variantTree d v (indexOf d i) (trees vs) else _) = _ ∧ _)
    dsimp only [Derive.variantTree, variantDoc]
    rw [show (variantIndexes d d.variants)[i]?.getD Option.none = indexOf d i from rfl]
    rw [okVariant] at hok
    cases hs : v.shape with
    | unit =>
      have := tagJ_unitDoc v.attrs.tag (Derive.variantName d v) (indexOf d i) hc.1.1.2
      cases hd : d.dyn with
      | true => exact ⟨by simp [Json.value, this], by simp [Json.safe], rfl, rfl, rfl⟩
      | false => exact ⟨by simp [Json.value, Json.variant, this], by simp [Json.safe, Json.safeVariant], rfl, rfl, rfl⟩
    | newtype =>
      rw [hs] at hok
      obtain ⟨x, rfl⟩ := List.length_eq_one_iff.mp hok
      obtain ⟨h1, h2, h3, h4, h5⟩ := ih x (.head _) (hx x (.head _)) (hc.2 x (.head _))
      have hsp := plainTag_special _ hc.1.1.1
      cases hd : d.dyn with
      | true => exact ⟨by simp [trees, docs, h1], by simp [trees, aparts, h2], by simp [trees, h3], by simp [trees, h4], by simp [trees, h5]⟩
      | false =>
        refine ⟨?_, by simp [trees, Json.safe, Json.safeVariant, hsp, aparts, h2],
          by simp [trees, Json.loose, Json.rawName, Json.extraName, hsp, h3], rfl, rfl⟩
        simp only [trees, Bool.false_eq_true, if_false, Json.value, Json.variant, docs, hsp, h1]
        congr 1
        funext j
        exact hwrap j
    | named fs =>
      obtain ⟨h1, h2, ⟨h3, h4, h5, h6, h7⟩, _⟩ := hstruct true fs (by rw [hs]; rfl)
      cases hd : d.dyn with
      | true => exact ⟨by simp [h1, g1], by simp only [if_true, h3, hrows], by simp [h5 g2], by simp [h6], by simp [h7]⟩
      | false =>
        refine ⟨?_, by simp only [Bool.false_eq_true, if_false, Json.safe, h4, hrows], by simp [Json.loose, h5 g2, h6, h7], rfl, rfl⟩
        simp only [Bool.false_eq_true, if_false, Json.value, h2, g1]
        congr 1
        funext j
        exact hwrap j
    | unnamed fs =>
      obtain ⟨h1, h2, ⟨h3, h4, h5, h6, h7⟩, _⟩ := hstruct false fs (by rw [hs]; rfl)
      cases hd : d.dyn with
      | true => exact ⟨by simp [h1, g1], by simp only [if_true, h3, hrows], by simp [h5 g2], by simp [h6], by simp [h7]⟩
      | false =>
        refine ⟨?_, by simp only [Bool.false_eq_true, if_false, Json.safe, h4, hrows], by simp [Json.loose, h5 g2, h6, h7], rfl, rfl⟩
        simp only [Bool.false_eq_true, if_false, Json.value, h2, g1]
        congr 1
        funext j
        exact hwrap j

theorem clear_iff (x : RV) : clear x = true ↔ tidy x = true ∧ apart x = true := by rw [clear, Bool.and_eq_true]

theorem doc_tree (env : Env) (x : RV) (hx : ok x) (hc : clear x = true) :
    Json.value env (tree x) = doc env x ∧ Json.safe (tree x) = true := by
  rw [clear_iff] at hc
  obtain ⟨h1, h2, _⟩ := fine_tree env x hx hc.1
  exact ⟨h1, h2.2 hc.2⟩

end Sval.Rust
