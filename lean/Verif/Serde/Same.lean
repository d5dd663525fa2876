import Verif.Serde.Round

set_option autoImplicit false

/-!
# Serializers that have one error, and what can be serialized
-/

namespace Sval.Serde

open Nested (Item own Shows prog supported seen)

mutual
/-- Characters are text, and so is what is displayed. -/
def asText : SV → SV
  | .char c => .str [c]
  | .collectStr s => .str s.flatten
  | .some v => .some (asText v)
  | .newtypeStruct name v => .newtypeStruct name (asText v)
  | .newtypeVariant name i variant v => .newtypeVariant name i variant (asText v)
  | .seq len xs => .seq len (asTexts xs)
  | .tuple len xs => .tuple len (asTexts xs)
  | .tupleStruct name len xs => .tupleStruct name len (asTexts xs)
  | .tupleVariant name i variant len xs => .tupleVariant name i variant len (asTexts xs)
  | .map len kvs => .map len (asTextMap kvs)
  | .struct name len fs => .struct name len (asTextRec fs)
  | .structVariant name i variant len fs => .structVariant name i variant len (asTextRec fs)
  | v => v
def asTexts : List SV → List SV
  | [] => []
  | x :: xs => asText x :: asTexts xs
def asTextMap : List (SV × SV) → List (SV × SV)
  | [] => []
  | (k, v) :: r => (asText k, asText v) :: asTextMap r
def asTextRec : List (Text × SV) → List (Text × SV)
  | [] => []
  | (l, v) :: r => (l, asText v) :: asTextRec r
end

/-- No characters and nothing displayed in the value. -/
def noChar (v : SV) : Prop := asText v = v

section
variable {τ : Type} (S : SCall Unit τ → τ → Res Unit τ)

theorem lossy_unit (b e : SCall Unit τ) (l : List (τ → Res Unit τ)) : lossy () S b l e = container S b l e := by
  funext s
  simp only [lossy, container]
  cases S b s with
  | ok s' => simp only [Res.bind_ok]; congr 1; cases seqM l s' <;> rfl
  | err x s' => rfl
  | panic => rfl

theorem toU32_toNat (i : UInt32) : toU32 { val := i.toNat } = some i := by
  have : i.toNat < 4294967296 := i.toNat_lt
  unfold toU32
  rw [if_pos ⟨by simp, by simp only; omega⟩]
  simp

theorem variantOf_of {m : Meta} {i : UInt32} {v : Text} (h : staticName m = some v) (h' : m.index.bind toU32 = some i) :
    variantOf m = some (i, v) := by
  unfold variantOf
  rw [h, h']

theorem variantMeta_name (i : UInt32) (variant : Text) : staticName (variantMeta i variant) = some variant := by
  simp [staticName, variantMeta, Label.new, Label.asStaticStr]

theorem variantMeta_index (i : UInt32) (variant : Text) : (variantMeta i variant).index.bind toU32 = some i := by
  rw [show (variantMeta i variant).index = some { val := i.toNat } from rfl, Option.bind_some, toU32_toNat]

theorem variantOf_meta (i : UInt32) (variant : Text) : variantOf (variantMeta i variant) = some (i, variant) :=
  variantOf_of (variantMeta_name i variant) (variantMeta_index i variant)

section
variable {ε : Type} (custom : ε) (S : SCall ε τ → τ → Res ε τ) (name v : Text) {m : Meta} {i : UInt32} (h : variantOf m = some (i, v))
include h

theorem serVariant_tag : serVariant custom S name (.tag m) = S (.unitVariant name i v) := by simp only [serVariant, h]
theorem serVariant_tagged (x : V) : serVariant custom S name (.tagged m x) = S (.newtypeVariant name i v (serV custom S x)) := by
  simp only [serVariant, h]
theorem serVariant_tuple (n : Nat) (fs : List (Option Tag × Index × V)) : serVariant custom S name (.tuple m (some n) fs) =
    lossy custom S (.tupleVariant name i v n) (serVTup custom S .tupleVariantField fs) .tupleVariantEnd := by
  simp only [serVariant, h]
theorem serVariant_record (n : Nat) (fs : List (Option Tag × Label × V)) : serVariant custom S name (.record m (some n) fs) =
    lossy custom S (.structVariant name i v n) (serVRec custom S (some .structVariantField) fs) .structVariantEnd := by
  simp only [serVariant, h]
end

theorem serV_enum {ε : Type} (custom : ε) (S : SCall ε τ → τ → Res ε τ) (name : Text) (v : V) :
    serV custom S (.enum (named name) v) = serVariant custom S name v := rfl

theorem staticName_named (name : Text) : staticName (named name) = some name := by
  simp [staticName, named, Label.new, Label.asStaticStr]

theorem serV_elems (xs : List SV) (h : ∀ x ∈ xs, serV () S (tree x) = ser S (asText x)) :
    serVs () S (trees xs) = serElems S .seqElement (asTexts xs) := by
  induction xs with
  | nil => rfl
  | cons x xs ih => simp [trees, serVs, asTexts, serElems, h x (.head _), ih fun y hy => h y (.tail _ hy)]

theorem serV_tup (k : (τ → Res Unit τ) → SCall Unit τ) (xs : List SV) (h : ∀ x ∈ xs, serV () S (tree x) = ser S (asText x)) (i : Nat) :
    serVTup () S k (treeTup i xs) = serElems S k (asTexts xs) := by
  induction xs generalizing i with
  | nil => rfl
  | cons x xs ih => simp [treeTup, serVTup, asTexts, serElems, h x (.head _), ih fun y hy => h y (.tail _ hy)]

theorem serV_map (xs : List (SV × SV))
    (h : ∀ x ∈ xs, serV () S (tree x.1) = ser S (asText x.1) ∧ serV () S (tree x.2) = ser S (asText x.2)) :
    serVMap () S (treeMap xs) = serEntries S (asTextMap xs) := by
  induction xs with
  | nil => rfl
  | cons x xs ih =>
    simp [treeMap, serVMap, asTextMap, serEntries, (h x (.head _)).1, (h x (.head _)).2, ih fun y hy => h y (.tail _ hy)]

theorem serV_rec (k : Text → (τ → Res Unit τ) → SCall Unit τ) (xs : List (Text × SV))
    (h : ∀ x ∈ xs, serV () S (tree x.2) = ser S (asText x.2)) :
    serVRec () S (some k) (treeRec xs) = serFields S k (asTextRec xs) := by
  induction xs with
  | nil => rfl
  | cons x xs ih =>
    simp [treeRec, serVRec, asTextRec, serFields, h x (.head _), ih fun y hy => h y (.tail _ hy), Label.new, Label.asStaticStr]

theorem serV_tree (v : SV) : serV () S (tree v) = ser S (asText v) := by
  induction v using SV.ind with | h v ih => ?_
  cases v with
  | char c => simp [tree, serV, asText, ser, Frag.content]
  | str s => simp [tree, serV, asText, ser, Frag.content]
  | collectStr s =>
    have : (s.map (Frag.content ∘ Frag.computed)) = s := by
      conv => rhs; rw [← List.map_id s]
      rfl
    simp [tree, serV, asText, ser, this]
  | bytes s => simp [tree, serV, asText, ser, Frag.content]
  | none => rfl
  | some v => simp [tree, serV, variant, asText, ser, ih v (by simp [parts])]
  | unit => rfl
  | unitStruct name => simp [tree, serV, staticName_named, asText, ser]; simp [named]
  | unitVariant name i variant => 
    rw [tree, serV_enum, serVariant_tag () S name _ (variantOf_meta i variant)]
    rfl
  | newtypeStruct name v => simp [tree, serV, staticName_named, asText, ser, ih v (by simp [parts])]; simp [named]
  | newtypeVariant name i variant v =>
    rw [tree, serV_enum, serVariant_tagged () S name _ (variantOf_meta i variant), ih v (by simp [parts]), asText, ser]
  | seq n xs => simp [tree, serV, asText, ser, lossy_unit, serV_elems S xs ih]
  | tuple n xs => simp [tree, serV, asText, ser, lossy_unit, serV_tup S _ xs ih]
  | tupleStruct name n xs =>
    simp [tree, serV, asText, ser, lossy_unit, serV_tup S _ xs ih, named, Label.new, Label.asStaticStr]
  | tupleVariant name i variant n xs =>
    rw [tree, serV_enum, serVariant_tuple () S name _ (variantOf_meta i variant), lossy_unit, serV_tup S _ xs ih, asText, ser]
  | map n xs =>
    have := serV_map S xs fun x hx => ⟨ih _ (List.mem_flatMap.2 ⟨x, hx, by simp⟩), ih _ (List.mem_flatMap.2 ⟨x, hx, by simp⟩)⟩
    simp [tree, serV, asText, ser, lossy_unit, this]
  | struct name n xs =>
    have := fun k => serV_rec S k xs fun x hx => ih _ (List.mem_map.2 ⟨x, hx, rfl⟩)
    simp [tree, serV, asText, ser, lossy_unit, this, named, Label.new, Label.asStaticStr]
  | structVariant name i variant n xs =>
    have := fun k => serV_rec S k xs fun x hx => ih _ (List.mem_map.2 ⟨x, hx, rfl⟩)
    rw [tree, serV_enum, serVariant_record () S name _ (variantOf_meta i variant), lossy_unit, this, asText, ser]
  | _ => rfl

/-- Deep enough, a serde value that went through sval is serialized as before. -/
theorem round_trip (v : SV) : ∃ N, ∀ d ≥ N, ∀ s, serialize () S d (prog (toValue v)) s = ser S (asText v) s := by
  obtain ⟨N, hN⟩ := serialize_shows () S (shows_toValue v) (by rw [Nested.supported_seen]; exact supported_tree v)
  refine ⟨N, fun d hd s => ?_⟩
  rw [hN d hd s, (serV_seen () S (tree v)).1, serV_tree]

end

/-! ## What can be serialized -/

/-- A label that is not static cannot be a name. -/
def nameable : Option Label → Bool
  | none => true
  | some l => l.backing = .static

/-- A variant needs a name, and an index that fits. -/
def variantOk (m : Meta) : Bool :=
  match m.label, m.index with
  | some l, some i => l.backing = .static && (0 ≤ i.val && i.val < 4294967296)
  | _, _ => false

mutual
/-- What serde can represent. -/
def serializable : V → Bool
  | .tag m =>
    m.tag = some tags.RUST_OPTION_NONE || m.tag = some tags.RUST_UNIT || (m.label.isSome && nameable m.label)
  | .tagged m v => (m.tag = some tags.RUST_OPTION_SOME || (m.label.isSome && nameable m.label)) && serializable v
  | .seq _ xs => serializables xs
  | .map _ kvs => serializableMap kvs
  | .tuple m n fs => n.isSome && nameable m.label && serializableTup fs
  | .record m n fs => n.isSome && nameable m.label && serializableRec m.label.isSome fs
  | .recordTuple m n fs => n.isSome && nameable m.label && serializableRT m.label.isSome fs
  | .enum m v => m.label.isSome && nameable m.label && serializableVariant v
  | .hint _ v => serializable v
  | _ => true
def serializableVariant : V → Bool
  | .tag m => variantOk m
  | .tagged m v => variantOk m && serializable v
  | .tuple m n fs => variantOk m && n.isSome && serializableTup fs
  | .record m n fs => variantOk m && n.isSome && serializableRec true fs
  | .recordTuple m n fs => variantOk m && n.isSome && serializableRT true fs
  | .hint _ v => serializableVariant v
  | _ => false
def serializables : List V → Bool
  | [] => true
  | x :: xs => serializable x && serializables xs
def serializableMap : List (V × V) → Bool
  | [] => true
  | (k, v) :: r => serializable k && serializable v && serializableMap r
def serializableTup : List (Option Tag × Index × V) → Bool
  | [] => true
  | (_, _, v) :: r => serializable v && serializableTup r
/-- The names of the fields of a record with a name have to be static. -/
def serializableRec (isNamed : Bool) : List (Option Tag × Label × V) → Bool
  | [] => true
  | (_, l, v) :: r => (!isNamed || l.backing = .static) && serializable v && serializableRec isNamed r
def serializableRT (isNamed : Bool) : List (Option Tag × Label × Index × V) → Bool
  | [] => true
  | (_, l, _, v) :: r => (!isNamed || l.backing = .static) && serializable v && serializableRT isNamed r
end

/-- The argument of a call. -/
def SCall.arg {ε τ : Type} : SCall ε τ → Option (τ → Res ε τ)
  | .some a | .newtypeStruct _ a | .newtypeVariant _ _ _ a | .seqElement a | .tupleElement a | .tupleStructField a |
    .tupleVariantField a | .mapKey a | .mapValue a | .structField _ a | .structVariantField _ a => Option.some a
  | _ => Option.none

/-- A serializer that only fails if an argument does, and that serializes its arguments. -/
def Accepts {ε τ : Type} (S : SCall ε τ → τ → Res ε τ) : Prop :=
  ∀ c : SCall ε τ, match c.arg with
    | none => ∀ s, ∃ s', S c s = .ok s'
    | some a => ((∀ s, ∃ s', a s = .ok s') → ∀ s, ∃ s', S c s = .ok s') ∧
        ((∀ s, ∃ e s', a s = .err e s') → ∀ s, ∃ e s', S c s = .err e s')

section
variable {ε τ : Type} (custom : ε) (S : SCall ε τ → τ → Res ε τ)

/-- It succeeds, or it fails, whatever the state. -/
def Always (b : Bool) (f : τ → Res ε τ) : Prop :=
  if b then ∀ s, ∃ s', f s = .ok s' else ∀ s, ∃ e s', f s = .err e s'

theorem always_bad : Always false (bad custom : τ → Res ε τ) := fun s => ⟨custom, s, rfl⟩

variable {custom S} (hS : Accepts S)
include hS

theorem Accepts.none {c : SCall ε τ} (h : c.arg = Option.none) : Always true (S c) := by
  have := hS c
  rw [h] at this
  exact this

theorem Accepts.some {c : SCall ε τ} {a : τ → Res ε τ} {b : Bool} (h : c.arg = Option.some a) (ha : Always b a) : Always b (S c) := by
  have := hS c
  rw [h] at this
  cases b
  · exact this.2 ha
  · exact this.1 ha

omit hS in
/-- All of them succeed, or the first that does not fails. -/
inductive AlwaysAll : Bool → List (τ → Res ε τ) → Prop
  | nil : AlwaysAll true []
  | cons {b b' : Bool} {f : τ → Res ε τ} {l : List (τ → Res ε τ)} (h : Always b f) (t : AlwaysAll b' l) :
    AlwaysAll (b && b') (f :: l)

omit hS in
theorem AlwaysAll.seqM {b : Bool} {l : List (τ → Res ε τ)} (h : AlwaysAll b l) : Always b (seqM l) := by
  induction h with
  | nil => exact fun s => ⟨s, rfl⟩
  | @cons b b' f l h t ih =>
    cases b with
    | false =>
      intro s
      obtain ⟨e, s', h⟩ := h s
      exact ⟨e, s', by simp [h]⟩
    | true =>
      simp only [Bool.true_and]
      cases b' with
      | false =>
        intro s
        obtain ⟨s1, h1⟩ := h s
        obtain ⟨e, s2, h2⟩ := ih s1
        exact ⟨e, s2, by simp [h1, h2]⟩
      | true =>
        intro s
        obtain ⟨s1, h1⟩ := h s
        obtain ⟨s2, h2⟩ := ih s1
        exact ⟨s2, by simp [h1, h2]⟩

theorem always_lossy {b : Bool} {x e : SCall ε τ} {l : List (τ → Res ε τ)} (hx : x.arg = Option.none) (he : e.arg = Option.none)
    (hl : AlwaysAll b l) : Always b (lossy custom S x l e) := by
  have h1 := hS.none hx
  have h2 := hS.none he
  have h3 := hl.seqM
  cases b with
  | false =>
    intro s
    obtain ⟨s1, h1⟩ := h1 s
    obtain ⟨y, s2, h3⟩ := h3 s1
    exact ⟨custom, s2, by simp [lossy, h1, h3, lose]⟩
  | true =>
    intro s
    obtain ⟨s1, h1⟩ := h1 s
    obtain ⟨s2, h3⟩ := h3 s1
    obtain ⟨s3, h2⟩ := h2 s2
    exact ⟨s3, by simp [lossy, h1, h3, lose, h2]⟩

omit hS in
theorem staticName_eq (m : Meta) : (staticName m).isSome = (m.label.isSome && nameable m.label) := by
  unfold staticName nameable
  cases m.label with
  | none => rfl
  | some l => by_cases h : l.backing = .static <;> simp [Label.asStaticStr, h]

omit hS in
theorem asStaticStr_eq (l : Label) : l.asStaticStr.isSome = decide (l.backing = .static) := by
  by_cases h : l.backing = .static <;> simp [Label.asStaticStr, h]

omit hS in
theorem variantOf_eq (m : Meta) : (variantOf m).isSome = variantOk m := by
  unfold variantOf variantOk staticName
  cases m.label with
  | none => simp
  | some l =>
    cases m.index with
    | none => simp
    | some i =>
      have h2 : (toU32 i).isSome = (decide (0 ≤ i.val) && decide (i.val < 4294967296)) := by
        unfold toU32
        rw [← Bool.decide_and]
        by_cases h : 0 ≤ i.val ∧ i.val < 4294967296
        · rw [if_pos h, decide_eq_true h]; rfl
        · rw [if_neg h, decide_eq_false h]; rfl
      have h1 := asStaticStr_eq l
      simp only [Option.bind_some, ← h1, ← h2]
      cases l.asStaticStr <;> cases toU32 i <;> rfl

theorem always_serV (v : V) : Always (serializable v) (serV custom S v) ∧
    ∀ name, Always (serializableVariant v) (serVariant custom S name v) := by
  have bad' : ∀ {b : Bool}, b = false → Always b (bad custom : τ → Res ε τ) := by rintro _ rfl; exact always_bad custom
  have tup : ∀ (k : (τ → Res ε τ) → SCall ε τ) (_ : ∀ a, (k a).arg = some a) (fs : List (Option Tag × Index × V))
      (_ : ∀ f ∈ fs, Always (serializable f.2.2) (serV custom S f.2.2)), AlwaysAll (serializableTup fs) (serVTup custom S k fs) := by
    intro k hk fs h
    induction fs with
    | nil => exact .nil
    | cons f fs ih => exact .cons (hS.some (hk _) (h f (.head _))) (ih fun y hy => h y (.tail _ hy))
  have field : ∀ (k : Option (Text → (τ → Res ε τ) → SCall ε τ)) (_ : ∀ k' l a, k = some k' → (k' l a).arg = some a) (l : Label) (v : V)
      (_ : Always (serializable v) (serV custom S v)),
      Always ((!k.isSome || decide (l.backing = .static)) && serializable v)
        (match k, l.asStaticStr with
          | Option.none, _ => S (.tupleElement (serV custom S v))
          | Option.some k, Option.some l => S (k l (serV custom S v))
          | Option.some _, Option.none => bad custom) := by
    intro k hk l v h
    cases k with
    | none => simpa using hS.some (c := .tupleElement (serV custom S v)) rfl h
    | some k =>
      have := asStaticStr_eq l
      cases hl : l.asStaticStr with
      | none => rw [hl] at this; simp only [← this]; exact bad' rfl
      | some l => rw [hl] at this; simp only [← this]; simpa using hS.some (hk k l _ rfl) h
  have recs : ∀ (k : Option (Text → (τ → Res ε τ) → SCall ε τ)) (_ : ∀ k' l a, k = some k' → (k' l a).arg = some a)
      (fs : List (Option Tag × Label × V)) (_ : ∀ f ∈ fs, Always (serializable f.2.2) (serV custom S f.2.2)),
      AlwaysAll (serializableRec k.isSome fs) (serVRec custom S k fs) := by
    intro k hk fs h
    induction fs with
    | nil => exact .nil
    | cons f fs ih => exact .cons (field k hk f.2.1 f.2.2 (h f (.head _))) (ih fun y hy => h y (.tail _ hy))
  have rts : ∀ (k : Option (Text → (τ → Res ε τ) → SCall ε τ)) (_ : ∀ k' l a, k = some k' → (k' l a).arg = some a)
      (fs : List (Option Tag × Label × Index × V)) (_ : ∀ f ∈ fs, Always (serializable f.2.2.2) (serV custom S f.2.2.2)),
      AlwaysAll (serializableRT k.isSome fs) (serVRT custom S k fs) := by
    intro k hk fs h
    induction fs with
    | nil => exact .nil
    | cons f fs ih => exact .cons (field k hk f.2.1 f.2.2.2 (h f (.head _))) (ih fun y hy => h y (.tail _ hy))
  induction v using V.ind with
  | null => exact ⟨hS.none rfl, fun _ => always_bad custom⟩
  | bool b => exact ⟨hS.none rfl, fun _ => always_bad custom⟩
  | int t v => exact ⟨hS.none rfl, fun _ => always_bad custom⟩
  | f32 b => exact ⟨hS.none rfl, fun _ => always_bad custom⟩
  | f64 b => exact ⟨hS.none rfl, fun _ => always_bad custom⟩
  | text n fs => exact ⟨hS.none rfl, fun _ => always_bad custom⟩
  | binary n fs => exact ⟨hS.none rfl, fun _ => always_bad custom⟩
  | tag m =>
    refine ⟨?_, fun name => ?_⟩
    · simp only [serializable, serV, ← staticName_eq]
      split
      · rename_i h; simp only [h, decide_true, Bool.true_or]; exact hS.none rfl
      · rename_i h
        split
        · rename_i h'; simp only [h', decide_true, Bool.true_or, Bool.or_true]; exact hS.none rfl
        · rename_i h'
          simp only [h, h', decide_false, Bool.false_or]
          cases staticName m with
          | none => exact always_bad custom
          | some n => exact hS.none rfl
    · simp only [serializableVariant, serVariant, ← variantOf_eq]
      cases variantOf m with
      | none => exact always_bad custom
      | some p => exact hS.none rfl
  | tagged m v ih =>
    refine ⟨?_, fun name => ?_⟩
    · simp only [serializable, serV, ← staticName_eq]
      split
      · rename_i h; simp only [h, decide_true, Bool.true_or, Bool.true_and]; exact hS.some rfl ih.1
      · rename_i h
        simp only [h, decide_false, Bool.false_or]
        cases staticName m with
        | none => exact always_bad custom
        | some n => simpa using hS.some (c := .newtypeStruct n (serV custom S v)) rfl ih.1
    · simp only [serializableVariant, serVariant, ← variantOf_eq]
      cases variantOf m with
      | none => exact always_bad custom
      | some p => simpa using hS.some (c := .newtypeVariant name p.1 p.2 (serV custom S v)) rfl ih.1
  | seq n xs ih =>
    refine ⟨always_lossy hS rfl rfl ?_, fun _ => always_bad custom⟩
    induction xs with
    | nil => exact .nil
    | cons x xs ih' => exact .cons (hS.some rfl (ih x (.head _)).1) (ih' fun y hy => ih y (.tail _ hy))
  | map n xs ih =>
    refine ⟨always_lossy hS rfl rfl ?_, fun _ => always_bad custom⟩
    induction xs with
    | nil => exact .nil
    | cons x xs ih' =>
      have e : serializable (.map n (x :: xs)) = (serializable x.1 && (serializable x.2 && serializableMap xs)) := Bool.and_assoc ..
      rw [e]
      exact .cons (hS.some rfl (ih x (.head _)).1.1) (.cons (hS.some rfl (ih x (.head _)).2.1) (ih' fun y hy => ih y (.tail _ hy)))
  | tuple m n fs ih =>
    refine ⟨?_, fun name => ?_⟩
    · simp only [serializable, serV]
      cases n with
      | none => exact always_bad custom
      | some n =>
        cases hl : m.label with
        | none => simpa [nameable] using always_lossy hS rfl rfl (tup .tupleElement (fun _ => rfl) fs fun f hf => (ih f hf).1)
        | some l =>
          simp only [nameable, ← asStaticStr_eq]
          cases l.asStaticStr with
          | none => exact always_bad custom
          | some l => simpa using always_lossy (custom := custom) (x := .tupleStruct l n) hS rfl rfl (tup .tupleStructField (fun _ => rfl) fs fun f hf => (ih f hf).1)
    · simp only [serializableVariant, serVariant, ← variantOf_eq]
      cases variantOf m with
      | none => exact always_bad custom
      | some p =>
        cases n with
        | none => exact always_bad custom
        | some n => simpa using always_lossy (custom := custom) (x := .tupleVariant name p.1 p.2 n) hS rfl rfl (tup .tupleVariantField (fun _ => rfl) fs fun f hf => (ih f hf).1)
  | record m n fs ih =>
    refine ⟨?_, fun name => ?_⟩
    · simp only [serializable, serV]
      cases n with
      | none => exact always_bad custom
      | some n =>
        cases hl : m.label with
        | none => simpa [nameable] using always_lossy (custom := custom) (x := .tuple n) (e := .tupleEnd) hS rfl rfl (recs none (by simp) fs fun f hf => (ih f hf).1)
        | some l =>
          simp only [nameable, ← asStaticStr_eq]
          cases l.asStaticStr with
          | none => exact always_bad custom
          | some l =>
            simpa using always_lossy (custom := custom) (x := .struct l n) (e := .structEnd) hS rfl rfl
              (recs (some .structField) (by rintro _ l a h; cases h; rfl) fs fun f hf => (ih f hf).1)
    · simp only [serializableVariant, serVariant, ← variantOf_eq]
      cases variantOf m with
      | none => exact always_bad custom
      | some p =>
        cases n with
        | none => exact always_bad custom
        | some n =>
          simpa using always_lossy (custom := custom) (x := .structVariant name p.1 p.2 n) (e := .structVariantEnd) hS rfl rfl
              (recs (some .structVariantField) (by rintro _ l a h; cases h; rfl) fs fun f hf => (ih f hf).1)
  | recordTuple m n fs ih =>
    refine ⟨?_, fun name => ?_⟩
    · simp only [serializable, serV]
      cases n with
      | none => exact always_bad custom
      | some n =>
        cases hl : m.label with
        | none => simpa [nameable] using always_lossy (custom := custom) (x := .tuple n) (e := .tupleEnd) hS rfl rfl (rts none (by simp) fs fun f hf => (ih f hf).1)
        | some l =>
          simp only [nameable, ← asStaticStr_eq]
          cases l.asStaticStr with
          | none => exact always_bad custom
          | some l =>
            simpa using always_lossy (custom := custom) (x := .struct l n) (e := .structEnd) hS rfl rfl
              (rts (some .structField) (by rintro _ l a h; cases h; rfl) fs fun f hf => (ih f hf).1)
    · simp only [serializableVariant, serVariant, ← variantOf_eq]
      cases variantOf m with
      | none => exact always_bad custom
      | some p =>
        cases n with
        | none => exact always_bad custom
        | some n =>
          simpa using always_lossy (custom := custom) (x := .structVariant name p.1 p.2 n) (e := .structVariantEnd) hS rfl rfl
              (rts (some .structVariantField) (by rintro _ l a h; cases h; rfl) fs fun f hf => (ih f hf).1)
  | enum m v ih =>
    refine ⟨?_, fun name => always_bad custom⟩
    simp only [serializable, serV, ← staticName_eq]
    cases staticName m with
    | none => exact always_bad custom
    | some n => simpa using ih.2 n
  | hint t v ih => exact ih

end

end Sval.Serde
