import Verif.Serde.Same
import Verif.Serde.Doc

set_option autoImplicit false

/-!
# The serde value that a value is

A specification: `svOf v`. It does not exist for values that serde cannot represent.
-/

namespace Sval.Serde

open Json (J Env numOf consO pairO)

mutual
def svOf : V → Option SV
  | .null => some .none
  | .bool b => some (.bool b)
  | .int t v => some (.int t v)
  | .f32 b => some (.f32 b)
  | .f64 b => some (.f64 b)
  | .text _ fs => some (.str (fs.map Frag.content).flatten)
  | .binary _ fs => some (.bytes (fs.map Frag.content).flatten)
  | .tag m =>
    if m.tag = some tags.RUST_OPTION_NONE then some .none
    else if m.tag = some tags.RUST_UNIT then some .unit
    else (staticName m).map .unitStruct
  | .tagged m v =>
    if m.tag = some tags.RUST_OPTION_SOME then (svOf v).map .some
    else (staticName m).bind fun name => (svOf v).map (.newtypeStruct name)
  | .seq len xs => (svsOf xs).map (.seq len)
  | .map len kvs => (svMap kvs).map (.map len)
  | .tuple m len fs => len.bind fun len =>
    match m.label with
    | none => (svTup fs).map (.tuple len)
    | some l => l.asStaticStr.bind fun name => (svTup fs).map (.tupleStruct name len)
  | .record m len fs => len.bind fun len =>
    match m.label with
    -- serde has no records without a name
    | none => (svVals fs).map (.tuple len)
    | some l => l.asStaticStr.bind fun name => (svRec fs).map (.struct name len)
  | .recordTuple m len fs => len.bind fun len =>
    match m.label with
    | none => (svValsRT fs).map (.tuple len)
    | some l => l.asStaticStr.bind fun name => (svRT fs).map (.struct name len)
  | .enum m v => (staticName m).bind fun name => svVariant name v
  | .hint _ v => svOf v
def svVariant (name : Text) : V → Option SV
  | .tag m => (variantOf m).map fun v => .unitVariant name v.1 v.2
  | .tagged m x => (variantOf m).bind fun v => (svOf x).map (.newtypeVariant name v.1 v.2)
  | .tuple m len fs => (variantOf m).bind fun v => len.bind fun len => (svTup fs).map (.tupleVariant name v.1 v.2 len)
  | .record m len fs => (variantOf m).bind fun v => len.bind fun len => (svRec fs).map (.structVariant name v.1 v.2 len)
  | .recordTuple m len fs => (variantOf m).bind fun v => len.bind fun len => (svRT fs).map (.structVariant name v.1 v.2 len)
  | .hint _ v => svVariant name v
  | _ => none
def svsOf : List V → Option (List SV)
  | [] => some []
  | x :: xs => consO (svOf x) (svsOf xs)
def svMap : List (V × V) → Option (List (SV × SV))
  | [] => some []
  | (k, v) :: r => consO ((svOf k).bind fun k => (svOf v).map (k, ·)) (svMap r)
def svTup : List (Option Tag × Index × V) → Option (List SV)
  | [] => some []
  | (_, _, v) :: r => consO (svOf v) (svTup r)
def svVals : List (Option Tag × Label × V) → Option (List SV)
  | [] => some []
  | (_, _, v) :: r => consO (svOf v) (svVals r)
def svValsRT : List (Option Tag × Label × Index × V) → Option (List SV)
  | [] => some []
  | (_, _, _, v) :: r => consO (svOf v) (svValsRT r)
def svRec : List (Option Tag × Label × V) → Option (List (Text × SV))
  | [] => some []
  | (_, l, v) :: r => consO (l.asStaticStr.bind fun l => (svOf v).map (l, ·)) (svRec r)
def svRT : List (Option Tag × Label × Index × V) → Option (List (Text × SV))
  | [] => some []
  | (_, l, _, v) :: r => consO (l.asStaticStr.bind fun l => (svOf v).map (l, ·)) (svRT r)
end

theorem consO_some {α : Type} {x : Option α} {y : Option (List α)} {zs : List α} (h : consO x y = some zs) :
    ∃ a ys, x = some a ∧ y = some ys ∧ zs = a :: ys := by
  cases x <;> cases y <;> simp [consO] at h
  exact ⟨_, _, rfl, rfl, h.symm⟩

theorem bindMap_some {α β γ : Type} {x : Option α} {y : Option β} {f : α → β → γ} {z : γ}
    (h : (x.bind fun a => y.map (f a)) = some z) : ∃ a b, x = some a ∧ y = some b ∧ z = f a b := by
  cases x <;> cases y <;> simp at h
  exact ⟨_, _, rfl, rfl, h.symm⟩

section
variable {τ : Type} (S : SCall Unit τ → τ → Res Unit τ)

def Calls (v : V) : Prop :=
  (∀ x, svOf v = some x → serV () S v = ser S x) ∧ ∀ name x, svVariant name v = some x → serVariant () S name v = ser S x

theorem serVs_eq (xs : List V) (h : ∀ x ∈ xs, Calls S x) (ys : List SV) (e : svsOf xs = some ys) :
    serVs () S xs = serElems S .seqElement ys := by
  induction xs generalizing ys with
  | nil => cases e; rfl
  | cons x xs ih =>
    obtain ⟨a, ys, e1, e2, rfl⟩ := consO_some e
    rw [serVs, serElems, (h x (.head _)).1 _ e1, ih (fun y hy => h y (.tail _ hy)) _ e2]

theorem serVMap_eq (xs : List (V × V)) (h : ∀ x ∈ xs, Calls S x.1 ∧ Calls S x.2) (ys : List (SV × SV)) (e : svMap xs = some ys) :
    serVMap () S xs = serEntries S ys := by
  induction xs generalizing ys with
  | nil => cases e; rfl
  | cons x xs ih =>
    obtain ⟨k, v⟩ := x
    obtain ⟨a, ys, e1, e2, rfl⟩ := consO_some e
    obtain ⟨a, b, e3, e4, rfl⟩ := bindMap_some e1
    rw [serVMap, serEntries, (h (k, v) (.head _)).1.1 _ e3, (h (k, v) (.head _)).2.1 _ e4, ih (fun y hy => h y (.tail _ hy)) _ e2]

theorem serVTup_eq (c : (τ → Res Unit τ) → SCall Unit τ) (xs : List (Option Tag × Index × V)) (h : ∀ x ∈ xs, Calls S x.2.2) (ys : List SV)
    (e : svTup xs = some ys) : serVTup () S c xs = serElems S c ys := by
  induction xs generalizing ys with
  | nil => cases e; rfl
  | cons x xs ih =>
    obtain ⟨a, ys, e1, e2, rfl⟩ := consO_some e
    rw [serVTup, serElems, (h x (.head _)).1 _ e1, ih (fun y hy => h y (.tail _ hy)) _ e2]

theorem serVRec_none (xs : List (Option Tag × Label × V)) (h : ∀ x ∈ xs, Calls S x.2.2) (ys : List SV)
    (e : svVals xs = some ys) : serVRec () S none xs = serElems S .tupleElement ys := by
  induction xs generalizing ys with
  | nil => cases e; rfl
  | cons x xs ih =>
    obtain ⟨a, ys, e1, e2, rfl⟩ := consO_some e
    rw [serVRec, serElems, (h x (.head _)).1 _ e1, ih (fun y hy => h y (.tail _ hy)) _ e2]

theorem serVRT_none (xs : List (Option Tag × Label × Index × V)) (h : ∀ x ∈ xs, Calls S x.2.2.2) (ys : List SV)
    (e : svValsRT xs = some ys) : serVRT () S none xs = serElems S .tupleElement ys := by
  induction xs generalizing ys with
  | nil => cases e; rfl
  | cons x xs ih =>
    obtain ⟨a, ys, e1, e2, rfl⟩ := consO_some e
    rw [serVRT, serElems, (h x (.head _)).1 _ e1, ih (fun y hy => h y (.tail _ hy)) _ e2]

theorem serVRec_some (c : Text → (τ → Res Unit τ) → SCall Unit τ) (xs : List (Option Tag × Label × V)) (h : ∀ x ∈ xs, Calls S x.2.2)
    (ys : List (Text × SV)) (e : svRec xs = some ys) : serVRec () S (some c) xs = serFields S c ys := by
  induction xs generalizing ys with
  | nil => cases e; rfl
  | cons x xs ih =>
    obtain ⟨t, l, v⟩ := x
    obtain ⟨a, ys, e1, e2, rfl⟩ := consO_some e
    obtain ⟨a, b, e3, e4, rfl⟩ := bindMap_some e1
    simp only [serVRec, serFields, e3, (h (t, l, v) (.head _)).1 _ e4, ih (fun y hy => h y (.tail _ hy)) _ e2]

theorem serVRT_some (c : Text → (τ → Res Unit τ) → SCall Unit τ) (xs : List (Option Tag × Label × Index × V)) (h : ∀ x ∈ xs, Calls S x.2.2.2)
    (ys : List (Text × SV)) (e : svRT xs = some ys) : serVRT () S (some c) xs = serFields S c ys := by
  induction xs generalizing ys with
  | nil => cases e; rfl
  | cons x xs ih =>
    obtain ⟨t, l, i, v⟩ := x
    obtain ⟨a, ys, e1, e2, rfl⟩ := consO_some e
    obtain ⟨a, b, e3, e4, rfl⟩ := bindMap_some e1
    simp only [serVRT, serFields, e3, (h (t, l, i, v) (.head _)).1 _ e4, ih (fun y hy => h y (.tail _ hy)) _ e2]

/-- The calls for a value are those of its serde value. -/
theorem serV_svOf (v : V) : Calls S v := by
  induction v using V.ind
  case null => exact ⟨fun x h => by cases h; rfl, nofun⟩
  case bool b => exact ⟨fun x h => by cases h; rfl, nofun⟩
  case int t v => exact ⟨fun x h => by cases h; rfl, nofun⟩
  case f32 b => exact ⟨fun x h => by cases h; rfl, nofun⟩
  case f64 b => exact ⟨fun x h => by cases h; rfl, nofun⟩
  case text n fs => exact ⟨fun x h => by cases h; rfl, nofun⟩
  case binary n fs => exact ⟨fun x h => by cases h; rfl, nofun⟩
  case seq n xs ih =>
    refine ⟨fun x h => ?_, nofun⟩
    obtain ⟨ys, e, rfl⟩ := Option.map_eq_some_iff.mp h
    rw [serV, ser, lossy_unit, serVs_eq S xs ih ys e]
  case map n xs ih =>
    refine ⟨fun x h => ?_, nofun⟩
    obtain ⟨ys, e, rfl⟩ := Option.map_eq_some_iff.mp h
    rw [serV, ser, lossy_unit, serVMap_eq S xs ih ys e]
  case tag m =>
    refine ⟨fun x h => ?_, fun name x h => ?_⟩
    · rw [svOf] at h
      rw [serV]
      split at h
      · rename_i h1; cases h; simp only [h1, if_true]; rfl
      · rename_i h1
        split at h
        · rename_i h2; cases h; simp only [h2, if_true]; rfl
        · rename_i h2
          obtain ⟨name, e, rfl⟩ := Option.map_eq_some_iff.mp h
          simp only [h1, h2, if_false, e]; rfl
    · obtain ⟨w, e, rfl⟩ := Option.map_eq_some_iff.mp h
      rw [serVariant, e, ser]
  case tagged m v ih =>
    refine ⟨fun x h => ?_, fun name x h => ?_⟩
    · rw [svOf] at h
      rw [serV]
      split at h
      · rename_i h1
        obtain ⟨y, e, rfl⟩ := Option.map_eq_some_iff.mp h
        simp only [h1, if_true, ih.1 _ e]; rfl
      · rename_i h1
        obtain ⟨name, y, e1, e2, rfl⟩ := bindMap_some h
        simp only [h1, if_false, e1, ih.1 _ e2]; rfl
    · obtain ⟨w, y, e1, e2, rfl⟩ := bindMap_some h
      rw [serVariant, e1, ser]
      simp only [ih.1 _ e2]
  case enum m v ih =>
    refine ⟨fun x h => ?_, nofun⟩
    rw [svOf] at h
    obtain ⟨name, e, h⟩ := Option.bind_eq_some_iff.mp h
    rw [serV, e]
    exact ih.2 _ _ h
  case record m n fs ih =>
    refine ⟨fun x h => ?_, fun name x h => ?_⟩
    · rw [svOf] at h
      obtain ⟨len, rfl, h⟩ := Option.bind_eq_some_iff.mp h
      cases hl : m.label with
      | none =>
        simp only [hl] at h
        obtain ⟨ys, e, rfl⟩ := Option.map_eq_some_iff.mp h
        simp only [serV, hl, ser, lossy_unit, serVRec_none S fs ih ys e]
      | some l =>
        simp only [hl] at h
        obtain ⟨name, ys, e1, e2, rfl⟩ := bindMap_some h
        simp only [serV, hl, e1, ser, lossy_unit, serVRec_some S _ fs ih ys e2]
    · obtain ⟨w, e, h⟩ := Option.bind_eq_some_iff.mp h
      obtain ⟨len, ys, rfl, e2, rfl⟩ := bindMap_some h
      simp only [serVariant, e, ser, lossy_unit, serVRec_some S _ fs ih ys e2]
  case tuple m n fs ih =>
    refine ⟨fun x h => ?_, fun name x h => ?_⟩
    · rw [svOf] at h
      obtain ⟨len, rfl, h⟩ := Option.bind_eq_some_iff.mp h
      cases hl : m.label with
      | none =>
        simp only [hl] at h
        obtain ⟨ys, e, rfl⟩ := Option.map_eq_some_iff.mp h
        simp only [serV, hl, ser, lossy_unit, serVTup_eq S _ fs ih ys e]
      | some l =>
        simp only [hl] at h
        obtain ⟨name, ys, e1, e2, rfl⟩ := bindMap_some h
        simp only [serV, hl, e1, ser, lossy_unit, serVTup_eq S _ fs ih ys e2]
    · obtain ⟨w, e, h⟩ := Option.bind_eq_some_iff.mp h
      obtain ⟨len, ys, rfl, e2, rfl⟩ := bindMap_some h
      simp only [serVariant, e, ser, lossy_unit, serVTup_eq S _ fs ih ys e2]
  case recordTuple m n fs ih =>
    refine ⟨fun x h => ?_, fun name x h => ?_⟩
    · rw [svOf] at h
      obtain ⟨len, rfl, h⟩ := Option.bind_eq_some_iff.mp h
      cases hl : m.label with
      | none =>
        simp only [hl] at h
        obtain ⟨ys, e, rfl⟩ := Option.map_eq_some_iff.mp h
        simp only [serV, hl, ser, lossy_unit, serVRT_none S fs ih ys e]
      | some l =>
        simp only [hl] at h
        obtain ⟨name, ys, e1, e2, rfl⟩ := bindMap_some h
        simp only [serV, hl, e1, ser, lossy_unit, serVRT_some S _ fs ih ys e2]
    · obtain ⟨w, e, h⟩ := Option.bind_eq_some_iff.mp h
      obtain ⟨len, ys, rfl, e2, rfl⟩ := bindMap_some h
      simp only [serVariant, e, ser, lossy_unit, serVRT_some S _ fs ih ys e2]
  case hint n v ih => exact ⟨fun x h => ih.1 x h, fun name x h => ih.2 name x h⟩
end

/-! ## Which values have one -/

theorem consO_isSome {α : Type} (x : Option α) (y : Option (List α)) : (consO x y).isSome = (x.isSome && y.isSome) := by
  cases x <;> cases y <;> rfl

theorem bindMap_isSome {α β γ : Type} (x : Option α) (y : Option β) (f : α → β → γ) :
    (x.bind fun a => y.map (f a)).isSome = (x.isSome && y.isSome) := by
  cases x <;> cases y <;> rfl

theorem asStaticStr_isSome (l : Label) : l.asStaticStr.isSome = decide (l.backing = .static) := by
  unfold Label.asStaticStr
  split <;> simp_all

theorem staticName_isSome (m : Meta) : (staticName m).isSome = (m.label.isSome && nameable m.label) := by
  unfold staticName
  cases h : m.label with
  | none => rfl
  | some l => simpa [nameable] using asStaticStr_isSome l

theorem svOf_isSome (v : V) : (svOf v).isSome = serializable v ∧ ∀ name, (svVariant name v).isSome = serializableVariant v := by
  have recs : ∀ fs : List (Option Tag × Label × V), (∀ f ∈ fs, (svOf f.2.2).isSome = serializable f.2.2) →
      (svVals fs).isSome = serializableRec false fs ∧ (svRec fs).isSome = serializableRec true fs := by
    intro fs h
    induction fs with
    | nil => exact ⟨rfl, rfl⟩
    | cons f fs ih =>
      obtain ⟨t, l, v⟩ := f
      have ih := ih fun g hg => h g (.tail _ hg)
      have h0 := h (t, l, v) (.head _)
      simp only at h0
      simp only [svVals, svRec, serializableRec, consO_isSome, bindMap_isSome, asStaticStr_isSome, h0, ih.1, ih.2, Bool.not_false,
        Bool.not_true, Bool.true_or, Bool.false_or, Bool.true_and, Bool.and_assoc, and_self]
  have rts : ∀ fs : List (Option Tag × Label × Index × V), (∀ f ∈ fs, (svOf f.2.2.2).isSome = serializable f.2.2.2) →
      (svValsRT fs).isSome = serializableRT false fs ∧ (svRT fs).isSome = serializableRT true fs := by
    intro fs h
    induction fs with
    | nil => exact ⟨rfl, rfl⟩
    | cons f fs ih =>
      obtain ⟨t, l, i, v⟩ := f
      have ih := ih fun g hg => h g (.tail _ hg)
      have h0 := h (t, l, i, v) (.head _)
      simp only at h0
      simp only [svValsRT, svRT, serializableRT, consO_isSome, bindMap_isSome, asStaticStr_isSome, h0, ih.1, ih.2, Bool.not_false,
        Bool.not_true, Bool.true_or, Bool.false_or, Bool.true_and, Bool.and_assoc, and_self]
  have tups : ∀ fs : List (Option Tag × Index × V), (∀ f ∈ fs, (svOf f.2.2).isSome = serializable f.2.2) →
      (svTup fs).isSome = serializableTup fs := by
    intro fs h
    induction fs with
    | nil => rfl
    | cons f fs ih =>
      obtain ⟨t, i, v⟩ := f
      have h0 := h (t, i, v) (.head _)
      simp only at h0
      simp only [svTup, serializableTup, consO_isSome, h0, ih fun g hg => h g (.tail _ hg)]
  have hv : ∀ m, (variantOf m).isSome = variantOk m := by
    intro m
    unfold variantOf variantOk staticName
    cases m.label with
    | none => rfl
    | some l =>
      cases m.index with
      | none => simp only [Option.bind_some, Option.bind_none]; cases l.asStaticStr <;> rfl
      | some i =>
        simp only [Option.bind_some, ← asStaticStr_isSome, toU32]
        cases l.asStaticStr with
        | none => rfl
        | some t =>
          rw [← Bool.decide_and]
          by_cases hk : 0 ≤ i.val ∧ i.val < 4294967296 <;> simp [hk]
  induction v using V.ind
  case null => exact ⟨rfl, fun _ => rfl⟩
  case bool b => exact ⟨rfl, fun _ => rfl⟩
  case int t v => exact ⟨rfl, fun _ => rfl⟩
  case f32 b => exact ⟨rfl, fun _ => rfl⟩
  case f64 b => exact ⟨rfl, fun _ => rfl⟩
  case text n fs => exact ⟨rfl, fun _ => rfl⟩
  case binary n fs => exact ⟨rfl, fun _ => rfl⟩
  case seq n xs ih =>
    refine ⟨?_, fun _ => rfl⟩
    rw [svOf, Option.isSome_map, serializable]
    induction xs with
    | nil => rfl
    | cons x xs ih' =>
      rw [svsOf, serializables, consO_isSome, (ih x (.head _)).1, ih' fun y hy => ih y (.tail _ hy)]
  case map n xs ih =>
    refine ⟨?_, fun _ => rfl⟩
    rw [svOf, Option.isSome_map, serializable]
    induction xs with
    | nil => rfl
    | cons x xs ih' =>
      obtain ⟨k, v⟩ := x
      have h := ih (k, v) (.head _)
      rw [svMap, serializableMap, consO_isSome, bindMap_isSome, h.1.1, h.2.1, ih' fun y hy => ih y (.tail _ hy)]
  case tag m =>
    refine ⟨?_, fun name => ?_⟩
    · rw [svOf, serializable, ← staticName_isSome]
      by_cases h1 : m.tag = some tags.RUST_OPTION_NONE
      · simp [h1]
      · by_cases h2 : m.tag = some tags.RUST_UNIT
        · simp only [h2]; simp; split <;> rfl
        · simp [h1, h2]
    · rw [svVariant, Option.isSome_map, hv]; rfl
  case tagged m v ih =>
    refine ⟨?_, fun name => ?_⟩
    · rw [svOf, serializable, ← staticName_isSome, ← ih.1]
      by_cases h1 : m.tag = some tags.RUST_OPTION_SOME
      · simp [h1]
      · simp [h1, bindMap_isSome]
    · rw [svVariant, bindMap_isSome, hv, ih.1]; rfl
  case enum m v ih =>
    refine ⟨?_, fun _ => rfl⟩
    rw [svOf, serializable, ← staticName_isSome]
    cases staticName m with
    | none => rfl
    | some name => simpa using ih.2 name
  case record m n fs ih =>
    have h := recs fs fun f hf => (ih f hf).1
    refine ⟨?_, fun name => ?_⟩
    · rw [svOf, serializable]
      cases n with
      | none => rfl
      | some n =>
        cases hl : m.label with
        | none => simpa [nameable] using h.1
        | some l => simp [bindMap_isSome, asStaticStr_isSome, h.2, nameable]
    · rw [svVariant, serializableVariant, ← hv]
      cases variantOf m with
      | none => rfl
      | some w => simp [bindMap_isSome, h.2]
  case tuple m n fs ih =>
    have h := tups fs fun f hf => (ih f hf).1
    refine ⟨?_, fun name => ?_⟩
    · rw [svOf, serializable]
      cases n with
      | none => rfl
      | some n =>
        cases hl : m.label with
        | none => simpa [nameable] using h
        | some l => simp [bindMap_isSome, asStaticStr_isSome, h, nameable]
    · rw [svVariant, serializableVariant, ← hv]
      cases variantOf m with
      | none => rfl
      | some w => simp [bindMap_isSome, h]
  case recordTuple m n fs ih =>
    have h := rts fs fun f hf => (ih f hf).1
    refine ⟨?_, fun name => ?_⟩
    · rw [svOf, serializable]
      cases n with
      | none => rfl
      | some n =>
        cases hl : m.label with
        | none => simpa [nameable] using h.1
        | some l => simp [bindMap_isSome, asStaticStr_isSome, h.2, nameable]
    · rw [svVariant, serializableVariant, ← hv]
      cases variantOf m with
      | none => rfl
      | some w => simp [bindMap_isSome, h.2]
  case hint n v ih => exact ⟨ih.1, ih.2⟩

/-! ## Documents -/

mutual
/-- Values of which serde gets all that sval_json writes:
* a tag for `()` has no label and no index,
* what is tagged `Some` has a label or an index, and no number or JSON is tagged,
* records have names,
* variants are not tagged `None`. -/
def alike : V → Bool
  | .tag m => m.tag != some tags.RUST_UNIT || m.label.isNone && m.index.isNone
  | .tagged m v => (Json.idOf m).isSome && !Json.isSpecialTag m.tag && alike v
  | .seq _ xs => alikes xs
  | .map _ kvs => alikeMap kvs
  | .tuple _ _ fs => alikeTup fs
  | .record m _ fs => m.label.isSome && alikeRec fs
  | .recordTuple m _ fs => m.label.isSome && alikeRT fs
  | .enum _ v => alikeVariant v
  | .hint _ v => alike v
  | _ => true
def alikeVariant : V → Bool
  | .tag m => m.tag != some tags.RUST_OPTION_NONE
  | .tagged m v => !Json.isSpecialTag m.tag && alike v
  | .tuple _ _ fs => alikeTup fs
  | .record _ _ fs => alikeRec fs
  | .recordTuple _ _ fs => alikeRT fs
  | .hint _ v => alikeVariant v
  | _ => true
def alikes : List V → Bool
  | [] => true
  | x :: xs => alike x && alikes xs
def alikeMap : List (V × V) → Bool
  | [] => true
  | (k, v) :: r => alike k && alike v && alikeMap r
def alikeTup : List (Option Tag × Index × V) → Bool
  | [] => true
  | (_, _, v) :: r => alike v && alikeTup r
def alikeRec : List (Option Tag × Label × V) → Bool
  | [] => true
  | (_, _, v) :: r => alike v && alikeRec r
def alikeRT : List (Option Tag × Label × Index × V) → Bool
  | [] => true
  | (_, _, _, v) :: r => alike v && alikeRT r
end

theorem asStaticStr_some {l : Label} {t : Text} (h : l.asStaticStr = some t) : t = l.text := by
  unfold Label.asStaticStr at h
  split at h
  · exact (Option.some.inj h).symm
  · cases h

theorem labelText_some {l : Label} {t : Text} (h : Json.labelText l = some t) : t = l.text := by
  unfold Json.labelText at h
  split at h
  · cases h
  · exact (Option.some.inj h).symm

theorem staticName_some {m : Meta} {t : Text} (h : staticName m = some t) : ∃ l, m.label = some l ∧ l.text = t := by
  obtain ⟨l, h1, h2⟩ := Option.bind_eq_some_iff.mp h
  exact ⟨l, h1, (asStaticStr_some h2).symm⟩

theorem variantOf_some {m : Meta} {w : UInt32 × Text} (h : variantOf m = some w) : ∃ l, m.label = some l ∧ l.text = w.2 := by
  unfold variantOf at h
  cases h1 : staticName m with
  | none => simp [h1] at h
  | some t =>
    cases h2 : m.index.bind toU32 with
    | none => simp [h1, h2] at h
    | some i =>
      simp [h1, h2] at h
      subst h
      exact staticName_some h1

theorem wrap_some {m : Meta} {l : Label} (h : m.label = some l) (j : J) : Json.wrap m j = .obj [(l.text, j)] := by
  simp [Json.wrap, Json.idOf, h]

section
variable (env : Env)

/-- A value's document is that of its serde value, and likewise for keys. -/
structure Alike (v : V) : Prop where
  value : alike v = true → ∀ x, svOf v = some x → ∀ j, Json.value env v = some j → doc env .str x = some j
  variant : alikeVariant v = true → ∀ name x, svVariant name v = some x → ∀ j, Json.variant env v = some j → doc env .str x = some j
  key : alike v = true → ∀ x, svOf v = some x → ∀ t, Json.keyText env v = some t → docKey env x = some t
  keyVariant : alikeVariant v = true → ∀ name x, svVariant name v = some x → ∀ t, Json.keyVariant env v = some t → docKey env x = some t

theorem docs_tup (fs : List (Option Tag × Index × V)) (h : ∀ f ∈ fs, Alike env f.2.2) (ha : alikeTup fs = true) (xs : List SV)
    (e : svTup fs = some xs) (js : List J) (hj : Json.items env fs = some js) : docs env .str xs = some js := by
  induction fs generalizing xs js with
  | nil => cases e; cases hj; rfl
  | cons f fs ih =>
    obtain ⟨a, ys, e1, e2, rfl⟩ := consO_some e
    obtain ⟨b, ks, e3, e4, rfl⟩ := consO_some hj
    rw [alikeTup, Bool.and_eq_true] at ha
    rw [docs, (h f (.head _)).value ha.1 _ e1 _ e3, ih (fun g hg => h g (.tail _ hg)) ha.2 _ e2 _ e4]
    rfl

theorem docs_rec (fs : List (Option Tag × Label × V)) (h : ∀ f ∈ fs, Alike env f.2.2) (ha : alikeRec fs = true) (xs : List (Text × SV))
    (e : svRec fs = some xs) (js : List (Text × J)) (hj : Json.fields env fs = some js) : docRec env .str xs = some js := by
  induction fs generalizing xs js with
  | nil => cases e; cases hj; rfl
  | cons f fs ih =>
    obtain ⟨t, l, v⟩ := f
    obtain ⟨a, ys, e1, e2, rfl⟩ := consO_some e
    obtain ⟨a, y, e5, e6, rfl⟩ := bindMap_some e1
    obtain ⟨b, ks, e3, e4, rfl⟩ := consO_some hj
    obtain ⟨k, j, e7, e8, rfl⟩ := bindMap_some e3
    rw [alikeRec, Bool.and_eq_true] at ha
    rw [docRec, (h (t, l, v) (.head _)).value ha.1 _ e6 _ e8, ih (fun g hg => h g (.tail _ hg)) ha.2 _ e2 _ e4,
      asStaticStr_some e5, labelText_some e7]
    rfl

theorem docs_rt (fs : List (Option Tag × Label × Index × V)) (h : ∀ f ∈ fs, Alike env f.2.2.2) (ha : alikeRT fs = true) (xs : List (Text × SV))
    (e : svRT fs = some xs) (js : List (Text × J)) (hj : Json.fieldsRT env fs = some js) : docRec env .str xs = some js := by
  induction fs generalizing xs js with
  | nil => cases e; cases hj; rfl
  | cons f fs ih =>
    obtain ⟨t, l, i, v⟩ := f
    obtain ⟨a, ys, e1, e2, rfl⟩ := consO_some e
    obtain ⟨a, y, e5, e6, rfl⟩ := bindMap_some e1
    obtain ⟨b, ks, e3, e4, rfl⟩ := consO_some hj
    obtain ⟨k, j, e7, e8, rfl⟩ := bindMap_some e3
    rw [alikeRT, Bool.and_eq_true] at ha
    rw [docRec, (h (t, l, i, v) (.head _)).value ha.1 _ e6 _ e8, ih (fun g hg => h g (.tail _ hg)) ha.2 _ e2 _ e4,
      asStaticStr_some e5, labelText_some e7]
    rfl

theorem alike_svOf (v : V) : Alike env v := by
  have scalar : ∀ v : V, (∀ name, svVariant name v = none) →
      (∀ x, svOf v = some x → ∀ j, Json.value env v = some j → doc env .str x = some j) →
      (∀ x, svOf v = some x → ∀ t, Json.keyText env v = some t → docKey env x = some t) → Alike env v := by
    intro v h1 h2 h3
    exact ⟨fun _ => h2, fun _ name x h => (by rw [h1] at h; cases h), fun _ => h3, fun _ name x h => (by rw [h1] at h; cases h)⟩
  induction v using V.ind
  case null => exact scalar _ (fun _ => rfl) (fun x h j hj => by cases h; exact hj) (fun x h j hj => by cases h; exact hj)
  case bool b => exact scalar _ (fun _ => rfl) (fun x h j hj => by cases h; exact hj) (fun x h j hj => by cases h; exact hj)
  case int t v => exact scalar _ (fun _ => rfl) (fun x h j hj => by cases h; exact hj) (fun x h j hj => by cases h; exact hj)
  case f32 b => exact scalar _ (fun _ => rfl) (fun x h j hj => by cases h; exact hj) (fun x h j hj => by cases h; exact hj)
  case f64 b => exact scalar _ (fun _ => rfl) (fun x h j hj => by cases h; exact hj) (fun x h j hj => by cases h; exact hj)
  case text n fs => exact scalar _ (fun _ => rfl) (fun x h j hj => by cases h; exact hj) (fun x h j hj => by cases h; exact hj)
  case binary n fs => exact scalar _ (fun _ => rfl) (fun x h j hj => by cases h; exact hj) (fun x h j hj => by cases hj)
  case seq n xs ih =>
    refine ⟨fun ha x h j hj => ?_, fun _ name x h => (by cases h), fun _ x h t ht => (by cases ht), fun _ name x h => by cases h⟩
    obtain ⟨ys, e, rfl⟩ := Option.map_eq_some_iff.mp h
    obtain ⟨js, e', rfl⟩ := Option.map_eq_some_iff.mp hj
    rw [alike] at ha
    suffices docs env .str ys = some js by rw [doc, this]; rfl
    clear h hj
    induction xs generalizing ys js with
    | nil => cases e; cases e'; rfl
    | cons x xs ih' =>
      obtain ⟨a, ys, e1, e2, rfl⟩ := consO_some e
      obtain ⟨b, ks, e3, e4, rfl⟩ := consO_some e'
      rw [alikes, Bool.and_eq_true] at ha
      rw [docs, (ih x (.head _)).value ha.1 _ e1 _ e3, ih' (fun g hg => ih g (.tail _ hg)) ha.2 _ e2 _ e4]
      rfl
  case map n xs ih =>
    refine ⟨fun ha x h j hj => ?_, fun _ name x h => (by cases h), fun _ x h t ht => (by cases ht), fun _ name x h => by cases h⟩
    obtain ⟨ys, e, rfl⟩ := Option.map_eq_some_iff.mp h
    obtain ⟨js, e', rfl⟩ := Option.map_eq_some_iff.mp hj
    rw [alike] at ha
    suffices docMap env .str ys = some js by rw [doc, this]; rfl
    clear h hj
    induction xs generalizing ys js with
    | nil => cases e; cases e'; rfl
    | cons x xs ih' =>
      obtain ⟨k, v⟩ := x
      obtain ⟨a, ys, e1, e2, rfl⟩ := consO_some e
      obtain ⟨b, ks, e3, e4, rfl⟩ := consO_some e'
      obtain ⟨a, y, e5, e6, rfl⟩ := bindMap_some e1
      obtain ⟨t, j, e7, e8, rfl⟩ := bindMap_some e3
      rw [alikeMap, Bool.and_eq_true, Bool.and_eq_true] at ha
      rw [docMap, (ih (k, v) (.head _)).1.key ha.1.1 _ e5 _ e7, (ih (k, v) (.head _)).2.value ha.1.2 _ e6 _ e8,
        ih' (fun g hg => ih g (.tail _ hg)) ha.2 _ e2 _ e4]
      rfl
  case tag m =>
    refine ⟨fun ha x h j hj => ?_, fun ha name x h j hj => ?_, fun ha x h t ht => ?_, fun ha name x h t ht => ?_⟩
    · cases hj
      rw [svOf] at h
      split at h
      · rename_i h1; cases h; simp [Json.tagJ, h1, doc]
      · rename_i h1
        split at h
        · rename_i h2; cases h
          simp only [alike, h2, bne_self_eq_false, Bool.false_or, Bool.and_eq_true, Option.isNone_iff_eq_none] at ha
          simp [Json.tagJ, h1, ha.1, ha.2, doc]
        · obtain ⟨name, e, rfl⟩ := Option.map_eq_some_iff.mp h
          obtain ⟨l, e1, rfl⟩ := staticName_some e
          simp [Json.tagJ, h1, e1, doc]
    · cases hj
      obtain ⟨w, e, rfl⟩ := Option.map_eq_some_iff.mp h
      obtain ⟨l, e1, e2⟩ := variantOf_some e
      have h1 : m.tag ≠ some tags.RUST_OPTION_NONE := by simpa [alikeVariant] using ha
      simp [Json.tagJ, h1, e1, doc, e2]
    · cases ht
      rw [svOf] at h
      split at h
      · rename_i h1; cases h; simp [Json.tagKey, h1, docKey]
      · rename_i h1
        split at h
        · rename_i h2; cases h
          simp only [alike, h2, bne_self_eq_false, Bool.false_or, Bool.and_eq_true, Option.isNone_iff_eq_none] at ha
          simp [Json.tagKey, h1, ha.1, ha.2, docKey, Json.idOf]
        · obtain ⟨name, e, rfl⟩ := Option.map_eq_some_iff.mp h
          obtain ⟨l, e1, rfl⟩ := staticName_some e
          simp [Json.tagKey, h1, e1, docKey, Json.idOf]
    · cases ht
      obtain ⟨w, e, rfl⟩ := Option.map_eq_some_iff.mp h
      obtain ⟨l, e1, e2⟩ := variantOf_some e
      have h1 : m.tag ≠ some tags.RUST_OPTION_NONE := by simpa [alikeVariant] using ha
      simp [Json.tagKey, h1, e1, docKey, e2, Json.idOf]
  case tagged m v ih =>
    refine ⟨fun ha x h j hj => ?_, fun ha name x h j hj => ?_, fun ha x h t ht => ?_, fun ha name x h t ht => ?_⟩
    · rw [alike, Bool.and_eq_true, Bool.and_eq_true] at ha
      have hs : Json.isSpecialTag m.tag = false := by simpa using ha.1.2
      simp only [Json.value, hs, Bool.false_eq_true, if_false] at hj
      rw [svOf] at h
      split at h
      · obtain ⟨y, e, rfl⟩ := Option.map_eq_some_iff.mp h
        rw [doc]; exact ih.value ha.2 _ e _ hj
      · obtain ⟨n, y, _, e, rfl⟩ := bindMap_some h
        rw [doc]; exact ih.value ha.2 _ e _ hj
    · rw [alikeVariant, Bool.and_eq_true] at ha
      have hs : Json.isSpecialTag m.tag = false := by simpa using ha.1
      simp only [Json.variant, hs, Bool.false_eq_true, if_false] at hj
      obtain ⟨j, e, rfl⟩ := Option.map_eq_some_iff.mp hj
      obtain ⟨w, y, e1, e2, rfl⟩ := bindMap_some h
      obtain ⟨l, e3, e4⟩ := variantOf_some e1
      rw [doc, ih.value ha.2 _ e2 _ e, wrap_some e3, e4]
      rfl
    · rw [alike, Bool.and_eq_true, Bool.and_eq_true] at ha
      have hs : Json.isSpecialTag m.tag = false := by simpa using ha.1.2
      simp only [Json.keyText, hs, Bool.false_eq_true, if_false] at ht
      rw [svOf] at h
      split at h
      · obtain ⟨y, e, rfl⟩ := Option.map_eq_some_iff.mp h
        rw [docKey]; exact ih.key ha.2 _ e _ ht
      · obtain ⟨n, y, _, e, rfl⟩ := bindMap_some h
        rw [docKey]; exact ih.key ha.2 _ e _ ht
    · obtain ⟨w, y, e1, e2, rfl⟩ := bindMap_some h
      obtain ⟨l, e3, e4⟩ := variantOf_some e1
      simp [Json.keyVariant, Json.idOf, e3] at ht
  case enum m v ih =>
    refine ⟨fun ha x h j hj => ?_, fun _ name x h => (by cases h), fun ha x h t ht => ?_, fun _ name x h => by cases h⟩
    · rw [svOf] at h
      obtain ⟨name, e, h⟩ := Option.bind_eq_some_iff.mp h
      exact ih.variant ha _ _ h _ hj
    · rw [svOf] at h
      obtain ⟨name, e, h⟩ := Option.bind_eq_some_iff.mp h
      exact ih.keyVariant ha _ _ h _ ht
  case record m n fs ih =>
    refine ⟨fun ha x h j hj => ?_, fun ha name x h j hj => ?_, fun _ x h t ht => (by cases ht), fun _ name x h t ht => by cases ht⟩
    · rw [alike, Bool.and_eq_true] at ha
      obtain ⟨l, hl⟩ := Option.isSome_iff_exists.mp ha.1
      rw [svOf] at h
      obtain ⟨len, rfl, h⟩ := Option.bind_eq_some_iff.mp h
      simp only [hl] at h
      obtain ⟨name, ys, e1, e2, rfl⟩ := bindMap_some h
      obtain ⟨js, e3, rfl⟩ := Option.map_eq_some_iff.mp hj
      rw [doc, docs_rec env fs ih ha.2 ys e2 js e3]; rfl
    · obtain ⟨w, e, h⟩ := Option.bind_eq_some_iff.mp h
      obtain ⟨len, ys, rfl, e2, rfl⟩ := bindMap_some h
      obtain ⟨js, e3, rfl⟩ := Option.map_eq_some_iff.mp hj
      obtain ⟨l, e4, e5⟩ := variantOf_some e
      rw [doc, docs_rec env fs ih ha ys e2 js e3, wrap_some e4, e5]; rfl
  case recordTuple m n fs ih =>
    refine ⟨fun ha x h j hj => ?_, fun ha name x h j hj => ?_, fun _ x h t ht => (by cases ht), fun _ name x h t ht => by cases ht⟩
    · rw [alike, Bool.and_eq_true] at ha
      obtain ⟨l, hl⟩ := Option.isSome_iff_exists.mp ha.1
      rw [svOf] at h
      obtain ⟨len, rfl, h⟩ := Option.bind_eq_some_iff.mp h
      simp only [hl] at h
      obtain ⟨name, ys, e1, e2, rfl⟩ := bindMap_some h
      obtain ⟨js, e3, rfl⟩ := Option.map_eq_some_iff.mp hj
      rw [doc, docs_rt env fs ih ha.2 ys e2 js e3]; rfl
    · obtain ⟨w, e, h⟩ := Option.bind_eq_some_iff.mp h
      obtain ⟨len, ys, rfl, e2, rfl⟩ := bindMap_some h
      obtain ⟨js, e3, rfl⟩ := Option.map_eq_some_iff.mp hj
      obtain ⟨l, e4, e5⟩ := variantOf_some e
      rw [doc, docs_rt env fs ih ha ys e2 js e3, wrap_some e4, e5]; rfl
  case tuple m n fs ih =>
    refine ⟨fun ha x h j hj => ?_, fun ha name x h j hj => ?_, fun _ x h t ht => (by cases ht), fun _ name x h t ht => by cases ht⟩
    · rw [alike] at ha
      rw [svOf] at h
      obtain ⟨len, rfl, h⟩ := Option.bind_eq_some_iff.mp h
      obtain ⟨js, e3, rfl⟩ := Option.map_eq_some_iff.mp hj
      cases hl : m.label with
      | none =>
        simp only [hl] at h
        obtain ⟨ys, e2, rfl⟩ := Option.map_eq_some_iff.mp h
        rw [doc, docs_tup env fs ih ha ys e2 js e3]; rfl
      | some l =>
        simp only [hl] at h
        obtain ⟨name, ys, e1, e2, rfl⟩ := bindMap_some h
        rw [doc, docs_tup env fs ih ha ys e2 js e3]; rfl
    · obtain ⟨w, e, h⟩ := Option.bind_eq_some_iff.mp h
      obtain ⟨len, ys, rfl, e2, rfl⟩ := bindMap_some h
      obtain ⟨js, e3, rfl⟩ := Option.map_eq_some_iff.mp hj
      obtain ⟨l, e4, e5⟩ := variantOf_some e
      rw [doc, docs_tup env fs ih ha ys e2 js e3, wrap_some e4, e5]; rfl
  case hint n v ih => exact ⟨ih.value, ih.variant, ih.key, ih.keyVariant⟩
end

/-! ## Maps with names on both sides -/

theorem isNamed_variant (v : V) (name : Text) (x : SV) (h : svVariant name v = some x) : isNamed x = true := by
  induction v using V.ind <;> try cases h
  case tag m => obtain ⟨w, _, rfl⟩ := Option.map_eq_some_iff.mp h; rfl
  case tagged m v _ => obtain ⟨w, y, _, _, rfl⟩ := bindMap_some h; rfl
  case record m n fs _ =>
    obtain ⟨w, _, h⟩ := Option.bind_eq_some_iff.mp h
    obtain ⟨_, _, _, _, rfl⟩ := bindMap_some h
    rfl
  case tuple m n fs _ =>
    obtain ⟨w, _, h⟩ := Option.bind_eq_some_iff.mp h
    obtain ⟨_, _, _, _, rfl⟩ := bindMap_some h
    rfl
  case recordTuple m n fs _ =>
    obtain ⟨w, _, h⟩ := Option.bind_eq_some_iff.mp h
    obtain ⟨_, _, _, _, rfl⟩ := bindMap_some h
    rfl
  case hint n v ih => exact ih h

theorem isNamed_svOf (v : V) (ha : alike v = true) (x : SV) (h : svOf v = some x) (hx : isNamed x = true) : Json.named v = true := by
  have named_of : ∀ (m : Meta) (l : Label), m.label = some l → (Json.idOf m).isSome = true := by
    intro m l h; simp [Json.idOf, h]
  induction v using V.ind
  case null => cases h; cases hx
  case bool b => cases h; cases hx
  case int t v => cases h; cases hx
  case f32 b => cases h; cases hx
  case f64 b => cases h; cases hx
  case text n fs => cases h; cases hx
  case binary n fs => cases h; cases hx
  case seq n xs _ => obtain ⟨_, _, rfl⟩ := Option.map_eq_some_iff.mp h; cases hx
  case map n xs _ => obtain ⟨_, _, rfl⟩ := Option.map_eq_some_iff.mp h; cases hx
  case tag m =>
    rw [svOf] at h
    split at h
    · cases h; cases hx
    · split at h
      · cases h; cases hx
      · obtain ⟨_, _, rfl⟩ := Option.map_eq_some_iff.mp h; cases hx
  case tagged m v _ =>
    rw [alike, Bool.and_eq_true, Bool.and_eq_true] at ha
    exact ha.1.1
  case enum m v _ =>
    rw [svOf] at h
    obtain ⟨name, e, h⟩ := Option.bind_eq_some_iff.mp h
    obtain ⟨l, e, _⟩ := staticName_some e
    exact named_of m l e
  case record m n fs _ =>
    rw [alike, Bool.and_eq_true] at ha
    obtain ⟨l, hl⟩ := Option.isSome_iff_exists.mp ha.1
    exact named_of m l hl
  case recordTuple m n fs _ =>
    rw [alike, Bool.and_eq_true] at ha
    obtain ⟨l, hl⟩ := Option.isSome_iff_exists.mp ha.1
    exact named_of m l hl
  case tuple m n fs _ =>
    rw [svOf] at h
    obtain ⟨len, rfl, h⟩ := Option.bind_eq_some_iff.mp h
    cases hl : m.label with
    | none =>
      simp only [hl] at h
      obtain ⟨ys, e2, rfl⟩ := Option.map_eq_some_iff.mp h
      cases hx
    | some l => exact named_of m l hl
  case hint n v ih => exact ih ha h

def Clear (v : V) : Prop :=
  (alike v = true → Json.safe v = true → ∀ x, svOf v = some x → clear x = true) ∧
  (alikeVariant v = true → Json.safeVariant v = true → ∀ name x, svVariant name v = some x → clear x = true)

theorem clear_tup (fs : List (Option Tag × Index × V)) (h : ∀ f ∈ fs, Clear f.2.2) (ha : alikeTup fs = true) (hs : Json.safeItems fs = true)
    (xs : List SV) (e : svTup fs = some xs) : clears xs = true := by
  induction fs generalizing xs with
  | nil => cases e; rfl
  | cons f fs ih =>
    obtain ⟨a, ys, e1, e2, rfl⟩ := consO_some e
    rw [alikeTup, Bool.and_eq_true] at ha
    rw [Json.safeItems, Bool.and_eq_true] at hs
    rw [clears, (h f (.head _)).1 ha.1 hs.1 _ e1, ih (fun g hg => h g (.tail _ hg)) ha.2 hs.2 _ e2]
    rfl

theorem clear_rec (fs : List (Option Tag × Label × V)) (h : ∀ f ∈ fs, Clear f.2.2) (ha : alikeRec fs = true) (hs : Json.safeFields fs = true)
    (xs : List (Text × SV)) (e : svRec fs = some xs) : clearRec xs = true := by
  induction fs generalizing xs with
  | nil => cases e; rfl
  | cons f fs ih =>
    obtain ⟨t, l, v⟩ := f
    obtain ⟨a, ys, e1, e2, rfl⟩ := consO_some e
    obtain ⟨a, y, e5, e6, rfl⟩ := bindMap_some e1
    rw [alikeRec, Bool.and_eq_true] at ha
    rw [Json.safeFields, Bool.and_eq_true] at hs
    rw [clearRec, (h (t, l, v) (.head _)).1 ha.1 hs.1 _ e6, ih (fun g hg => h g (.tail _ hg)) ha.2 hs.2 _ e2]
    rfl

theorem clear_rt (fs : List (Option Tag × Label × Index × V)) (h : ∀ f ∈ fs, Clear f.2.2.2) (ha : alikeRT fs = true) (hs : Json.safeRT fs = true)
    (xs : List (Text × SV)) (e : svRT fs = some xs) : clearRec xs = true := by
  induction fs generalizing xs with
  | nil => cases e; rfl
  | cons f fs ih =>
    obtain ⟨t, l, i, v⟩ := f
    obtain ⟨a, ys, e1, e2, rfl⟩ := consO_some e
    obtain ⟨a, y, e5, e6, rfl⟩ := bindMap_some e1
    rw [alikeRT, Bool.and_eq_true] at ha
    rw [Json.safeRT, Bool.and_eq_true] at hs
    rw [clearRec, (h (t, l, i, v) (.head _)).1 ha.1 hs.1 _ e6, ih (fun g hg => h g (.tail _ hg)) ha.2 hs.2 _ e2]
    rfl

/-- What sval_json gets right of a value, it gets right of the serde value. -/
theorem clear_svOf (v : V) : Clear v := by
  induction v using V.ind
  case null => exact ⟨fun _ _ x h => by cases h; rfl, fun _ _ _ x h => by cases h⟩
  case bool b => exact ⟨fun _ _ x h => by cases h; rfl, fun _ _ _ x h => by cases h⟩
  case int t v => exact ⟨fun _ _ x h => by cases h; rfl, fun _ _ _ x h => by cases h⟩
  case f32 b => exact ⟨fun _ _ x h => by cases h; rfl, fun _ _ _ x h => by cases h⟩
  case f64 b => exact ⟨fun _ _ x h => by cases h; rfl, fun _ _ _ x h => by cases h⟩
  case text n fs => exact ⟨fun _ _ x h => by cases h; rfl, fun _ _ _ x h => by cases h⟩
  case binary n fs => exact ⟨fun _ _ x h => by cases h; rfl, fun _ _ _ x h => by cases h⟩
  case seq n xs ih =>
    refine ⟨fun ha hs x h => ?_, fun _ _ _ x h => by cases h⟩
    obtain ⟨ys, e, rfl⟩ := Option.map_eq_some_iff.mp h
    rw [alike] at ha
    rw [Json.safe] at hs
    rw [clear]
    clear h
    induction xs generalizing ys with
    | nil => cases e; rfl
    | cons x xs ih' =>
      obtain ⟨a, ys, e1, e2, rfl⟩ := consO_some e
      rw [alikes, Bool.and_eq_true] at ha
      rw [Json.safes, Bool.and_eq_true] at hs
      rw [clears, (ih x (.head _)).1 ha.1 hs.1 _ e1, ih' (fun g hg => ih g (.tail _ hg)) ha.2 hs.2 _ e2]
      rfl
  case map n xs ih =>
    refine ⟨fun ha hs x h => ?_, fun _ _ _ x h => by cases h⟩
    obtain ⟨ys, e, rfl⟩ := Option.map_eq_some_iff.mp h
    rw [alike] at ha
    rw [Json.safe] at hs
    rw [clear]
    clear h
    induction xs generalizing ys with
    | nil => cases e; rfl
    | cons x xs ih' =>
      obtain ⟨k, v⟩ := x
      obtain ⟨a, ys, e1, e2, rfl⟩ := consO_some e
      obtain ⟨a, y, e5, e6, rfl⟩ := bindMap_some e1
      rw [alikeMap, Bool.and_eq_true, Bool.and_eq_true] at ha
      rw [Json.safeEntries, Bool.and_eq_true, Bool.and_eq_true, Bool.and_eq_true] at hs
      rw [clearMap, (ih (k, v) (.head _)).2.1 ha.1.2 hs.1.1.2 _ e6, ih' (fun g hg => ih g (.tail _ hg)) ha.2 hs.2 _ e2]
      have hn := hs.1.2
      cases h1 : isNamed a with
      | false => rfl
      | true =>
        cases h2 : isNamed y with
        | false => rfl
        | true =>
          rw [isNamed_svOf k ha.1.1 a e5 h1, isNamed_svOf v ha.1.2 y e6 h2] at hn
          cases hn
  case tag m =>
    refine ⟨fun ha hs x h => ?_, fun ha hs name x h => ?_⟩
    · rw [svOf] at h
      split at h
      · cases h; rfl
      · split at h
        · cases h; rfl
        · obtain ⟨_, _, rfl⟩ := Option.map_eq_some_iff.mp h; rfl
    · obtain ⟨w, _, rfl⟩ := Option.map_eq_some_iff.mp h; rfl
  case tagged m v ih =>
    refine ⟨fun ha hs x h => ?_, fun ha hs name x h => ?_⟩
    · rw [alike, Bool.and_eq_true, Bool.and_eq_true] at ha
      have hsp : Json.isSpecialTag m.tag = false := by simpa using ha.1.2
      simp only [Json.safe, hsp, Bool.false_eq_true, if_false] at hs
      rw [svOf] at h
      split at h
      · obtain ⟨y, e, rfl⟩ := Option.map_eq_some_iff.mp h
        rw [clear]; exact ih.1 ha.2 hs _ e
      · obtain ⟨n, y, _, e, rfl⟩ := bindMap_some h
        rw [clear]; exact ih.1 ha.2 hs _ e
    · rw [alikeVariant, Bool.and_eq_true] at ha
      have hsp : Json.isSpecialTag m.tag = false := by simpa using ha.1
      simp only [Json.safeVariant, hsp, Bool.false_eq_true, if_false] at hs
      obtain ⟨w, y, e1, e2, rfl⟩ := bindMap_some h
      rw [clear]; exact ih.1 ha.2 hs _ e2
  case enum m v ih =>
    refine ⟨fun ha hs x h => ?_, fun _ _ _ x h => by cases h⟩
    rw [svOf] at h
    obtain ⟨name, e, h⟩ := Option.bind_eq_some_iff.mp h
    exact ih.2 ha hs _ _ h
  case record m n fs ih =>
    refine ⟨fun ha hs x h => ?_, fun ha hs name x h => ?_⟩
    · rw [alike, Bool.and_eq_true] at ha
      obtain ⟨l, hl⟩ := Option.isSome_iff_exists.mp ha.1
      rw [svOf] at h
      obtain ⟨len, rfl, h⟩ := Option.bind_eq_some_iff.mp h
      simp only [hl] at h
      obtain ⟨name, ys, e1, e2, rfl⟩ := bindMap_some h
      exact clear_rec fs ih ha.2 hs ys e2
    · obtain ⟨w, e, h⟩ := Option.bind_eq_some_iff.mp h
      obtain ⟨len, ys, rfl, e2, rfl⟩ := bindMap_some h
      exact clear_rec fs ih ha hs ys e2
  case recordTuple m n fs ih =>
    refine ⟨fun ha hs x h => ?_, fun ha hs name x h => ?_⟩
    · rw [alike, Bool.and_eq_true] at ha
      obtain ⟨l, hl⟩ := Option.isSome_iff_exists.mp ha.1
      rw [svOf] at h
      obtain ⟨len, rfl, h⟩ := Option.bind_eq_some_iff.mp h
      simp only [hl] at h
      obtain ⟨name, ys, e1, e2, rfl⟩ := bindMap_some h
      exact clear_rt fs ih ha.2 hs ys e2
    · obtain ⟨w, e, h⟩ := Option.bind_eq_some_iff.mp h
      obtain ⟨len, ys, rfl, e2, rfl⟩ := bindMap_some h
      exact clear_rt fs ih ha hs ys e2
  case tuple m n fs ih =>
    refine ⟨fun ha hs x h => ?_, fun ha hs name x h => ?_⟩
    · rw [svOf] at h
      obtain ⟨len, rfl, h⟩ := Option.bind_eq_some_iff.mp h
      cases hl : m.label with
      | none =>
        simp only [hl] at h
        obtain ⟨ys, e2, rfl⟩ := Option.map_eq_some_iff.mp h
        exact clear_tup fs ih ha hs ys e2
      | some l =>
        simp only [hl] at h
        obtain ⟨name, ys, e1, e2, rfl⟩ := bindMap_some h
        exact clear_tup fs ih ha hs ys e2
    · obtain ⟨w, e, h⟩ := Option.bind_eq_some_iff.mp h
      obtain ⟨len, ys, rfl, e2, rfl⟩ := bindMap_some h
      exact clear_tup fs ih ha hs ys e2
  case hint n v ih => exact ⟨ih.1, ih.2⟩

end Sval.Serde
