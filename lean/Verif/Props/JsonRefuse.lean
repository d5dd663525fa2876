import Verif.Json.RefuseDoc
import Verif.Props.JsonExact

set_option autoImplicit false

/-!
# Exactly which values `sval_json` refuses: C82

`refused`, in `Json/Refuse`, says from the value alone which they are; `calm` which numbers in text cannot be a reason for
a panic; `usual`, in `Json/RefuseDoc`, which values use tags and enums as they are meant to be used.
-/

namespace Sval

open Nested (prog)
open Json (J Env Doc value refused calm usual toFmt strWriter)

/-- C82. There are two outcomes, and the value says which it is; or there is a panic, and then not all numbers in text are
ASCII. -/
theorem C82_exact (env : Env) (v : V) (o : Text) :
    (refused false true v = true ∧ (toFmt strWriter env (valueOf v) o).1 = .invalidKey) ∨
    (refused false true v = false ∧ (toFmt strWriter env (valueOf v) o).1 = .ok) ∨
    (calm false v = false ∧ (toFmt strWriter env (valueOf v) o).1 = .panic) := by
  have h1 := Json.flagsOf v false true true none false false nofun
  have h2 := Json.run_follows env (lower Json.jsonCaps (toks v)) false { out := o }
  rw [← Json.run_call, ← Json.run_callF] at h2
  have hp : calm false v = false → run (Json.call strWriter env) (toks v) { out := o } = .panic →
      calm false v = false ∧ (toFmt strWriter env (valueOf v) o).1 = .panic :=
    fun h1 h2 => ⟨h1, Json.toFmt_panic strWriter env _ o h2⟩
  have hb : ∀ f : Json.Flags, f.bad = true → (calm false v = true → f.bad = false) → calm false v = false := by
    intro f h1 h2
    cases hs : calm false v with
    | false => rfl
    | true => rw [h2 hs] at h1; cases h1
  change Json.Follows _ (run Json.callF (toks v) ⟨false, true, true, none, false⟩) at h2
  rcases h1 with ⟨h3, f, h4, h5⟩ | ⟨h3, f, h4, _, _, h5⟩
  · rw [h4] at h2
    rcases h2 with ⟨s, h6, h7⟩ | ⟨h6, h7⟩
    · exact .inl ⟨h3, by rw [valueOf, Json.toFmt_err strWriter env _ o s h6, h7]; rfl⟩
    · exact .inr (.inr (hp (hb f h7 h5) h6))
  · rw [h4] at h2
    rcases h2 with ⟨s, h6, h7⟩ | ⟨h6, h7⟩
    · exact .inr (.inl ⟨h3, by rw [valueOf, Json.toFmt_ok strWriter env _ o s h6]⟩)
    · exact .inr (.inr (hp (hb f h7 h5) h6))

/-- C82, without a panic. -/
theorem C82_calm (env : Env) (v : V) (o : Text) (h : calm false v = true) :
    (toFmt strWriter env (valueOf v) o).1 = if refused false true v then .invalidKey else .ok := by
  rcases C82_exact env v o with ⟨h1, h2⟩ | ⟨h1, h2⟩ | ⟨h1, _⟩
  · rw [h2, h1]; rfl
  · rw [h2, h1]; rfl
  · rw [h1] at h; cases h

/-- C82, for values that use tags and enums as they are meant to be used: those that have a document are written, and the
others are refused. -/
theorem C82_doc (env : Env) (he : env.Numbers) (v : V) (o : Text) (h : usual v = true) :
    (toFmt strWriter env (valueOf v) o).1 = if (value env v).isSome then .ok else .invalidKey := by
  rw [C82_calm env v o (Json.calm_usual v h), (Json.has_doc env he v h).1]
  cases value env v <;> rfl

/-- A value with names and numbers; `k` is a key. -/
def withKey (k : V) : V := .record { label := some (.new (t! "R")) } none [
  (none, .new (t! "a"), .enum { label := some (.new (t! "E")) } (.tuple { label := some (.new (t! "T")) } none [(none, ⟨0, none⟩, num1)])),
  (none, .new (t! "b"), .map none [
    (.tagged { tag := some tags.NUMBER } (textV (t! "01")), .binary none [.borrowed [1, 2]]),
    (k, .hint tags.RUST_UNIT (.seq none [.f32 0]))])]

/-- Keys that are scalars, and a variant without a name: written. Keys that are containers, and variants with a name:
refused. -/
example :
    (∀ k ∈ [num1, textV (t! "k"), .enum { label := some (.new (t! "E")) } (.tag { label := some (.new (t! "A")) }),
        .tagged { label := some (.new (t! "Id")) } num1, .enum {} (.tagged {} num1)],
      usual (withKey k) = true ∧ refused false true (withKey k) = false) ∧
    (∀ k ∈ [.binary none [], .seq none [], .map none [], .tuple {} none [], .tagged {} (.record {} none []),
        .enum {} (.tagged { label := some (.new (t! "A")) } num1)],
      usual (withKey k) = true ∧ refused false true (withKey k) = true) := by
  decide +kernel

theorem anyEnv_numbers : anyEnv.Numbers := by
  have h : (Json.numOf (t! "0.5")).isSome = true ∧ (Json.numOf (t! "-1e300")).isSome = true := by decide +kernel
  exact ⟨fun _ _ => h.1, fun _ _ => h.2⟩

/-- Values that are not as they are meant to be: a container in a number; a variant that is a number; a number with a name
behind a key with one. All are refused, though only keys should be a reason. -/
theorem C82_odd :
    (∀ v ∈ [.tagged { tag := some tags.NUMBER } (.seq none []),
        .enum {} (.tagged { tag := some tags.NUMBER, label := some (.new (t! "A")) } (textV (t! "1"))),
        .map none [(.tagged { label := some (.new (t! "Id")) } num1,
          .tagged { tag := some tags.JSON_VALUE, label := some (.new (t! "A")) } (textV (t! "1")))]],
      (toFmt strWriter anyEnv (valueOf v) []).1 = .invalidKey) ∧
    (value anyEnv (.enum {} (.tagged { tag := some tags.NUMBER, label := some (.new (t! "A")) } (textV (t! "1"))))).isSome = true := by
  decide +kernel

/-! ## Serde values -/

namespace Serde

theorem usuals_trees (xs : List SV) (h : ∀ x ∈ xs, usual (tree x) = true) : Json.usual.usuals (trees xs) = true := by
  induction xs with
  | nil => rfl
  | cons x xs ih => simp only [trees, Json.usual.usuals, h x (.head _), ih fun y hy => h y (.tail _ hy), Bool.and_self]

theorem usualTup_trees (xs : List SV) (h : ∀ x ∈ xs, usual (tree x) = true) (i : Nat) : Json.usual.usualTup (treeTup i xs) = true := by
  induction xs generalizing i with
  | nil => rfl
  | cons x xs ih => simp only [treeTup, Json.usual.usualTup, h x (.head _), ih fun y hy => h y (.tail _ hy), Bool.and_self]

theorem usualMap_trees (xs : List (SV × SV)) (h : ∀ x ∈ xs, usual (tree x.1) = true ∧ usual (tree x.2) = true) :
    Json.usual.usualMap (treeMap xs) = true := by
  induction xs with
  | nil => rfl
  | cons x xs ih =>
    obtain ⟨k, v⟩ := x
    simp only [treeMap, Json.usual.usualMap, (h (k, v) (.head _)).1, (h (k, v) (.head _)).2, ih fun y hy => h y (.tail _ hy), Bool.and_self]

theorem usualRec_trees (xs : List (Text × SV)) (h : ∀ x ∈ xs, usual (tree x.2) = true) : Json.usual.usualRec (treeRec xs) = true := by
  induction xs with
  | nil => rfl
  | cons x xs ih =>
    obtain ⟨k, v⟩ := x
    simp only [treeRec, Json.usual.usualRec, h (k, v) (.head _), ih fun y hy => h y (.tail _ hy), Bool.and_true]
    rfl

/-- Serde values use tags and enums as they are meant to be used. -/
theorem usual_tree (v : SV) : usual (tree v) = true := by
  induction v using SV.ind with
  | h v ih =>
    cases v <;> try rfl
    case some v => exact ih v (.head _)
    case newtypeStruct n v => exact ih v (.head _)
    case newtypeVariant n i w v => exact ih v (.head _)
    case seq n xs => exact usuals_trees xs ih
    case tuple n xs => exact usualTup_trees xs ih 0
    case tupleStruct m n xs => exact usualTup_trees xs ih 0
    case tupleVariant m i w n xs => exact usualTup_trees xs ih 0
    case map n xs =>
      exact usualMap_trees xs fun x hx => by
        constructor <;> refine ih _ ?_ <;> simp only [parts, List.mem_flatMap] <;> exact ⟨x, hx, by simp⟩
    case struct m n xs => exact usualRec_trees xs fun x hx => ih x.2 (List.mem_map_of_mem hx)
    case structVariant m i w n xs => exact usualRec_trees xs fun x hx => ih x.2 (List.mem_map_of_mem hx)

end Serde

theorem toFmt_serde (env : Env) (v : Serde.SV) (o : Text) :
    toFmt strWriter env (prog (Serde.toValue v)) o = toFmt strWriter env (valueOf (Serde.tree v)) o := by
  have := C35 (Json.stepP strWriter env) v false ({ out := o }, false)
  simp only [Bool.false_eq_true, if_false] at this
  simp only [toFmt, this]

open Serde in
/-- C82, for all serde values: one that has a document is written, and any other is refused. -/
theorem C82_serde (env : Env) (he : env.Numbers) (v : SV) (o : Text) :
    (toFmt strWriter env (prog (toValue v)) o).1 = if (doc env .str v).isSome then .ok else .invalidKey := by
  rw [toFmt_serde, C82_doc env he _ o (usual_tree v), value_tree]

/-- A map with a tuple for a key, in a struct: refused; `shop` is written. -/
example : let v : Serde.SV := .struct (t! "S") 1 [(t! "m", .map none [(.tuple 1 [.bool true], .unit)])]
    Serde.doc anyEnv .str v = none ∧ (toFmt strWriter anyEnv (prog (Serde.toValue v)) []).1 = .invalidKey ∧
    (toFmt strWriter anyEnv (prog (Serde.toValue shop)) []).1 = .ok :=
  ⟨rfl, by rw [C82_serde anyEnv anyEnv_numbers]; rfl, by rw [C82_serde anyEnv anyEnv_numbers]; rfl⟩

/-! ## Values of Rust types -/

namespace Rust

mutual
/-- Numbers in text are numbers. -/
def numeric : RV → Bool
  | .number fs => (Json.numberOf fs.flatten).isSome
  | .some v | .boxed v | .newtype _ _ _ v => numeric v
  | .slice xs | .array xs | .tuple xs | .struct _ _ _ _ xs | .enum _ _ xs => numerics xs
  | .map ks vs => numerics ks && numerics vs
  | _ => true
def numerics : List RV → Bool
  | [] => true
  | x :: xs => numeric x && numerics xs
end

theorem numerics_iff (xs : List RV) : numerics xs = true ↔ ∀ x ∈ xs, numeric x = true := by
  induction xs with
  | nil => simp [numerics]
  | cons x xs ih => simp [numerics, ih]

theorem usual_data (f : Derive.Field) (v : V) (h : plainTag f.dataTag = true) : usual (Derive.data f v) = usual v := by
  cases hd : f.dataTag with
  | none => simp [Derive.data, hd]
  | some t =>
    rw [hd] at h
    have := plainTag_special _ h
    simp [Derive.data, hd, usual, this]

theorem usual_struct (named : Bool) (at' : Derive.Attrs) (m : Meta) (fs : List Derive.Field) (vs : List V)
    (hf : fs.all plainField = true) (hm : plainTag m.tag = true) (h : ∀ v ∈ vs, usual v = true) :
    usual (Derive.structTree named at' m fs vs) = true ∧ Json.isVariant (Derive.structTree named at' m fs vs) = true := by
  have hp := rows_plain hf vs
  have hu : ∀ r ∈ Derive.rows fs vs, usual (Derive.data r.1 r.2) = true := by
    intro r hr
    rw [usual_data _ _ (hp r hr).1]
    exact h _ (List.of_mem_zip (List.mem_filter.mp hr).1).2
  have hl : ∀ r ∈ Derive.rows fs vs, (Json.labelText (Derive.name r.1)).isSome = true := fun r hr => by rw [(hp r hr).2]; rfl
  have he : ∀ r ∈ Derive.entries (Derive.rows fs vs), r.1 ∈ Derive.rows fs vs := fun r h => (List.of_mem_zip h).1
  dsimp only [Derive.structTree]
  cases Derive.labeled named at' (Derive.rows fs vs) <;> cases Derive.indexed at' (Derive.rows fs vs) <;>
    refine ⟨?_, rfl⟩
  · simp only [usual, plainTag_special _ hm, Bool.false_eq_true, if_false]
    rw [Json.usuals_iff, List.forall_mem_map]
    exact hu
  · rw [usual, Json.usualTup_iff, List.forall_mem_map]
    exact fun r hr => hu _ (he r hr)
  · rw [usual, Json.usualRec_iff, List.forall_mem_map]
    exact fun r hr => ⟨hl r hr, hu r hr⟩
  · rw [usual, Json.usualRT_iff, List.forall_mem_map]
    exact fun r hr => ⟨hl _ (he r hr), hu _ (he r hr)⟩

theorem usual_tree (x : RV) (hx : ok x) (hc : tidy x = true) (hn : numeric x = true) : usual (tree x) = true := by
  induction x using RV.ind with | h y ih => ?_
  have all : ∀ xs : List RV, (∀ x ∈ xs, x ∈ parts y ∧ ok x ∧ tidy x = true ∧ numeric x = true) → ∀ v ∈ trees xs, usual v = true := by
    intro xs h v hv
    rw [trees_eq] at hv
    obtain ⟨x, hx, rfl⟩ := List.mem_map.mp hv
    obtain ⟨h1, h2, h3, h4⟩ := h x hx
    exact ih x h1 h2 h3 h4
  cases y with
  | unit | null | bool | int | f32 | f64 | none | bytes | byteArray | char | str | display | unitStruct => rfl
  | number fs =>
    rw [numeric] at hn
    show Json.spells { tag := Option.some tags.NUMBER } (.text Option.none (fs.map .computed)) = true
    obtain ⟨j, hj⟩ := Option.isSome_iff_exists.1 hn
    obtain ⟨u, hu, _⟩ := Json.numberOf_sound hj
    simp only [Json.spells, Json.textOf, Serde.fragsText_computed, Option.bind_some]
    simp [Json.specialJ, Json.specialKey, hj, hu, Json.idOf]
  | some v => exact ih v (.head _) hx hc hn
  | boxed v => exact ih v (.head _) hx hc hn
  | slice xs =>
    rw [ok, oks_iff] at hx
    rw [tidy, tidies_iff] at hc
    rw [numeric, numerics_iff] at hn
    exact (Json.usuals_iff _).2 (all xs fun x h => ⟨h, hx x h, hc x h, hn x h⟩)
  | array xs =>
    rw [ok, oks_iff] at hx
    rw [tidy, tidies_iff] at hc
    rw [numeric, numerics_iff] at hn
    exact (Json.usuals_iff _).2 (all xs fun x h => ⟨h, hx x h, hc x h, hn x h⟩)
  | tuple xs =>
    rw [ok, oks_iff] at hx
    rw [tidy, tidies_iff] at hc
    rw [numeric, numerics_iff] at hn
    refine (Json.usualTup_iff _).2 ?_
    rw [List.forall_mem_map]
    exact fun r hr => all xs (fun x h => ⟨h, hx x h, hc x h, hn x h⟩) _ (List.fst_mem_of_mem_zipIdx hr)
  | map ks vs =>
    rw [ok, oks_iff, oks_iff] at hx
    rw [tidy, Bool.and_eq_true, tidies_iff, tidies_iff] at hc
    rw [numeric, Bool.and_eq_true, numerics_iff, numerics_iff] at hn
    refine (Json.usualMap_iff _).2 fun r hr => ?_
    obtain ⟨h1, h2⟩ := List.of_mem_zip hr
    exact ⟨all ks (fun x h => ⟨List.mem_append_left _ h, hx.2.1 x h, hc.1 x h, hn.1 x h⟩) _ h1,
      all vs (fun x h => ⟨List.mem_append_right _ h, hx.2.2 x h, hc.2 x h, hn.2 x h⟩) _ h2⟩
  | newtype ident at' transparent v =>
    rw [tidy, Bool.and_eq_true] at hc
    have h := ih v (.head _) hx hc.2 hn
    cases transparent with
    | true => exact h
    | false => simpa [tree, usual, plainTag_special _ hc.1] using h
  | struct named ident at' fs vs =>
    rw [ok, oks_iff] at hx
    rw [tidy, Bool.and_eq_true, Bool.and_eq_true, tidies_iff] at hc
    rw [numeric, numerics_iff] at hn
    exact (usual_struct _ _ _ _ _ hc.1.2 hc.1.1 (all vs fun x h => ⟨h, hx.2 x h, hc.2 x h, hn x h⟩)).1
  | enum d i vs =>
    rw [ok, oks_iff] at hx
    obtain ⟨⟨v, hv, hok⟩, hx⟩ := hx
    simp only [tidy, hv, Bool.and_eq_true, tidies_iff, bne_iff_ne] at hc
    rw [numeric, numerics_iff] at hn
    have hall := all vs fun x h => ⟨h, hx x h, hc.2 x h, hn x h⟩
    have hstruct := fun n fs (hfs : fieldsOf v.shape = fs) => usual_struct n v.attrs
        { tag := v.attrs.tag, label := Derive.variantName d v, index := indexOf d i } fs (trees vs) (hfs ▸ hc.1.2) hc.1.1.1 hall
    simp only [tree, hv]
    change usual (if d.dyn = true then Derive.variantTree d v (indexOf d i) (trees vs) else _) = true
    dsimp only [Derive.variantTree]
    rw [show (variantIndexes d d.variants)[i]?.getD Option.none = indexOf d i from rfl]
    rw [okVariant] at hok
    cases hs : v.shape with
    | unit => cases hd : d.dyn <;> rfl
    | newtype =>
      rw [hs] at hok
      obtain ⟨x, rfl⟩ := List.length_eq_one_iff.mp hok
      have hsp := plainTag_special _ hc.1.1.1
      have := hall (tree x) (.head _)
      cases hd : d.dyn <;> simp [trees, usual, Json.isVariant, hsp, this]
    | named fs =>
      obtain ⟨h1, h2⟩ := hstruct true fs (by rw [hs]; rfl)
      cases hd : d.dyn <;> simp [usual, h1, h2]
    | unnamed fs =>
      obtain ⟨h1, h2⟩ := hstruct false fs (by rw [hs]; rfl)
      cases hd : d.dyn <;> simp [usual, h1, h2]

end Rust

theorem toFmt_rust (env : Env) (x : Rust.RV) (hx : Rust.ok x) (o : Text) :
    toFmt strWriter env (prog (Rust.items x)) o = toFmt strWriter env (valueOf (Rust.tree x)) o := by
  simp only [toFmt, (C38 (Json.stepP strWriter env) x hx ({ out := o }, false)).1]

open Rust in
/-- C82, for values of Rust types, tidy ones, so that no tag says of text that it is a number or JSON, and whose numbers in text
are numbers: one that has a document is written, and any other is refused. -/
theorem C82_rust (env : Env) (he : env.Numbers) (x : RV) (o : Text) (hx : ok x) (hc : tidy x = true) (hn : numeric x = true) :
    (toFmt strWriter env (prog (items x)) o).1 = if (doc env x).isSome then .ok else .invalidKey := by
  rw [toFmt_rust env x hx, C82_doc env he _ o (usual_tree x hx hc hn), (fine_tree env x hx hc).1]

open Rust in
/-- A map with options for keys: `Some(..)` of a container cannot be one, `None` can. `drawing` is written. -/
example : (doc anyEnv (.map [.some (.slice [])] [.unit])).isSome = false ∧ tidy (.map [.some (.slice [])] [.unit]) = true ∧
    (toFmt strWriter anyEnv (prog (items (.map [.some (.slice [])] [.unit]))) []).1 = .invalidKey ∧
    (toFmt strWriter anyEnv (prog (items (.map [.none] [.unit]))) []).1 = .ok ∧ numeric drawing = true :=
  ⟨rfl, rfl, C82_rust anyEnv anyEnv_numbers (.map [.some (.slice [])] [.unit]) [] ⟨rfl, ⟨trivial, trivial⟩, trivial, trivial⟩ rfl rfl,
    C82_rust anyEnv anyEnv_numbers (.map [.none] [.unit]) [] ⟨rfl, ⟨trivial, trivial⟩, trivial, trivial⟩ rfl rfl, rfl⟩

end Sval
