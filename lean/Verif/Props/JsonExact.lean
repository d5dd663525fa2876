import Verif.Json.Balance
import Verif.Props.SerdeJson
import Verif.Props.RustJson

set_option autoImplicit false

/-!
# Exactly which values are written as JSON: C19, C63, C67, C68
-/

namespace Sval

open Nested (prog)
open Json (J Env Doc value loose safe valueL holes Bal)

/-- C63, for maps with a name on both sides of an entry too: what is written for a value that has a document. The conditions
left are those of `loose`, see `C19_fails_number`, `C19_fails_raw_key` and `C19_fails_nested_enum`. -/
theorem C63_loose_partial (env : Env) (v : V) (j : J) (hj : value env v = some j) (hs : loose v = true) :
    Json.toString env (valueOf v) = some (valueL env v) := by
  obtain ⟨s, h1, h2⟩ := Json.run_loose env v j hj hs
  rw [valueOf, Json.toString_eq, h1]
  simp [Res.toOption, h2]

/-- C19. A value that has a document, and that is loose, is always written. What is written lacks one closing brace for each
entry of a map with a name on both sides; so it is well-formed exactly if there is none. -/
theorem C19_exact (env : Env) (v : V) (j : J) (hj : value env v = some j) (hs : loose v = true) :
    ∃ t, Json.toString env (valueOf v) = some t ∧ Bal (holes v) t ∧ ((∃ j', Doc j' t) ↔ holes v = 0) ∧
      (holes v = 0 ↔ safe v = true) := by
  refine ⟨_, C63_loose_partial env v j hj hs, Json.lacks_all env v j hj hs, ⟨fun ⟨j', h⟩ => ?_, fun h => ?_⟩,
    by rw [Json.safe_iff env v j hj]; simp [hs]⟩
  · have := (Json.lacks_all env v j hj hs).inj (Json.bal_doc h)
    omega
  · obtain ⟨t, h1, h2⟩ := C19_well_formed_partial env v j hj ((Json.safe_iff env v j hj).2 ⟨hs, h⟩)
    rw [C63_loose_partial env v j hj hs] at h1
    cases h1
    exact h2

/-- An entry with names on both sides, in an enum, in a record, beside one with none. -/
def twoNames : V := .record {} none [(none, .new (t! "a"),
  .enum { label := some (.new (t! "E")) } (.tagged { label := some (.new (t! "A")) } (.map none [
    (.tagged { label := some (.new (t! "K")) } (.text none [.computed (t! "k")]),
      .tuple { label := some (.new (t! "T")) } none [(none, ⟨0, none⟩, .map none [
        (.tagged { label := some (.new (t! "K")) } (.bool true), .tagged { index := some ⟨3, none⟩ } .null)])]),
    (.int .u8 1, .tagged { label := some (.new (t! "T")) } .null)])))]

example : (value anyEnv twoNames).isSome = true ∧ loose twoNames = true ∧ holes twoNames = 2 ∧
    valueL anyEnv twoNames = t! "{\"a\":{\"A\":{\"k\":{\"T\":[{\"true\":{\"3\":null}],\"1\":null}}}" := by
  refine ⟨rfl, rfl, rfl, by decide +kernel⟩

example : (value anyEnv spelled).isSome = true ∧ loose spelled = true ∧ holes spelled = 0 := ⟨rfl, rfl, rfl⟩

/-! ## Serde values -/

namespace Serde

theorem rawName_tree (v : SV) : Json.rawName (tree v) = false := by
  cases v <;> rfl

theorem extraName_tree (v : SV) : Json.extraName (tree v) = false := by
  cases v <;> rfl

theorem looses_trees (xs : List SV) (h : ∀ x ∈ xs, loose (tree x) = true) : Json.looses (trees xs) = true := by
  induction xs with
  | nil => rfl
  | cons x xs ih => simp only [trees, Json.looses, h x (.head _), ih fun y hy => h y (.tail _ hy), Bool.and_self]

theorem looseItems_trees (xs : List SV) (h : ∀ x ∈ xs, loose (tree x) = true) (i : Nat) : Json.looseItems (treeTup i xs) = true := by
  induction xs generalizing i with
  | nil => rfl
  | cons x xs ih => simp only [treeTup, Json.looseItems, h x (.head _), ih fun y hy => h y (.tail _ hy), Bool.and_self]

theorem looseEntries_trees (xs : List (SV × SV)) (h : ∀ x ∈ xs, loose (tree x.2) = true) : Json.looseEntries (treeMap xs) = true := by
  induction xs with
  | nil => rfl
  | cons x xs ih =>
    obtain ⟨k, v⟩ := x
    simp only [treeMap, Json.looseEntries, safeKey_tree, h (k, v) (.head _), rawName_tree, ih fun y hy => h y (.tail _ hy),
      Bool.and_false, Bool.not_false, Bool.and_self]

theorem looseFields_trees (xs : List (Text × SV)) (h : ∀ x ∈ xs, loose (tree x.2) = true) : Json.looseFields (treeRec xs) = true := by
  induction xs with
  | nil => rfl
  | cons x xs ih =>
    obtain ⟨k, v⟩ := x
    simp only [treeRec, Json.looseFields, h (k, v) (.head _), ih fun y hy => h y (.tail _ hy), Bool.and_self]

/-- Trees of serde values are loose. -/
theorem loose_tree (v : SV) : loose (tree v) = true := by
  induction v using SV.ind with
  | h v ih =>
    cases v <;> try rfl
    case some v => exact ih v (.head _)
    case newtypeStruct n v => exact ih v (.head _)
    case newtypeVariant n i w v =>
      have h : loose (tree v) = true := ih v (.head _)
      show (loose (tree v) && _ && _) = true
      rw [h]; rfl
    case seq n xs => exact looses_trees xs ih
    case tuple n xs => exact looseItems_trees xs ih 0
    case tupleStruct m n xs => exact looseItems_trees xs ih 0
    case tupleVariant m i w n xs =>
      show (Json.looseItems _ && _ && _) = true
      rw [looseItems_trees xs ih 0]; rfl
    case map n xs =>
      exact looseEntries_trees xs fun x hx => ih x.2 (by simp only [parts, List.mem_flatMap]; exact ⟨x, hx, by simp⟩)
    case struct m n xs => exact looseFields_trees xs fun x hx => ih x.2 (List.mem_map_of_mem hx)
    case structVariant m i w n xs =>
      show (Json.looseFields _ && _ && _) = true
      rw [looseFields_trees xs fun x hx => ih x.2 (List.mem_map_of_mem hx)]; rfl

end Serde

open Serde in
/-- C67. Exactly which serde values are well-formed JSON: of those that have a document, the ones without a map that has an
entry whose key and value both have a name. All are written, without an error. -/
theorem C67_exact (env : Env) (v : SV) (j : J) (hj : doc env .str v = some j) :
    ∃ t, Json.toString env (prog (toValue v)) = some t ∧ ((∃ j', Doc j' t) ↔ clear v = true) ∧ (clear v = true → Doc j t) := by
  have hv : value env (tree v) = some j := by rw [value_tree, hj]
  obtain ⟨t, h1, _, h2, h3⟩ := C19_exact env (tree v) j hv (loose_tree v)
  rw [toString_serde]
  refine ⟨t, h1, by rw [h2, h3, safe_tree], fun h => ?_⟩
  obtain ⟨t', h4, h5, _⟩ := C20_round_trip_partial env (tree v) j hv (by rw [safe_tree, h])
  rw [h1] at h4; cases h4
  exact (Json.parse_iff _ _).1 h5

example : (Serde.doc anyEnv .str points).isSome = true ∧ Serde.clear points = false ∧ (Serde.doc anyEnv .str shop).isSome = true ∧
    Serde.clear shop = true := ⟨rfl, rfl, rfl, rfl⟩

/-! ## Values of Rust types -/

open Rust in
/-- C68. Exactly which values of Rust types are well-formed JSON: of those that have a document and are tidy, so that no tag
says of text that it is a number or JSON, the ones without a map that has an entry whose key and value both have a
name. All are written, without an error. -/
theorem C68_exact (env : Env) (x : RV) (j : J) (hx : ok x) (hj : doc env x = some j) (hc : tidy x = true) :
    ∃ t, Json.toString env (prog (items x)) = some t ∧ ((∃ j', Doc j' t) ↔ apart x = true) ∧ (apart x = true → Doc j t) := by
  obtain ⟨h1, h2, h3, _⟩ := fine_tree env x hx hc
  have hv : value env (tree x) = some j := by rw [h1, hj]
  obtain ⟨t, h4, _, h5, h6⟩ := C19_exact env (tree x) j hv h3
  rw [toString_rust env x hx]
  refine ⟨t, h4, by rw [h5, h6, h2], fun h => ?_⟩
  obtain ⟨t', h7, h8, _⟩ := C20_round_trip_partial env (tree x) j hv (h2.2 h)
  rw [h4] at h7; cases h7
  exact (Json.parse_iff _ _).1 h8

open Rust in
example : ok (.map [.enum kindD 0 []] [.some (.int .i32 1)]) ∧ (doc anyEnv (.map [.enum kindD 0 []] [.some (.int .i32 1)])).isSome = true ∧
    tidy (.map [.enum kindD 0 []] [.some (.int .i32 1)]) = true ∧ apart (.map [.enum kindD 0 []] [.some (.int .i32 1)]) = false ∧
    (doc anyEnv drawing).isSome = true ∧ tidy drawing = true ∧ apart drawing = true :=
  ⟨⟨rfl, ⟨⟨⟨_, rfl, rfl⟩, trivial⟩, trivial⟩, trivial, trivial⟩, rfl, rfl, rfl, rfl, rfl, rfl⟩

end Sval
