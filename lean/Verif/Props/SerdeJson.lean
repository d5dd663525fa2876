import Verif.Serde.Doc
import Verif.Props.Serde
import Verif.Props.JsonText

set_option autoImplicit false

/-!
# Properties of serde values written as JSON: C67

`doc env unit v`, in `Serde/Doc`, is the document serde's data model gives `v`; `doc env (fun _ => .null)` is the usual
one, in which a unit struct is `null`.
-/

namespace Sval

open Nested (prog)
open Serde
open Json (J Env Doc parse)

/-- Writing a serde value as JSON is writing its tree. -/
theorem toString_serde (env : Env) (v : SV) : Json.toString env (prog (toValue v)) = Json.toString env (valueOf (tree v)) := by
  have h : Json.toFmt Json.strWriter env (prog (toValue v)) [] = Json.toFmt Json.strWriter env (valueOf (tree v)) [] := by
    have := C35 (Json.stepP Json.strWriter env) v false ({ out := [] }, false)
    simp only [Bool.false_eq_true, if_false] at this
    simp only [Json.toFmt, this]
  simp only [Json.toString, h]

/-- C67, as far as it holds: a serde value is written as its document, except that a unit struct is its name, and any correct
parser reads it. Missing: unit structs should be `null`, `C67_fails_unit`; and maps in which a key and its value both
have a name, `C67_fails_map`. -/
theorem C67_partial (env : Env) (v : SV) (j : J) (hj : doc env .str v = some j) (hc : clear v = true) :
    ∃ t, Json.toString env (prog (toValue v)) = some t ∧ parse t = some j ∧ ∀ j', Doc j' t → j' = j := by
  rw [toString_serde]
  exact C20_round_trip_partial env (tree v) j (by rw [value_tree, hj]) (by rw [safe_tree, hc])

mutual
/-- No unit struct in it. Keys may have them. -/
def unitless : SV → Bool
  | .unitStruct _ => false
  | .some v | .newtypeStruct _ v | .newtypeVariant _ _ _ v => unitless v
  | .seq _ xs | .tuple _ xs | .tupleStruct _ _ xs | .tupleVariant _ _ _ _ xs => unitlesss xs
  | .map _ kvs => unitlessMap kvs
  | .struct _ _ fs | .structVariant _ _ _ _ fs => unitlessRec fs
  | _ => true
def unitlesss : List SV → Bool
  | [] => true
  | x :: xs => unitless x && unitlesss xs
def unitlessMap : List (SV × SV) → Bool
  | [] => true
  | (_, v) :: r => unitless v && unitlessMap r
def unitlessRec : List (Text × SV) → Bool
  | [] => true
  | (_, v) :: r => unitless v && unitlessRec r
end

mutual
theorem doc_unit (env : Env) (f g : Text → J) : ∀ v, unitless v = true → doc env f v = doc env g v
  | .unitStruct _, h => by simp [unitless] at h
  | .some v, h => by simp only [doc]; exact doc_unit env f g v (by simpa [unitless] using h)
  | .newtypeStruct _ v, h => by simp only [doc]; exact doc_unit env f g v (by simpa [unitless] using h)
  | .newtypeVariant _ _ _ v, h => by simp only [doc]; rw [doc_unit env f g v (by simpa [unitless] using h)]
  | .seq _ xs, h => by simp only [doc]; rw [docs_unit env f g xs (by simpa [unitless] using h)]
  | .tuple _ xs, h => by simp only [doc]; rw [docs_unit env f g xs (by simpa [unitless] using h)]
  | .tupleStruct _ _ xs, h => by simp only [doc]; rw [docs_unit env f g xs (by simpa [unitless] using h)]
  | .tupleVariant _ _ _ _ xs, h => by simp only [doc]; rw [docs_unit env f g xs (by simpa [unitless] using h)]
  | .map _ xs, h => by simp only [doc]; rw [docMap_unit env f g xs (by simpa [unitless] using h)]
  | .struct _ _ xs, h => by simp only [doc]; rw [docRec_unit env f g xs (by simpa [unitless] using h)]
  | .structVariant _ _ _ _ xs, h => by simp only [doc]; rw [docRec_unit env f g xs (by simpa [unitless] using h)]
  | .bool _, _ | .int _ _, _ | .f32 _, _ | .f64 _, _ | .char _, _ | .str _, _ | .collectStr _, _ | .bytes _, _ | .none, _
  | .unit, _ | .unitVariant _ _ _, _ => rfl
theorem docs_unit (env : Env) (f g : Text → J) : ∀ xs, unitlesss xs = true → docs env f xs = docs env g xs
  | [], _ => rfl
  | x :: xs, h => by
    rw [unitlesss, Bool.and_eq_true] at h
    simp only [docs]; rw [doc_unit env f g x h.1, docs_unit env f g xs h.2]
theorem docMap_unit (env : Env) (f g : Text → J) : ∀ xs, unitlessMap xs = true → docMap env f xs = docMap env g xs
  | [], _ => rfl
  | (k, x) :: xs, h => by
    rw [unitlessMap, Bool.and_eq_true] at h
    simp only [docMap]; rw [doc_unit env f g x h.1, docMap_unit env f g xs h.2]
theorem docRec_unit (env : Env) (f g : Text → J) : ∀ xs, unitlessRec xs = true → docRec env f xs = docRec env g xs
  | [], _ => rfl
  | (k, x) :: xs, h => by
    rw [unitlessRec, Bool.and_eq_true] at h
    simp only [docRec]; rw [doc_unit env f g x h.1, docRec_unit env f g xs h.2]
end

/-- C67. Without unit structs it is the usual document. -/
theorem C67_usual_partial (env : Env) (v : SV) (j : J) (hj : doc env (fun _ => .null) v = some j) (hc : clear v = true)
    (hu : unitless v = true) :
    ∃ t, Json.toString env (prog (toValue v)) = some t ∧ parse t = some j ∧ ∀ j', Doc j' t → j' = j :=
  C67_partial env v j (by rw [doc_unit env _ (fun _ => .null) v hu, hj]) hc

/-- C67 is false: a unit struct is written as its name. -/
theorem C67_fails_unit (env : Env) (name : Text) : ∃ t,
    doc env (fun _ => .null) (.unitStruct name) = some .null ∧ Json.toString env (prog (toValue (.unitStruct name))) = some t ∧
    parse t = some (.str name) := by
  obtain ⟨t, h1, h2, _⟩ := C67_partial env (.unitStruct name) (.str name) rfl rfl
  exact ⟨t, rfl, h1, h2⟩

/-- A map from a newtype to a struct, `HashMap<Id, Point>`. -/
def points : SV := .map (some 1) [(.newtypeStruct (t! "Id") (.str (t! "a")), .struct (t! "Point") 1 [(t! "x", .int .i32 1)])]

/-- A map from an enum to an optional value, `HashMap<Kind, Option<i32>>`. -/
def counts : SV := .map (some 1) [(.unitVariant (t! "Kind") 0 (t! "Tea"), .some (.int .i32 1))]

/-- C67 is false: in a map whose keys and values both have names a brace is missing. -/
theorem C67_fails_map :
    (doc anyEnv (fun _ => .null) points = some (.obj [(t! "a", .obj [(t! "x", .num 1)])]) ∧
      ∃ t, Json.toString anyEnv (prog (toValue points)) = some t ∧ t = t! "{\"a\":{\"Point\":{\"x\":1}}" ∧ ¬ ∃ j, Doc j t) ∧
    doc anyEnv (fun _ => .null) counts = some (.obj [(t! "Tea", .num 1)]) ∧
      ∃ t, Json.toString anyEnv (prog (toValue counts)) = some t ∧ t = t! "{\"Tea\":{\"Some\":1}" ∧ ¬ ∃ j, Doc j t := by
  refine ⟨⟨rfl, _, ?_, rfl, not_doc (by decide +kernel)⟩, rfl, _, ?_, rfl, not_doc (by decide +kernel)⟩
  · rw [toString_serde]; decide +kernel
  · rw [toString_serde]; decide +kernel

/-! ## A value with everything in it -/

def shop : SV := .struct (t! "Shop") 6
  [(t! "name", .str (t! "a\"b")),
   (t! "open", .some (.bool true)),
   (t! "tags", .seq (some 2) [.char 'x', .collectStr [t! "y", t! "z"]]),
   (t! "prices", .map none [(.unitVariant (t! "Kind") 1 (t! "Tea"), .int .u64 3), (.str (t! "none"), .none)]),
   (t! "at", .tupleStruct (t! "At") 2 [.int .i8 (-1), .unit]),
   (t! "last", .newtypeVariant (t! "Event") 0 (t! "Sold") (.tupleVariant (t! "Item") 2 (t! "Two") 2 [.bytes [1, 255], .f64 0x7ff8000000000000]))]

def shopJ : J := .obj
  [(t! "name", .str (t! "a\"b")),
   (t! "open", .bool true),
   (t! "tags", .arr [.str (t! "x"), .str (t! "yz")]),
   (t! "prices", .obj [(t! "Tea", .num 3), (t! "none", .null)]),
   (t! "at", .arr [.num (-1), .null]),
   (t! "last", .obj [(t! "Sold", .obj [(t! "Two", .arr [.arr [.num 1, .num 255], .null])])])]

example : doc anyEnv (fun _ => .null) shop = some shopJ ∧ clear shop = true ∧ unitless shop = true := ⟨rfl, rfl, rfl⟩

end Sval
