import Verif.Rust.Doc
import Verif.Props.Rust
import Verif.Props.SerdeJson

set_option autoImplicit false

/-!
# Properties of the values of Rust types written as JSON: C68

`Rust.doc env x`, in `Rust/Doc`, is the document that should stand for `x`.
-/

namespace Sval

open Nested (prog)
open Rust
open Json (J Env Doc parse)
open Derive (Field Attrs Shape Variant EnumDef)

/-- Writing a value as JSON is writing its tree. -/
theorem toString_rust (env : Env) (x : RV) (hx : ok x) : Json.toString env (prog (items x)) = Json.toString env (valueOf (tree x)) := by
  have h : Json.toFmt Json.strWriter env (prog (items x)) [] = Json.toFmt Json.strWriter env (valueOf (tree x)) [] := by
    simp only [Json.toFmt, (C38 (Json.stepP Json.strWriter env) x hx ({ out := [] }, false)).1]
  simp only [Json.toString, h]

/-- C68, as far as it holds: a value is written as its document, and any correct parser reads it. Missing: maps in which a
key and its value both have a name, `C68_fails_map`; values tagged as numbers, `C68_fails_tag`, or as JSON; numbers in text like `0e5`,
`C68_fails_number`; flattened fields. -/
theorem C68_partial (env : Env) (x : RV) (j : J) (hx : ok x) (hj : doc env x = some j) (hc : clear x = true) :
    ∃ t, Json.toString env (prog (items x)) = some t ∧ parse t = some j ∧ ∀ j', Doc j' t → j' = j := by
  rw [toString_rust env x hx]
  obtain ⟨h1, h2⟩ := doc_tree env x hx hc
  exact C20_round_trip_partial env (tree x) j (by rw [h1, hj]) h2

/-- C68. Through `sval_ref` it is the same document. -/
theorem C68_ref_partial (env : Env) (r : RR) (j : J) (hx : ok r.value) (hj : doc env r.value = some j) (hc : clear r.value = true) :
    ∃ t, Json.toString env (prog (refItems r)) = some t ∧ parse t = some j ∧ ∀ j', Doc j' t → j' = j := by
  have h : Json.toFmt Json.strWriter env (prog (refItems r)) [] = Json.toFmt Json.strWriter env (prog (items r.value)) [] := by
    have := C42 (Json.stepP Json.strWriter env) r hx false ({ out := [] }, false)
    simp only [Bool.false_eq_true, if_false] at this
    simp only [Json.toFmt, this]
  simp only [Json.toString, h]
  exact C68_partial env r.value j hx hj hc

/-- `struct Point { x: i32 }` -/
def pointR (x : Int) : RV := .struct true (t! "Point") {} [{ ident := some (t! "x") }] [.int .i32 x]

/-- `struct Id(&'static str);` -/
def idR (s : Text) : RV := .newtype (t! "Id") {} false (.str s)

/-- `enum Kind { Tea, Other(..) }` -/
def kindD : EnumDef :=
  { ident := t! "Kind", variants := [{ ident := t! "Tea", shape := .unit }, { ident := t! "Other", shape := .newtype }] }

theorem point_ok (x : Int) : ok (pointR x) := by
  refine ⟨⟨rfl, fun f hf => ?_, rfl⟩, trivial, trivial⟩
  rcases List.mem_singleton.1 hf with rfl
  exact .inr rfl

/-- C68 is false: in a map from newtypes to structs, or from enums to options, a brace is missing. -/
theorem C68_fails_map :
    (ok (.map [idR (t! "a")] [pointR 1]) ∧ doc anyEnv (.map [idR (t! "a")] [pointR 1]) = some (.obj [(t! "a", .obj [(t! "x", .num 1)])]) ∧
      ∃ t, Json.toString anyEnv (prog (items (.map [idR (t! "a")] [pointR 1]))) = some t ∧
        t = t! "{\"a\":{\"Point\":{\"x\":1}}" ∧ ¬ ∃ j, Doc j t) ∧
    (ok (.map [.enum kindD 0 []] [.some (.int .i32 1)]) ∧
      doc anyEnv (.map [.enum kindD 0 []] [.some (.int .i32 1)]) = some (.obj [(t! "Tea", .num 1)]) ∧
      ∃ t, Json.toString anyEnv (prog (items (.map [.enum kindD 0 []] [.some (.int .i32 1)]))) = some t ∧
        t = t! "{\"Tea\":{\"Some\":1}" ∧ ¬ ∃ j, Doc j t) := by
  have h1 : ok (.map [idR (t! "a")] [pointR 1]) := ⟨rfl, ⟨trivial, trivial⟩, point_ok 1, trivial⟩
  have h2 : ok (.map [.enum kindD 0 []] [.some (.int .i32 1)]) := ⟨rfl, ⟨⟨⟨_, rfl, rfl⟩, trivial⟩, trivial⟩, trivial, trivial⟩
  refine ⟨⟨h1, rfl, _, ?_, rfl, not_doc (by decide +kernel)⟩, h2, rfl, _, ?_, rfl, not_doc (by decide +kernel)⟩
  · rw [toString_rust _ _ h1]; decide +kernel
  · rw [toString_rust _ _ h2]; decide +kernel

/-- C68 is false: an integer in a field with `data_tag = "sval::tags::NUMBER"`, for which the type is right, is
multiplied by ten. -/
theorem C68_fails_tag :
    let x : RV := .struct true (t! "P") {} [{ ident := some (t! "x"), dataTag := some tags.NUMBER }] [.int .i32 1]
    ok x ∧ doc anyEnv x = some (.obj [(t! "x", .num 1)]) ∧
      ∃ t, Json.toString anyEnv (prog (items x)) = some t ∧ t = t! "{\"x\":10}" := by
  have h1 : ok (.struct true (t! "P") {} [{ ident := some (t! "x"), dataTag := some tags.NUMBER }] [.int .i32 1]) := by
    refine ⟨⟨rfl, fun f hf => ?_, rfl⟩, trivial, trivial⟩
    rcases List.mem_singleton.1 hf with rfl
    exact .inr rfl
  refine ⟨h1, rfl, _, ?_, rfl⟩
  rw [toString_rust _ _ h1]; decide +kernel

/-- C68 is false: a number in text, `0e5`. -/
theorem C68_fails_number : (doc anyEnv (.number [t! "0e5"])).isSome = true ∧
    ∃ t, Json.toString anyEnv (prog (items (.number [t! "0e5"]))) = some t ∧ t = t! "e5" ∧ ¬ ∃ j, Doc j t := by
  refine ⟨rfl, _, ?_, rfl, not_doc (by decide +kernel)⟩
  rw [toString_rust _ (.number [t! "0e5"]) trivial]; decide +kernel

/-! ## A value with most of it in it -/

/-- `enum Shape` with a label, an index, and all kinds of variants; the third is renamed. -/
def shapeD : EnumDef :=
  { ident := t! "Shape"
    variants := [{ ident := t! "Empty", shape := .unit }, { ident := t! "Circle", shape := .newtype },
      { ident := t! "Rect", shape := .named [{ ident := some (t! "w") }, { ident := some (t! "h"), label := some (.const (t! "height")) },
          { ident := some (t! "cache"), skip := true }],
        attrs := { label := some (.const (t! "Box")) } },
      { ident := t! "Line", shape := .unnamed [{}, {}] }] }

/-- Enums without tags. -/
def dynD : EnumDef := { ident := t! "Any", dyn := true, variants := [{ ident := t! "Number", shape := .newtype }, { ident := t! "Nothing", shape := .unit }] }

/-- Enums tagged by index. -/
def numD : EnumDef := { ident := t! "Num", unlabeledVariants := true, variants := [{ ident := t! "A", shape := .newtype, attrs := { index := some (.const 7) } }] }

def drawing : RV := .struct true (t! "Drawing") {}
  [{ ident := some (t! "shapes") }, { ident := some (t! "names") }, { ident := some (t! "any") }, { ident := some (t! "num") }]
  [.boxed (.slice [.enum shapeD 0 [], .enum shapeD 1 [.f32 0x7f800000], .enum shapeD 2 [.int .u8 1, .some (.int .u8 2), .null],
      .enum shapeD 3 [.number [t! "+", t! "NaN"], .none]]),
    .map [.boxed (.str (t! "a\"")), .char 'b', .enum shapeD 0 []] [.tuple [.bool true, .unit], .boxed (idR (t! "i")), .bytes [1, 2]],
    .tuple [.enum dynD 0 [.int .i8 (-1)], .enum dynD 1 []],
    .enum numD 0 [.array [pointR 3]]]

def drawingJ : J := .obj
  [(t! "shapes", .arr [.str (t! "Empty"), .obj [(t! "Circle", .null)],
      .obj [(t! "Box", .obj [(t! "w", .num 1), (t! "height", .num 2)])], .obj [(t! "Line", .arr [.null, .null])]]),
   (t! "names", .obj [(t! "a\"", .arr [.bool true, .null]), (t! "b", .str (t! "i")), (t! "Empty", .arr [.num 1, .num 2])]),
   (t! "any", .arr [.num (-1), .str (t! "Nothing")]),
   (t! "num", .obj [(t! "7", .arr [.obj [(t! "x", .num 3)]])])]

example : doc anyEnv drawing = some drawingJ ∧ clear drawing = true := ⟨rfl, rfl⟩

end Sval
