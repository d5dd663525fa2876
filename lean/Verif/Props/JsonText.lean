import Verif.Json.Embed
import Verif.Props.Json

set_option autoImplicit false

/-!
# C63, C64: how JSON is spelled, and JSON in JSON
-/

namespace Sval

open Json

/-- C63, for the values that C19 and C20 hold for: the text is the one `valueT` spells, no other. -/
theorem C63_partial (env : Env) (v : V) (j : J) (hj : value env v = some j) (hs : safe v = true) :
    Json.toString env (valueOf v) = some (valueT env v) := (toString_text_of env v j hj hs).1

/-- How a text is escaped. -/
theorem C63_text (env : Env) (n : Option Nat) (fs : List (Frag Text)) :
    Json.toString env (valueOf (.text n fs)) = some ('"' :: ((fragsText fs).flatMap escC ++ ['"'])) :=
  C63_partial env _ _ rfl rfl

/-- Floats are spelled as `ryu` does. -/
def digitsEnv : Env := { f32 := fun _ => t! "1.5", f64 := fun _ => t! "1e300" }

def spelled : V := .record {} none
  [(none, .new (t! "a"), .seq none [.int .u8 1, .f32 0x3fc00000, .f32 0x7f800000, .text none [.computed (t! "é\n"), .borrowed (t! "\"")]]),
   (none, (Label.new (t! "b")).withTag tags.VALUE_IDENT, .map none [(.int .i8 (-1), .tag { label := some (.new (t! "C")) })]),
   (none, .new (t! "d"), .enum {} (.tagged { label := some (.new (t! "D")) } (.binary none [.computed [0, 255]]))),
   (none, .new (t! "e"), .tagged { tag := some tags.NUMBER } (.text none [.computed (t! "+00"), .computed (t! "1.50")]))]

example : (value digitsEnv spelled).isSome = true ∧ safe spelled = true ∧
    valueT digitsEnv spelled = t! "{\"a\":[1,1.5,null,\"é\\n\\\"\"],\"b\":{\"-1\":\"C\"},\"d\":{\"D\":[0,255]},\"e\":1.50}" := by
  decide +kernel

/-- C64. A `JsonStr` is copied: after any calls that were fine, formatting it writes its text and nothing else, whatever
the text is. -/
theorem C64_verbatim (env : Env) (pre : List Token) (t o : Text) (h : (toFmt strWriter env (.ofToks pre) o).1 = .ok) :
    toFmt strWriter env (.ofToks (pre ++ toks (jsonStr t))) o =
      (.ok, (toFmt strWriter env (.ofToks pre) o).2 ++ t) := by
  obtain ⟨s, hs⟩ := (toFmt_ok_iff strWriter env pre o).1 h
  have h1 := special_raw env { tag := some tags.JSON_VALUE } (.text (some (utf8Len t)) [.borrowed t]) s t (.inl rfl)
    (by simp [textOf, fragsText, Frag.content]) (.inr rfl)
  rw [toFmt_ok strWriter env pre o s hs, toFmt_ok strWriter env (pre ++ toks (jsonStr t)) o _ (by rw [run_append, hs]; exact h1)]

/-- C64, for the values that C19 and C20 hold for: whichever parts of a value are given as the JSON they format to,
the JSON of the value is the same. -/
theorem C64_embed_partial (env : Env) (v : V) (j : J) (hj : value env v = some j) (hs : safe v = true) (p : List Nat → Bool) :
    Json.toString env (valueOf (embed env p v)) = Json.toString env (valueOf v) := by
  obtain ⟨h1, h2, h3⟩ := (embed_all env v p).1.value j hj hs
  rw [C63_partial env v j hj hs, C63_partial env _ j h1 h2, h3]

/-- The whole value. -/
theorem C64_self_partial (env : Env) (v : V) (j : J) (hj : value env v = some j) (hs : safe v = true) :
    ∃ t, Json.toString env (valueOf v) = some t ∧ Json.toString env (valueOf (jsonStr t)) = some t := by
  refine ⟨_, C63_partial env v j hj hs, ?_⟩
  have := C64_embed_partial env v j hj hs (fun _ => true)
  unfold embed at this
  rw [if_pos rfl, asJson, C63_partial env v j hj hs] at this
  exact this

/-- C64 is false of a labelled value behind a labelled key: formatted by itself the label is left out, formatted there
it is not. -/
theorem C64_fails : ∃ (v : V) (p : List Nat → Bool),
    Json.toString anyEnv (valueOf v) = some (t! "{\"k\":{\"B\":1}") ∧
    Json.toString anyEnv (valueOf (embed anyEnv p v)) = some (t! "{\"k\":1}") :=
  ⟨.map none [(variantOf (t! "K") (textV (t! "k")), variantOf (t! "B") num1)], fun q => q == [0], by decide +kernel⟩

def parts : V := .seq none [.map none [(.int .u8 1, .seq none [.bool true, .null])],
  .enum {} (.tuple { label := some (.new (t! "A")) } none [(none, ⟨0, none⟩, .text none [.computed (t! "\"")])])]

/-- Parts at some depth, in JSON; the value has a JSON of its own. -/
example : (value anyEnv parts).isSome = true ∧ safe parts = true ∧
    toks (embed anyEnv (fun q => q == [0, 0] || q == [1, 0, 0]) parts) = toks (.seq none
      [.map none [(.int .u8 1, jsonStr (t! "[true,null]"))],
       .enum {} (.tuple { label := some (.new (t! "A")) } none [(none, ⟨0, none⟩, jsonStr (t! "\"\\\"\""))])]) := by
  decide +kernel

end Sval
