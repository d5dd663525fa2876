import Verif.Reader.Readable
import Verif.Props.Reader
import Verif.Props.JsonText

set_option autoImplicit false

/-!
# Properties of the JSON reader on what the JSON formatter writes: C80
-/

namespace Sval

open Reader

/-- C80, as far as it holds: what is written for a value is read again, as the document that the value means, if and only
if its strings and names have no control characters but line breaks; otherwise the reader panics. Missing: texts tagged
as numbers or JSON, see C65; documents nested too deep, `C53_fails`; and the values of C20. -/
theorem C80_partial (checks : Bool) (env : Json.Env) (he : Lower env) (v : V) (j : Json.J) (hj : Json.value env v = some j)
    (hs : Json.safe v = true) (ho : ordinary v = true) (hl : room 0 0 j = true) :
    ∃ t, Json.toString env (valueOf v) = some t ∧
      (readable j = true → ∃ v', Tree j v' ∧
        ∀ (σ : Type) (S : Token → σ → Res Unit σ) (s : σ), stream checks S t s = drive S (valueOf v') s) ∧
      (readable j = false → (read checks t).res = .panic) := by
  obtain ⟨t, h1, h2, _⟩ := C20_round_trip_partial env v j hj hs
  have h2 := (Json.parse_iff j t).1 h2
  have h3 := C63_partial env v j hj hs
  rw [h1] at h3
  have h4 : plain false t = readable j := by rw [Option.some.inj h3]; exact plain_valueT env he v j hj ho
  refine ⟨t, h1, fun h => ?_, fun h => ?_⟩
  · exact C53_partial checks j t h2 (h4.trans h) hl
  · exact (C53_exact checks j t h2 hl).2.2 (h4.trans h)

/-- C80. Reading and writing once more gives the same text. -/
theorem C80_again_partial (checks : Bool) (env : Json.Env) (he : Lower env) (v : V) (j : Json.J) (hj : Json.value env v = some j)
    (hs : Json.safe v = true) (ho : ordinary v = true) (hl : room 0 0 j = true) (hr : readable j = true) :
    ∃ t s, Json.toString env (valueOf v) = some t ∧
      stream checks (Json.call Json.strWriter env) t { out := [] } = .done true s ∧ s.out = t := by
  have h := C63_partial env v j hj hs
  have hp : plain false (Json.valueT env v) = true := (plain_valueT env he v j hj ho).trans hr
  obtain ⟨s, h1, h2⟩ := C65_value_partial checks env v j hj hs (noRaw_ordinary v ho) _ h hp hl
  exact ⟨_, s, h, h1, h2⟩

/-- A record with a text in which there is a tab. -/
def tabbed : V := .record { label := some (Label.new (t! "R")) } (some 1) [(none, Label.new (t! "a"), .text none [.borrowed (t! "x\ty")])]

/-- C80 is false: a tab is written as `\t`, on which the reader panics. -/
theorem C80_fails (checks : Bool) (env : Json.Env) : ∃ t, Json.toString env (valueOf tabbed) = some t ∧
    t = t! "{\"a\":\"x\\ty\"}" ∧ (read checks t).res = .panic := by
  refine ⟨t! "{\"a\":\"x\\ty\"}", C63_partial env tabbed (.obj [(t! "a", .str (t! "x\ty"))]) rfl rfl, rfl, ?_⟩
  cases checks <;> decide +kernel

/-- C80, exactly, for every value that C20 is about, tagged texts and deep nesting included, and any build: what is written
is read again if and only if its strings use no escapes but those the reader knows, its numbers no `E`, and its brackets are
those the counters can hold (`plain`, `holds`); and then what is read is the document the value means. -/
theorem C80_exact (checks : Bool) (env : Json.Env) (v : V) (j : Json.J) (hj : Json.value env v = some j) (hs : Json.safe v = true) :
    ∃ t, Json.toString env (valueOf v) = some t ∧
      ((read checks t).res = .ok () ↔ plain false t = true ∧ holds checks 0 0 j = true) ∧
      ((read checks t).res = .ok () → ∃ v', Tree j v' ∧
        ∀ (σ : Type) (S : Token → σ → Res Unit σ) (s : σ), stream checks S t s = drive S (valueOf v') s) := by
  obtain ⟨t, h1, h2, _⟩ := C20_round_trip_partial env v j hj hs
  have h3 := C53_builds checks j t ((Json.parse_iff j t).1 h2)
  refine ⟨t, h1, h3.1, fun h => ?_⟩
  obtain ⟨v', h4, h5⟩ := h3.2 h
  refine ⟨v', h4, fun σ S s => ?_⟩
  rw [valueOf, drive_ofToks, stream, h5, h]
  cases run S (toks v') s <;> rfl

/-- A list of a number in text and of JSON, both of which are written as they are. -/
def copied : V := .seq none [.tagged { tag := some tags.NUMBER } (.text none [.borrowed (t! "1.50"), .borrowed (t! "e5")]),
  .tagged { tag := some tags.JSON_VALUE } (.text none [.borrowed (t! "{\"a\": [1E5]}")])]

/-- It is one of the values of `C80_exact`, and it is not read because of the `E` in the JSON. -/
example (checks : Bool) : ∃ j, Json.value digitsEnv copied = some j ∧ Json.safe copied = true ∧
    ∃ t, Json.toString digitsEnv (valueOf copied) = some t ∧ (read checks t).res ≠ .ok () := by
  obtain ⟨j, h⟩ := Option.isSome_iff_exists.1 (show (Json.value digitsEnv copied).isSome = true by decide +kernel)
  refine ⟨j, h, rfl, ?_⟩
  obtain ⟨t, h1, h2, _⟩ := C80_exact checks digitsEnv copied j h rfl
  have h3 := C63_partial digitsEnv copied j h rfl
  rw [h1] at h3
  refine ⟨t, h1, fun hr => ?_⟩
  have := (h2.1 hr).1
  rw [Option.some.inj h3] at this
  revert this
  decide +kernel

/-! ## Examples -/

example : Lower digitsEnv := ⟨fun _ => (by decide : 'E' ∉ t! "1.5"), fun _ => (by decide : 'E' ∉ t! "1e300")⟩

/-- A record with a key that is a number, text to be escaped, and an enum variant. -/
def kept : V := .record { label := some (Label.new (t! "R")) } none
  [(none, Label.new (t! "m"), .map none [(.int .u8 1, .text none [.borrowed (t! "a \" b"), .computed (t! "\n\\")])]),
   (none, { Label.new (t! "i") with tag := some tags.VALUE_IDENT }, .enum {} (.tagged { label := some (Label.new (t! "É")) } (.seq (some 2) [.null, .f64 0])))]

example : (Json.value digitsEnv kept).map readable = some true ∧ (Json.value digitsEnv kept).map (room 0 0) = some true ∧
    Json.safe kept = true ∧ ordinary kept = true := by decide +kernel

end Sval
