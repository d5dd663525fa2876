import Verif.Props.NestedBare
import Verif.Props.Json

set_option autoImplicit false

/-!
# What C33 means for JSON
-/

namespace Sval

open Nested Json

/-- C33. What it means for JSON: the element of `[[1,2]]`, that a method gets, is written as `[12]`, which is a
document, but that of a list of one number. -/
theorem C33_fails_json : ∃ a : Arg, Makes false (valueOf (.seq none [.seq none [.int .i32 1, .int .i32 2]])) [.seqBegin none, .seqValue a, .seqEnd] ∧
    Json.toString anyEnv a.prog = some (t! "[12]") ∧
    Json.toString anyEnv (valueOf (.seq none [.int .i32 12])) = some (t! "[12]") ∧
    Json.toString anyEnv (valueOf (.seq none [.int .i32 1, .int .i32 2])) = some (t! "[1,2]") := by
  refine ⟨⟨false, prog (regroup [.seqBegin none, .int .i32 1, .int .i32 2, .seqEnd])⟩, ?_, by decide +kernel, by decide +kernel, by decide +kernel⟩
  intro σ C s
  rw [valueOf_prog]
  refine Does.makes (is := [.tok (.seqBegin none), .tok .seqValueBegin, .tok (.seqBegin none), .tok .seqValueBegin, .tok (.int .i32 1),
    .tok .seqValueEnd, .tok .seqValueBegin, .tok (.int .i32 2), .tok .seqValueEnd, .tok .seqEnd, .tok .seqValueEnd, .tok .seqEnd]) ?_ σ C s
  refine Does.cons (X := [.seqBegin none]) (does_begin (m' := .seq) fun _ _ _ => rfl) ?_
  have ok : ∀ {t b b' m m' q X b'' m''} (_ : ∀ (σ : Type) (C : Cb → σ → Res Unit σ) (s : σ), call C t ⟨b, m, s⟩ = .ok ⟨b', m', s⟩),
    Does q b' m' X b'' m'' → Does (.tok t :: q) b m X b'' m'' := fun h h' => Does.cons (X := []) (does_ok h) h'
  refine ok (fun _ _ _ => rfl) <| ok (fun _ _ _ => rfl) <| ok (fun _ _ _ => rfl) <| ok (fun _ _ _ => rfl) <|
    ok (fun _ _ _ => rfl) <| ok (fun _ _ _ => rfl) <| ok (fun _ _ _ => rfl) <| ok (fun _ _ _ => rfl) <| ?_
  refine Does.cons (X := [_]) (m' := .seq) (b' := none) (does_tok fun σ C s => ?_) <| ok (fun _ _ _ => rfl) <| does_begin fun _ _ _ => rfl
  exact (agrees₀_cb C _ _ _ s).catch

end Sval
