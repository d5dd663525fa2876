import Verif.Reader.Other
import Verif.Props.Reader
import Verif.Props.SerdeBack
import Verif.Props.Compose
import Verif.Props.Provided
import Verif.Props.Fmt

set_option autoImplicit false

/-!
# C81: JSON text as a value for the other streams
-/

namespace Sval

open Reader
open Json (J Doc)
open Serde (SV SCall ser serialize Accepts)

/-- The program of a text does on every stream what reading the text does. -/
theorem C81_prog (checks : Bool) (t : Text) (p : Prog) (h : Reader.prog checks t = some p) (σ : Type)
    (S : Token → σ → Res Unit σ) (s : σ) : stream checks S t s = drive S p s := by
  simp only [Reader.prog] at h
  simp only [stream]
  cases hr : (read checks t).res with
  | ok u => rw [hr] at h; cases h; rw [drive_ofToks]; cases run S (read checks t).calls s <;> rfl
  | err => rw [hr] at h; cases h; rw [drive_failing]; cases run S (read checks t).calls s <;> rfl
  | panic => rw [hr] at h; cases h

/-- Of a document that can be read it is that of the document's value. -/
theorem prog_doc (checks : Bool) (j : J) (t : Text) (h : Doc j t) (hp : Reader.plain false t = true) (hl : Reader.room 0 0 j = true) :
    ∃ v, Tree j v ∧ squeeze false t = spell v ∧ Reader.prog checks t = some (valueOf v) := by
  rcases read_doc checks j t h with ⟨v, _, h1, _, hq, h3⟩ | ⟨h1, _⟩ | ⟨h1, _⟩
  · exact ⟨v, h1, hq, by rw [Reader.prog, h3]; rfl⟩
  · rw [hp] at h1; cases h1
  · rw [hl] at h1; cases h1

/-! ## serde -/

/-- C81 for serde, as far as it holds: a serializer is given the text of a document by the same calls as the serde value
that the document is. Missing: documents with numbers, `C81_serde_exact`; texts that cannot be read, `C53_exact`. -/
theorem C81_serde_partial (checks : Bool) (j : J) (t : Text) (h : Doc j t) (hp : Reader.plain false t = true) (hl : Reader.room 0 0 j = true)
    (x : SV) (hx : svJ j = some x) : ∃ p, Reader.prog checks t = some p ∧
      ∀ (τ : Type) (S : SCall Unit τ → τ → Res Unit τ), ∃ N, ∀ d ≥ N, ∀ s, serialize () S d p s = ser S x s := by
  obtain ⟨v, h1, -, h2⟩ := prog_doc checks j t h hp hl
  exact ⟨_, h2, fun τ S => C79_calls S v x ((svOf_tree j v h1).trans hx)⟩

/-- C81 for serde: exactly the documents without numbers are serialized, by serializers that do not fail themselves. -/
theorem C81_serde_exact (checks : Bool) (j : J) (t : Text) (h : Doc j t) (hp : Reader.plain false t = true) (hl : Reader.room 0 0 j = true)
    {ε τ : Type} (custom : ε) (S : SCall ε τ → τ → Res ε τ) (hS : Accepts S) : ∃ p N, Reader.prog checks t = some p ∧
      ∀ d ≥ N, ∀ s, if numbers j then ∃ e s', serialize custom S d p s = .err e s' else ∃ s', serialize custom S d p s = .ok s' := by
  obtain ⟨v, h1, -, h2⟩ := prog_doc checks j t h hp hl
  have hi : Serde.serializable v = !numbers j := by
    rw [← (Serde.svOf_isSome v).1, svOf_tree j v h1]
    cases e : svJ j with
    | none => rw [(svJ_none j).1 e]; rfl
    | some x =>
      cases en : numbers j with
      | true => rw [(svJ_none j).2 en] at e; cases e
      | false => rfl
  cases hn : numbers j with
  | true =>
    obtain ⟨N, hN⟩ := C37_exact custom S hS v (Reader.supported_tree j v h1).1 (by rw [hi, hn]; rfl)
    exact ⟨_, N, h2, hN⟩
  | false =>
    obtain ⟨N, hN⟩ := C37_partial custom S hS v (by rw [hi, hn]; rfl)
    exact ⟨_, N, h2, hN⟩

/-- C81 is false: the text `1` is not serialized, by any serializer. -/
theorem C81_fails (checks : Bool) : Doc (.num 1) (t! "1") ∧ ∃ p, Reader.prog checks (t! "1") = some p ∧
    ∀ (ε τ : Type) (custom : ε) (S : SCall ε τ → τ → Res ε τ), ∃ N, ∀ d ≥ N, ∀ s, serialize custom S d p s = .err custom s := by
  refine ⟨(Json.parse_iff _ _).1 ?_, valueOf (numV (t! "1")), ?_, fun ε τ custom S => ?_⟩
  · exact (Json.toString_text_of anyEnv (.int .u8 1) (.num 1) rfl rfl).2
  · cases checks <;> rfl
  · obtain ⟨N, h⟩ := C37_calls custom S (numV (t! "1")) rfl
    exact ⟨N, fun d hd s => (h d hd s).trans rfl⟩

/-! ## Buffers, recursive streams, formatting -/

/-- C81 for buffers: the text of a document is collected without an error, and written as JSON from the buffer it is the
text without the whitespace. -/
theorem C81_buffer_partial (checks : Bool) (env : Json.Env) (j : J) (t : Text) (h : Doc j t) (hp : Reader.plain false t = true)
    (hl : Reader.room 0 0 j = true) (owned : Bool) : ∃ p s, Reader.prog checks t = some p ∧ Buf.collect true owned p = .ok s ∧
      Json.toString env (Prog.ofToks (Buf.replay s.parts).toks) = some (squeeze false t) ∧ Doc j (squeeze false t) := by
  obtain ⟨v, h1, hq, h2⟩ := prog_doc checks j t h hp hl
  obtain ⟨s, c1, -, c3, -⟩ := C43_partial env v (Reader.supported_tree j v h1).2 owned
  obtain ⟨v', a1, a2, a3, _, a5⟩ := same_tree env j v h1
  obtain ⟨u, b1, b2⟩ := Json.run_text env v' j a2 a3
  refine ⟨_, s, h2, c1, ?_, ?_⟩
  · rw [c3, valueOf, Json.toString_eq, a1, b1, Res.toOption, Option.map_some, b2, a5, hq]
  · obtain ⟨_, w, e1, e2, e3⟩ := Json.run_value env v' j a2 a3
    rw [b1] at e1
    cases e1
    rw [hq, ← a5, ← b2, e2]
    exact e3

/-- C81 for recursive streams: whichever methods one has, it is given the document (`Tree`, with each string in one piece),
in terms of the methods it has. -/
theorem C81_nested_partial (checks : Bool) (j : J) (t : Text) (h : Doc j t) (hp : Reader.plain false t = true) (hl : Reader.room 0 0 j = true) :
    ∃ p v, Reader.prog checks t = some p ∧ Tree j v ∧
      ∀ (I : Nested.Impl) (borrowed : Bool), Nested.Gets I ⟨borrowed, p⟩ (Nested.lower I (Nested.seen v)) := by
  obtain ⟨v, h1, -, h2⟩ := prog_doc checks j t h hp hl
  exact ⟨_, v, h2, h1, fun I b => C61 I v (Reader.supported_tree j v h1).1 b⟩

/-- C81 for `sval_fmt`: the document is written in the way of Rust's `Debug`, with its numbers as they are spelled. -/
theorem C81_fmt_partial (checks : Bool) (env : Fmt.Env) (j : J) (t : Text) (h : Doc j t) (hp : Reader.plain false t = true)
    (hl : Reader.room 0 0 j = true) : ∃ p u, Reader.prog checks t = some p ∧ Fmt.toString env p = some u ∧ Shown env j u := by
  obtain ⟨v, h1, -, h2⟩ := prog_doc checks j t h hp hl
  exact ⟨_, _, h2, C26_exact env v, layout_tree env _ j v h1⟩

/-! ## Examples -/

namespace Reader

/-- A document without numbers. -/
def wordy : Text := t! " {\"a\": [true, null, \"x\\ny\"], \"\" : {}} "

end Reader

example : Json.parse wordy = some (.obj [(t! "a", .arr [.bool true, .null, .str (t! "x\ny")]), (t! "", .obj [])]) := by rfl
example : Reader.plain false wordy = true ∧ Reader.room 0 0 (.obj [(t! "a", .arr [.bool true, .null, .str (t! "x\ny")]), (t! "", .obj [])]) = true := by
  decide +kernel
example : svJ (.obj [(t! "a", .arr [.bool true, .null, .str (t! "x\ny")]), (t! "", .obj [])]) =
    some (.map none [(.str (t! "a"), .seq none [.bool true, .none, .str (t! "x\ny")]), (.str [], .map none [])]) := rfl
example : numbers (.arr [.num 1]) = true ∧ numbers (.arr [.null]) = false := by decide
example : (Reader.prog false wordy).bind (Fmt.toString someEnv) = some (t! "{ \"a\": [true, (), \"x\\ny\"], \"\": {} }") := by
  decide +kernel
example : (Reader.prog true (t! "[1.50, {\"b\":-2e3}]")).bind (Fmt.toString someEnv) = some (t! "[1.50, { \"b\": -2e3 }]") := by
  decide +kernel
example : (Reader.prog true (t! "[")).isSome = true ∧ (Reader.prog true (t! "?")).isNone = true := by decide +kernel

end Sval
