import Verif.Json.Norm
import Verif.Json.Untag
import Verif.Buffer.Through
import Verif.Props.Buffer
import Verif.Props.Json
import Verif.Props.Fmt
import Verif.Props.Provided
import Verif.Props.Serde

set_option autoImplicit false

/-!
# Properties of several crates together: C43, C66
-/

namespace Sval
open Json Buf

/-! ## C43 -/

/-- C43, as far as it holds. A value whose labels tagged as identifiers are identifiers, and whose text tagged NUMBER is
a number (`steady`), can be buffered, by `ValueBuf::collect` and by `ValueBuf::collect_owned`. Replaying the buffer into
the formatter never panics, and gives the JSON, or the error, that formatting the value itself gives.

Missing: the values of `C43_fails_ident` and `C43_fails_number`, for which it is false. -/
theorem C43_partial (env : Env) (v : V) (hv : steady false v = true) (owned : Bool) :
    ∃ s, collect true owned (valueOf v) = .ok s ∧ (replay s.parts).panic = false ∧
      Json.toString env (Prog.ofToks (replay s.parts).toks) = Json.toString env (valueOf v) ∧
      (toFmt strWriter env (Prog.ofToks (replay s.parts).toks) []).1 = (toFmt strWriter env (valueOf v) []).1 := by
  obtain ⟨⟨s, h1, h2⟩, ⟨s', h1', h2'⟩⟩ := C15_collect v
  have hn : notNum ({ out := [] } : St Text) := fun n h => by cases h
  cases owned
  · refine ⟨s, h1, by rw [h2], ?_⟩
    rw [h2]
    exact toFmt_congr _ _ ((same_norm v hv) _ hn).1
  · refine ⟨s', h1', by rw [h2'], ?_⟩
    rw [h2']
    exact toFmt_congr _ _ ((same_norm_comp v hv) _ hn).1

/-- A record with a label tagged as an identifier, text in several fragments, a number in several fragments, and an
enum variant. -/
def buffered : V := .record { label := some (Label.new (t! "R")) } (some 4)
  [(none, Label.newComputed (t! "a\"b"), .text none [.borrowed (t! "x"), .computed (t! "\n")]),
   (none, (Label.new (t! "id")).withTag tags.VALUE_IDENT, .seq none [.null, .bool true]),
   (none, Label.new (t! "n"), .tagged { tag := some tags.NUMBER } (.text none [.borrowed (t! "+01"), .borrowed (t! ".50")])),
   (none, Label.new (t! "e"), .enum {} (variantOf (t! "V") (.binary none [.borrowed [1], .computed [2, 3]])))]

example : steady false buffered = true := by decide +kernel

example : Json.toString anyEnv (valueOf buffered) =
    some (t! "{\"a\\\"b\":\"x\\n\",\"id\":[null,true],\"n\":1.50,\"e\":{\"V\":[1,2,3]}}") := by
  decide +kernel

example : norm buffered ≠ buffered := by
  intro h
  have h := congrArg (fun v => (toks v).length) h
  revert h
  decide +kernel

/-- C43 is false for labels tagged as identifiers that are not: the buffer forgets the tag. -/
theorem C43_fails_ident : ∃ v s, collect true false (valueOf v) = .ok s ∧
    Json.toString anyEnv (valueOf v) = some (t! "{\"a\"b\":1}") ∧
    Json.toString anyEnv (Prog.ofToks (replay s.parts).toks) = some (t! "{\"a\\\"b\":1}") := by
  obtain ⟨⟨s, h1, h2⟩, -⟩ := C15_collect
    (.record {} none [(none, (Label.new (t! "a\"b")).withTag tags.VALUE_IDENT, num1)])
  exact ⟨_, s, h1, by decide +kernel, by rw [h2]; decide +kernel⟩

/-- C43 is false for numbers: the buffer joins the fragments, and the formatter writes `0e0` in one fragment otherwise than
in two. -/
theorem C43_fails_number : ∃ v s, collect true false (valueOf v) = .ok s ∧
    Json.toString anyEnv (valueOf v) = some (t! "e0") ∧
    Json.toString anyEnv (Prog.ofToks (replay s.parts).toks) = some (t! "00") := by
  obtain ⟨⟨s, h1, h2⟩, -⟩ := C15_collect
    (.tagged { tag := some tags.NUMBER } (.text none [.computed (t! "0e"), .computed (t! "0")]))
  exact ⟨_, s, h1, by decide +kernel, by rw [h2]; decide +kernel⟩

/-- When labels matter for C43. Take a value whose text tagged NUMBER is a number (`steady`, without the tags of the labels
of fields). If the value can be formatted, the buffer gives the same JSON exactly if each label of a field, of a record or
of a record tuple, that is tagged as an identifier is one. -/
theorem C43_exact (env : Env) (v : V) (hv : steady false (bare v) = true) (owned : Bool) :
    ∃ s, collect true owned (valueOf v) = .ok s ∧ (replay s.parts).panic = false ∧
      (Json.toString env (Prog.ofToks (replay s.parts).toks) = Json.toString env (valueOf v) ↔
        Json.toString env (valueOf v) = none ∨ (toks v).all labelOk = true) := by
  have hn : notNum ({ out := [] } : St Text) := fun n h => by cases h
  obtain ⟨⟨s, h1, h2⟩, ⟨s', h1', h2'⟩⟩ := C15_collect v
  cases owned
  · refine ⟨s, h1, by rw [h2], ?_⟩
    rw [h2]
    dsimp only
    rw [← norm_bare v, (toFmt_congr _ _ ((same_norm (bare v) hv) _ hn).1 :
      Json.toString env (Prog.ofToks (toks (norm (bare v)))) = Json.toString env (valueOf (bare v)) ∧ _).1, toks_bare]
    exact toString_untag env (toks v)
  · refine ⟨s', h1', by rw [h2'], ?_⟩
    rw [h2']
    dsimp only
    rw [← norm_bare (comp v), ← comp_bare, (toFmt_congr _ _ ((same_norm_comp (bare v) hv) _ hn).1 :
      Json.toString env (Prog.ofToks (toks (norm (comp (bare v))))) = Json.toString env (valueOf (bare v)) ∧ _).1, toks_bare]
    exact toString_untag env (toks v)

/-- A value to which `C43_exact` applies, and `C43_partial` does not: somewhere inside there is a label that is no
identifier. -/
def mislabelled : V := .seq none [buffered, .map none [(.text none [.borrowed (t! "k")],
  .recordTuple {} none [(none, (Label.new (t! "a\nb")).withTag tags.VALUE_IDENT, { val := 0 }, .null)])]]

example : steady false (bare mislabelled) = true ∧ steady false mislabelled = false ∧
    (toks mislabelled).all labelOk = false ∧ (Json.toString anyEnv (valueOf mislabelled)).isSome = true := by
  decide +kernel

/-- When numbers matter for C43: the buffer gives the JSON of text tagged NUMBER, however it is split, exactly if the text is
`splittable` (`C22_number_exact`). -/
theorem C43_number_exact (env : Env) (t : Text) (m : Meta) (hm : m.tag = some tags.NUMBER) (owned : Bool) :
    (∀ (n : Option Nat) (fs : List (Frag Text)), fragsText fs = t →
      ∃ s, collect true owned (valueOf (.tagged m (.text n fs))) = .ok s ∧ (replay s.parts).panic = false ∧
        Json.toString env (Prog.ofToks (replay s.parts).toks) = Json.toString env (valueOf (.tagged m (.text n fs)))) ↔
    splittable t = true := by
  have hone : ∀ (n : Option Nat) (fs : List (Frag Text)), fragsText fs = t →
      ∃ s, collect true owned (valueOf (.tagged m (.text n fs))) = .ok s ∧ (replay s.parts).panic = false ∧
        Json.toString env (Prog.ofToks (replay s.parts).toks) = handledText [t] := by
    intro n fs hf
    obtain ⟨⟨s, h1, h2⟩, ⟨s', h1', h2'⟩⟩ := C15_collect (.tagged m (.text n fs))
    cases owned
    · refine ⟨s, h1, by rw [h2], ?_⟩
      rw [h2]
      refine (number_json env (own m) hm (some (utf8Len (fragsText fs))) [mergedFrag fs]).trans ?_
      rw [← hf, List.map_cons, List.map_nil, mergedFrag_content]; rfl
    · refine ⟨s', h1', by rw [h2'], ?_⟩
      rw [h2']
      refine (number_json env (own m) hm (some (utf8Len (fragsText (fs.map fragComp)))) [mergedFrag (fs.map fragComp)]).trans ?_
      have : (fs.map fragComp).map Frag.content = fs.map Frag.content := by
        rw [List.map_map]; exact List.map_congr_left fun f _ => by cases f <;> rfl
      rw [← hf, List.map_cons, List.map_nil, mergedFrag_content, this]; rfl
  rw [← splittable_iff]
  constructor
  · intro h
    have key : ∀ fs : List Text, fs.flatten = t → handledText fs = handledText [t] := by
      intro fs hf
      have he : (fs.map Frag.computed).map Frag.content = fs := by rw [List.map_map]; exact List.map_id fs
      have hf' : fragsText (fs.map Frag.computed) = t := by rw [fragsText, he, hf]
      obtain ⟨s, h1, _, h2⟩ := h none (fs.map .computed) hf'
      obtain ⟨s', h1', _, h2'⟩ := hone none (fs.map .computed) hf'
      rw [h1] at h1'
      cases h1'
      rw [h2, valueOf, number_json env m hm, he] at h2'
      exact h2'
    intro fs fs' h1 h2
    rw [key fs h1, key fs' h2]
  · intro h n fs hf
    obtain ⟨s, h1, h2, h3⟩ := hone n fs hf
    refine ⟨s, h1, h2, ?_⟩
    rw [h3, valueOf, number_json env m hm]
    exact h _ _ (by simp) hf

/-! ## C66 -/

/-- What a buffer replays is a value that recursive streams see as the value itself, and that is laid out like it. -/
theorem buffered_value (v : V) (owned : Bool) : ∃ s w, collect true owned (valueOf v) = .ok s ∧
    (replay s.parts).panic = false ∧ Prog.ofToks (replay s.parts).toks = valueOf w ∧
    Nested.seen w = Nested.seen v ∧ ∀ env, Fmt.layout env Fmt.twice false w = Fmt.layout env Fmt.twice false v := by
  obtain ⟨⟨s, h1, h2⟩, ⟨s', h1', h2'⟩⟩ := C15_collect v
  cases owned
  · exact ⟨s, norm v, h1, by rw [h2], by rw [h2]; rfl, Through.seen_norm v, fun env => Through.layout_norm env v false⟩
  · exact ⟨s', norm (comp v), h1', by rw [h2'], by rw [h2']; rfl, by rw [Through.seen_norm, Through.seen_comp],
      fun env => by rw [Through.layout_norm, Through.layout_comp]⟩

/-- C66. Any value can be buffered, and formatting the buffer with `sval_fmt` gives the text of the value itself. Unlike
with `sval_json` (C43) there are no exceptions. -/
theorem C66_fmt (env : Fmt.Env) (v : V) (owned : Bool) :
    ∃ s, collect true owned (valueOf v) = .ok s ∧ (replay s.parts).panic = false ∧
      Fmt.toString env (Prog.ofToks (replay s.parts).toks) = Fmt.toString env (valueOf v) := by
  obtain ⟨s, w, h1, h2, h3, _, h4⟩ := buffered_value v owned
  exact ⟨s, h1, h2, by rw [h3, C26_exact, C26_exact, h4]⟩

/-- C66. A recursive stream, with whichever methods, sees the same tree in the buffer as in the value itself. -/
theorem C66_nested (I : Nested.Impl) (v : V) (hv : Nested.supported v = true) (owned borrowed : Bool) :
    ∃ s, collect true owned (valueOf v) = .ok s ∧ (replay s.parts).panic = false ∧
      Nested.Gets I ⟨borrowed, Prog.ofToks (replay s.parts).toks⟩ (Nested.lower I (Nested.seen v)) ∧
      Nested.Gets I ⟨borrowed, valueOf v⟩ (Nested.lower I (Nested.seen v)) := by
  obtain ⟨s, w, h1, h2, h3, h4, _⟩ := buffered_value v owned
  refine ⟨s, h1, h2, ?_, C61 I v hv borrowed⟩
  rw [h3, ← h4]
  exact C61 I w (by rw [← Nested.supported_seen, h4, Nested.supported_seen]; exact hv) borrowed

/-- C66. Any serializer, also one that fails somewhere, does the same with the buffer as with the value itself, with
the same errors. In particular labels that were static are still. -/
theorem C66_serde {ε τ : Type} (custom : ε) (S : Serde.SCall ε τ → τ → Res ε τ) (v : V) (hv : Nested.supported v = true)
    (owned : Bool) :
    ∃ s, collect true owned (valueOf v) = .ok s ∧ (replay s.parts).panic = false ∧
      ∃ N, ∀ d ≥ N, ∀ t, Serde.serialize custom S d (Prog.ofToks (replay s.parts).toks) t =
        Serde.serialize custom S d (valueOf v) t := by
  obtain ⟨s, w, h1, h2, h3, h4, _⟩ := buffered_value v owned
  refine ⟨s, h1, h2, ?_⟩
  rw [h3]
  obtain ⟨N, h⟩ := C37_calls custom S v hv
  obtain ⟨M, h'⟩ := C37_calls custom S w (by rw [← Nested.supported_seen, h4, Nested.supported_seen]; exact hv)
  refine ⟨max N M, fun d hd t => ?_⟩
  rw [h d (by omega) t, h' d (by omega) t, ← (Serde.serV_seen custom S v).1, ← (Serde.serV_seen custom S w).1, h4]

example : Nested.supported buffered = true ∧ Fmt.toString someEnv (valueOf buffered) =
    some (t! "R { a\"b: \"x\\n\", id: [(), true], n: +01.50, e: V([1, 2, 3]) }") := by decide +kernel

end Sval
