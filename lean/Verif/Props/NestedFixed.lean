import Verif.Nested.Fixed
import Verif.Nested.Sim
import Verif.Props.NestedNoAlloc

set_option autoImplicit false

/-!
# C90: a recursive stream cannot change what it is shown
-/

namespace Sval

open Nested

/-- C90. Whatever code streams itself to a recursive stream, and however that is built: there is one list of calls that it makes,
on any recursive stream in any state, one after the other until one fails; and one result, for streams on which none does. When
one fails the stream is not called again and the result is a failure; unless the code goes on and runs into a panic. -/
theorem C90 (B : Build) (computed : Bool) (p : Prog) : ∃ (X : List Cb) (result : Option Bool),
    ∀ (σ : Type) (C : Cb → σ → Res Unit σ) (s : σ),
      match runCb C X s with
      | .ok s' => streamA C B computed p s = (match result with | some ok => .done ok s' | none => .panicked)
      | .err _ s' => streamA C B computed p s = .done false s' ∨ (¬p.Propagates ∧ streamA C B computed p s = .panicked)
      | .panic => streamA C B computed p s = .panicked := by
  obtain ⟨X, o, h⟩ := linR_exec (P := p.Propagates) B p computed id none .any
  refine ⟨X, o.map fun x => decide (x.2.2 = .done true), fun σ C s => ?_⟩
  have h := h σ C s
  unfold streamA
  revert h
  cases runCb C X s with
  | ok s' =>
    intro h
    dsimp only at h ⊢
    rw [h]
    rcases o with _ | ⟨ok, b, m⟩ <;> rfl
  | err e s' =>
    rintro (⟨ok, b, _, h⟩ | ⟨hP, h⟩)
    · exact .inl (by dsimp only at h; rw [h]; rfl)
    · exact .inr ⟨hP, by dsimp only at h; rw [h]⟩
  | panic => exact fun h => by dsimp only at h ⊢; rw [h]

/-- A recursive stream that records its calls, and fails when it is told to. -/
def recording (keep : List Cb → Cb → Bool) : Cb → List Cb → Res Unit (List Cb) := fun c s =>
  if keep s c then .ok (s ++ [c]) else .err () (s ++ [c])

theorem runCb_recording (keep : List Cb → Cb → Bool) (X : List Cb) : ∀ s,
    (∃ n, runCb (recording keep) X s = .err () (s ++ X.take n) ∧ ∃ s c, keep s c = false) ∨ runCb (recording keep) X s = .ok (s ++ X) := by
  induction X with
  | nil => exact fun s => .inr (by simp [runCb])
  | cons c X ih =>
    intro s
    rw [runCb, recording]
    cases h : keep s c with
    | false => exact .inl ⟨1, by simp, s, c, h⟩
    | true =>
      simp only [if_true, Res.bind_ok]
      rcases ih (s ++ [c]) with ⟨n, h, hk⟩ | h
      · exact .inl ⟨n + 1, by rw [h]; simp, hk⟩
      · exact .inr (by rw [h]; simp)

/-- C90, for streams that record their calls: one that fails has been shown the start of what one that does not fail is shown. -/
theorem C90_recorded (B : Build) (computed : Bool) (p : Prog) : ∃ X : List Cb,
    (∀ ok Y, streamA (recording fun _ _ => true) B computed p [] = .done ok Y → Y = X) ∧
    ∀ keep ok Y, streamA (recording keep) B computed p [] = .done ok Y → Y <+: X ∧ (ok = true → Y = X) := by
  obtain ⟨X, e, h⟩ := C90 B computed p
  have key : ∀ keep ok Y, streamA (recording keep) B computed p [] = .done ok Y → Y <+: X ∧ (ok = true → Y = X) ∧
      ((∀ s c, keep s c = true) → Y = X) := by
    intro keep ok Y hY
    have h := h _ (recording keep) []
    rcases runCb_recording keep X [] with ⟨n, hn, s, c, hk⟩ | hn <;> rw [hn] at h <;> dsimp only at h
    · rw [hY] at h
      rcases h with h | ⟨_, h⟩
      · cases h
        exact ⟨by simpa using List.take_prefix n X, by simp, fun h => by simp [h] at hk⟩
      · cases h
    · rw [hY] at h
      cases e with
      | none => cases h
      | some ok =>
        cases h
        exact ⟨List.prefix_refl _, fun _ => rfl, fun _ => rfl⟩
  exact ⟨X, fun ok Y h => (key _ ok Y h).2.2 fun _ _ => rfl, fun keep ok Y h => ⟨(key keep ok Y h).1, (key keep ok Y h).2.1⟩⟩

/-- C90, for two streams that do not fail: they get the same result. -/
theorem C90_same {σ τ : Type} (B : Build) (computed : Bool) (p : Prog) (C : Cb → σ → Res Unit σ) (D : Cb → τ → Res Unit τ) (s : σ) (t : τ)
    (hC : ∀ c s, ∃ s', C c s = .ok s') (hD : ∀ c t, ∃ t', D c t = .ok t') :
    (streamA C B computed p s = .panicked ∧ streamA D B computed p t = .panicked) ∨
    ∃ ok s' t', streamA C B computed p s = .done ok s' ∧ streamA D B computed p t = .done ok t' := by
  have run : ∀ {α : Type} (F : Cb → α → Res Unit α), (∀ c a, ∃ a', F c a = .ok a') → ∀ X a, ∃ a', runCb F X a = .ok a' := by
    intro α F hF X
    induction X with
    | nil => exact fun a => ⟨a, rfl⟩
    | cons c X ih =>
      intro a
      obtain ⟨b, hb⟩ := hF c a
      obtain ⟨a', h⟩ := ih b
      exact ⟨a', by rw [runCb, hb]; exact h⟩
  obtain ⟨X, e, h⟩ := C90 B computed p
  obtain ⟨s', h1⟩ := run C hC X s
  obtain ⟨t', h2⟩ := run D hD X t
  have h3 := h _ C s
  have h4 := h _ D t
  rw [h1] at h3
  rw [h2] at h4
  cases e with
  | none => exact .inl ⟨h3, h4⟩
  | some ok => exact .inr ⟨ok, s', t', h3, h4⟩

/-- C90, for code that returns the errors of the stream, and the build with the feature `alloc`. -/
theorem C90_alloc (computed : Bool) (p : Prog) (hp : p.Propagates) : ∃ (X : List Cb) (result : Option Bool),
    ∀ (σ : Type) (C : Cb → σ → Res Unit σ) (s : σ),
      stream C computed p s = (match runCb C X s, result with
        | .ok s', some ok => .done ok s'
        | .ok _, none => .panicked
        | .err _ s', _ => .done false s'
        | .panic, _ => .panicked) := by
  obtain ⟨X, e, h⟩ := C90 { alloc := true } computed p
  refine ⟨X, e, fun σ C s => ?_⟩
  have h := h σ C s
  rw [streamA_true C rfl] at h
  revert h
  cases runCb C X s with
  | ok s' => cases e <;> exact id
  | err e s' => exact fun h => h.resolve_right fun h => h.1 hp
  | panic => exact id

/-! ## Examples -/

/-- A value that is not well-formed, from code that ignores errors: an element of a sequence; the end of a map, which fails; and
another sequence. -/
def stubborn : Prog :=
  .call (.seqBegin (some 1)) fun _ => .call .seqValueBegin fun _ => .call (.int .u8 1) fun _ => .call .mapEnd fun _ =>
    .call (.seqBegin none) fun _ => .call .seqEnd fun _ => .ret true

/-- What it shows: `seq_begin`, `value` and no end, whatever the stream does. -/
example : (streamA (recording fun _ _ => true) { alloc := true } false stubborn []) =
    .done false [.seqBegin (some 1), .seqValue { borrowed := false, prog := .ofToks [.int .u8 1] }] := rfl

example : (streamA (recording fun s _ => s.length = 0) { alloc := true } false stubborn []) =
    .done false [.seqBegin (some 1), .seqValue { borrowed := false, prog := .ofToks [.int .u8 1] }] := rfl

example : (streamA (recording fun _ _ => false) { alloc := true } false stubborn []) = .done false [.seqBegin (some 1)] := rfl

/-- The panic that code can run into when it goes on after a failure: without the feature `alloc`, in a build with debug assertions,
a text in two fragments. The stream is still not called again. -/
example : let p : Prog := .call .null fun _ => .call (.textBegin none) fun _ => .call (.textFragment (t! "a")) fun _ =>
      .call (.textFragment (t! "b")) fun _ => .ret false
    ¬p.Propagates ∧ streamA (recording fun _ _ => false) { alloc := false, debugAssertions := true } false p [] = .panicked :=
  ⟨fun h => by simp [Prog.Propagates] at h, rfl⟩

/-- The hypotheses of `C90_same` and `C90_alloc`, met. -/
example : (∀ c s, ∃ s', recording (fun _ _ => true) c s = .ok s') ∧ (prog [.tok (.seqBegin none), .val [.tok .null], .tok .seqEnd]).Propagates :=
  ⟨fun c s => ⟨s ++ [c], rfl⟩, item_propagates _⟩

end Sval
