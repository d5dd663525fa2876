import Verif.Json.Panic
import Verif.Json.Io
import Verif.Fmt.Safe
import Verif.Nested.Calm
import Verif.Nested.Steady
import Verif.Props.Json
import Verif.Props.Fmt

set_option autoImplicit false

/-!
# C93: wrong calls and panics

The code that streams a value here is any code: it makes calls in any order, hands over values with `value` and
`value_computed`, and goes on after errors or not.
-/

namespace Sval

/-! ## `sval_json` -/

/-- C93. Whatever calls `sval_json` gets, in whatever order, it panics only for text that is not ASCII, or a label that
is not, after the beginning of a number in text, unless the writer panics. `received` are the calls it did get. -/
theorem C93_json {ω : Type} (w : Json.Writer ω) (hw : ∀ t o, w t o ≠ .panic) (env : Json.Env) (p : Prog) (o : ω)
    (h : (Json.toFmt w env p o).1 = .panic) :
    ∃ before t after, received (Json.stepP w env) p .base ({ out := o }, false) = before ++ t :: after ∧
      (∃ c ∈ Json.wording t, 128 ≤ c.toNat) ∧ ∃ u ∈ before, Json.opensNumber u := by
  obtain ⟨a, t, b, h1, h2, h3⟩ := Json.toFmt_panic_where hw env p o h
  refine ⟨a, t, b, h1, ?_, h3⟩
  simpa [Json.ascii] using h2

/-- C93. The same for a `Vec` or any `io::Write`, whatever it answers. -/
theorem C93_json_io (env : Json.Env) (p : Prog) (answers : List Json.Ans) (h : (Json.toIo env p answers).1 = .panic) :
    ∃ before t after,
      received (Json.stepP Json.ioWriter env) p .base ({ out := ⟨answers, [], none⟩ }, false) = before ++ t :: after ∧
      (∃ c ∈ Json.wording t, 128 ≤ c.toNat) ∧ ∃ u ∈ before, Json.opensNumber u := by
  refine C93_json Json.ioWriter (fun t o => ?_) env p _ ?_
  · have : ∀ (as : List Json.Ans) (buf got : Bytes), Json.ioLoop o.err as buf got ≠ .panic := by
      intro as
      induction as with
      | nil => intro buf got; cases buf <;> simp [Json.ioLoop]
      | cons a as ih =>
        intro buf got
        cases buf with
        | nil => simp [Json.ioLoop]
        | cons b buf =>
          cases a with
          | wrote n =>
            rw [Json.ioLoop]
            split
            · simp
            · exact ih _ _
          | interrupted => rw [Json.ioLoop]; exact ih _ _
          | error e => simp [Json.ioLoop]
    exact this _ _ _
  · simp only [Json.toIo] at h
    split at h
    · cases h
    · assumption
    · split at h <;> cases h
    · split at h <;> cases h

/-- Calls in no order, errors ignored. -/
def jumble : List Token → Prog
  | [] => .ret true
  | t :: ts => .call t fun _ => jumble ts

/-- A jumble without numbers, and with text that is not ASCII: no panic, although calls fail. -/
example : Json.toFmt Json.strWriter anyEnv (jumble [.mapEnd, .textFragment (t! "é0"), .mapKeyBegin, .seqBegin none, .recordTupleEnd {}, .enumEnd {}]) []
    = (.ok, t! "}é0,\"}") := by decide +kernel

/-- C93 fails: a panic, as the hypothesis of `C93_json` asks for, also for the label of a tag. -/
theorem C93_fails_json :
    (Json.toFmt Json.strWriter anyEnv (jumble [.taggedBegin { tag := some tags.NUMBER }, .textBegin none, .textFragment (t! "é0")]) []).1 = .panic ∧
    (Json.toFmt Json.strWriter anyEnv (jumble [.taggedBegin { tag := some tags.NUMBER }, .tag { label := some (Label.new (t! "é0")) }]) []).1 = .panic := by
  decide +kernel

/-! ## `sval_fmt` -/

/-- C93. Whatever calls `sval_fmt` gets, it does not panic, unless the `TokenWrite` panics; nor does `{}`. -/
theorem C93_fmt {ω : Type} (w : Fmt.Writer ω) (hw : ∀ k t o, w k t o ≠ .panic) (env : Fmt.Env) (p : Prog) (o : ω) :
    (∃ ok o', Fmt.toWrite w env p o = .done ok o') ∧ ∃ ok o', Fmt.display w env p o = .done ok o' := by
  refine ⟨?_, ?_⟩
  · match e : Fmt.toWrite w env p o with
    | .done ok o' => exact ⟨ok, o', rfl⟩
    | .panicked => exact absurd e (Fmt.toWrite_safe hw p o)
  · match e : Fmt.display w env p o with
    | .done ok o' => exact ⟨ok, o', rfl⟩
    | .panicked => exact absurd e (Fmt.display_safe hw p o)

example : Fmt.toWrite Fmt.strWriter someEnv (jumble [.mapEnd, .textFragment (t! "é"), .mapKeyBegin, .seqBegin none, .recordTupleEnd {}]) []
    = .done true (t! "}é [}") := by decide +kernel

/-! ## `ValueBuf` -/

/-- C93. Exactly when collecting a value in a `ValueBuf` panics: if a fragment is among the calls, and before it there
are only calls that end something. -/
theorem C93_buffer (computed : Bool) (p : Prog) :
    Buf.collect true computed p = .panic ↔
      ∃ before t after,
        received (Buf.stepB true) p (if computed then .computed .base else .base) ({}, false) = before ++ t :: after ∧
        (∀ u ∈ before, Buf.isEnd u = true ∨ u = .textEnd ∨ u = .binaryEnd) ∧ Buf.isFrag t = true := by
  have hg : Buf.stepB true = guarded (Buf.step true) := by
    funext t s
    simp only [Buf.stepB, guarded]
    split
    · rfl
    · cases Buf.step true t s.1 <;> rfl
  have hf : ∀ u, (Buf.fills u = false ∧ Buf.isFrag u = false) ↔ (Buf.isEnd u = true ∨ u = .textEnd ∨ u = .binaryEnd) := by
    intro u
    cases u <;> simp [Buf.fills, Buf.isFrag, Buf.isEnd]
  simp only [← hf]
  rw [hg, ← Buf.panics_bare _ {} ⟨rfl, rfl⟩, ← exec_received]
  simp only [Buf.collect, hg]
  generalize exec (guarded (Buf.step true)) p (if computed then .computed .base else .base) ({}, false) = r
  split
  · rename_i h; simp [h]
  · rename_i h
    simp only [h]
    split
    · simp
    · split <;> simp

/-- Fragments outside of texts are errors once there is something in the buffer. -/
example : (match Buf.collect true false (jumble [.null, .textFragment (t! "a"), .mapEnd, .binaryFragment [1], .seqValueEnd]) with
    | .ok b => b.parts.length | _ => 0) = 1 := by decide +kernel

theorem C93_fails_buffer : Buf.collect true false (jumble [.mapEnd, .textEnd, .textFragment (t! "a"), .null]) = .panic := by
  decide +kernel

/-! ## `sval_nested` -/

/-- C93, as far as it holds. Code that uses `?`, and begins no enum, does not make a recursive stream panic, whatever else
it calls in whatever order, unless a method of the recursive stream panics.

Missing: code that goes on after an error, `C93_nested_on_partial`, and enums, `C93_fails_nested`. For trees there is `C34_exact`. -/
theorem C93_nested_partial {σ : Type} (C : Nested.Cb → σ → Res Unit σ) (hC : ∀ c s, C c s ≠ .panic) (p : Prog)
    (hp : p.Propagates) (ho : p.Only fun t => Nested.opensEnum t = false) (computed : Bool) (s : σ) :
    ∃ ok s', Nested.stream C computed p s = .done ok s' := by
  match e : Nested.stream C computed p s with
  | .done ok s' => exact ⟨ok, s', rfl⟩
  | .panicked => exact absurd e (Nested.calm_stream hC p computed s hp ho)

/-- A recursive stream that counts the calls of its methods. -/
def tallies (_ : Nested.Cb) (n : Nat) : Res Unit Nat := .ok (n + 1)

/-- Calls that make no sense, but no panic: a sequence with a key, ended as a map. -/
example : (Prog.ofToks [.seqBegin none, .mapKeyEnd, .null, .recordBegin {} none, .mapKeyBegin, .textFragment (t! "a")]).Propagates ∧
    (Prog.ofToks [.seqBegin none, .mapKeyEnd, .null, .recordBegin {} none, .mapKeyBegin, .textFragment (t! "a")]).Only
      (fun t => Nested.opensEnum t = false) ∧
    Nested.stream tallies false
      (.ofToks [.seqBegin none, .mapKeyEnd, .null, .recordBegin {} none, .mapKeyBegin, .textFragment (t! "a")]) 0 = .done false 2 :=
  ⟨ofToks_propagates _, only_ofToks _ (by simp [Nested.opensEnum]), by decide +kernel⟩

/-- C93, as far as it holds. Code that begins no enum, and calls no fragment of a text or of bytes (it may hand over texts
as values), does not make a recursive stream panic, whatever it calls in whatever order and whether it goes on after errors.

Missing: fragments after an error, and enums, `C93_fails_nested`. -/
theorem C93_nested_on_partial {σ : Type} (C : Nested.Cb → σ → Res Unit σ) (hC : ∀ c s, C c s ≠ .panic) (p : Prog)
    (ho : p.Only fun t => Nested.opensEnum t = false) (hf : p.Only fun t => Buf.isFrag t = false) (computed : Bool) (s : σ) :
    ∃ ok s', Nested.stream C computed p s = .done ok s' := by
  match e : Nested.stream C computed p s with
  | .done ok s' => exact ⟨ok, s', rfl⟩
  | .panicked => exact absurd e (Nested.steady_stream hC p computed s ho hf)

/-- Code that goes on after errors, in a buffered value and in the recursive stream. -/
example : Nested.stream tallies false
    (jumble [.seqBegin none, .recordBegin {} none, .mapEnd, .seqEnd, .textEnd, .tupleEnd {}, .null, .binaryEnd, .mapKeyBegin]) 0 = .done false 3 ∧
    Nested.stream tallies false
    (.call (.seqBegin none) fun _ => .call (.recordBegin {} none) fun _ => .value (.ret false) fun _ => jumble [.mapEnd, .null, .seqEnd]) 0 = .done false 1 := by
  decide +kernel

/-- C93 fails: an enum that ends without a variant, and code that goes on after an error in a buffered value. -/
theorem C93_fails_nested :
    Nested.stream tallies false (.ofToks [.enumBegin {}, .enumEnd {}]) 0 = .panicked ∧
    Nested.stream tallies false
      (jumble [.seqBegin none, .recordBegin {} none, .textFragment (t! "a"), .textFragment (t! "a")]) 0 = .panicked := by
  decide +kernel

end Sval
