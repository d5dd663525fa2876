import Verif.Nested.Window
import Verif.Props.Panics

set_option autoImplicit false

/-!
# C93 for recursive streams, exactly
-/

namespace Sval

open Nested (Win Way walk)

/-- C93, for any recursive stream whose methods do not panic. Code that calls no fragment after an error, until it has begun
something again, makes it panic only in an enum that is the value itself, before its variant: the enum ends, or another enum is
in it and a record or a tuple begins. `Nested.walk` says so by counting the enums that began.

Missing: code that calls fragments after errors, which panics in some cases: `C93_fails_nested`. -/
theorem C93_nested_panics_partial {σ : Type} (C : Nested.Cb → σ → Res Unit σ) (hC : ∀ c s, C c s ≠ .panic) (p : Prog)
    (hp : Nested.Careful p false fun _ _ => True) (computed : Bool) (s : σ)
    (h : Nested.stream C computed p s = .panicked) : walk p computed .start = .boom :=
  (Nested.goes_stream (mf := true) hC (fun h => by cases h) p computed s hp).1 h

/-- C93, exactly, if the methods of the recursive stream do not fail either, for the same code. -/
theorem C93_nested_exact_partial {σ : Type} (C : Nested.Cb → σ → Res Unit σ) (hC : ∀ c s, ∃ s', C c s = .ok s') (p : Prog)
    (hp : Nested.Careful p false fun _ _ => True) (computed : Bool) (s : σ) :
    Nested.stream C computed p s = .panicked ↔ walk p computed .start = .boom := by
  have hC' : ∀ c s, C c s ≠ .panic := by
    intro c s h
    obtain ⟨s', h'⟩ := hC c s
    rw [h] at h'
    cases h'
  exact ⟨C93_nested_panics_partial C hC' p hp computed s,
    (Nested.goes_stream (mf := false) hC' (fun _ => hC) p computed s hp).2 rfl⟩

/-- Code that uses `?` is of this kind, whatever it calls. -/
theorem careful_of_propagates {p : Prog} (hp : p.Propagates) : Nested.Careful p false fun _ _ => True :=
  Nested.careful_propagates p _ trivial (fun _ => trivial) hp

/-- And code that calls no fragments, even if it goes on after errors. -/
theorem careful_of_only {p : Prog} (hp : p.Only fun t => Buf.isFrag t = false) : Nested.Careful p false fun _ _ => True :=
  Nested.careful_only p false _ (fun _ _ => trivial) hp

/-- Code that goes on after an error in a buffered value, with a text: it is careful, and does not panic; without the
beginning of the text it would. -/
example :
    let text : Prog := .call (.textBegin none) fun ok => if ok then .call (.textFragment (t! "a")) fun _ => .ret true else .ret true
    let again : Prog := .call (.seqBegin none) fun ok => if ok then .call (.recordBegin {} none) fun ok => if ok then
      .call (.textFragment (t! "a")) fun _ => text else text else text
    Nested.Careful again false (fun _ _ => True) ∧ Nested.stream tallies false again 0 = .done false 1 ∧
    Nested.stream tallies false (jumble [.seqBegin none, .recordBegin {} none, .textFragment (t! "a"), .textFragment (t! "a")]) 0 = .panicked := by
  refine ⟨?_, by decide +kernel, by decide +kernel⟩
  simp [Nested.Careful, Nested.refills, Buf.fills, Buf.isFrag, Buf.isEnd]

/-- Enums through values that are handed over: the second is streamed in place, in the first, and the record in it panics. A
value that is the first thing is passed on whole, and what comes after it makes no difference. -/
example :
    let twice : Prog := .call (.enumBegin {}) fun _ => .value (.ofToks [.enumBegin {}, .recordBegin {} none]) fun _ => .ret true
    let after : Prog := .value (.ofToks [.enumBegin {}]) fun _ => .call (.enumEnd {}) fun _ => .ret true
    Nested.Careful twice false (fun _ _ => True) ∧ walk twice false .start = .boom ∧ Nested.stream tallies false twice 0 = .panicked ∧
    walk after false .start = .past ∧ Nested.stream tallies false after 0 = .done true 1 ∧
    walk after true .start = .boom ∧ Nested.stream tallies true after 0 = .panicked :=
  ⟨by simp [Nested.Careful, Buf.isFrag, Prog.ofToks],
    by decide +kernel, by decide +kernel, by decide +kernel, by decide +kernel, by decide +kernel, by decide +kernel⟩

/-- Calls that do nothing in an enum without a variant. -/
def idles : Token → Bool
  | .seqValueBegin | .seqValueEnd | .tagHint _ | .mapKeyEnd | .mapValueEnd | .recordValueEnd _ _ | .tupleValueEnd _ _
  | .recordTupleValueEnd _ _ _ => true
  | _ => false

/-- The end of an enum. -/
def endsEnum : Token → Bool
  | .enumEnd _ => true
  | _ => false

/-- The beginning of a record or a tuple. -/
def beginsFields : Token → Bool
  | .recordBegin _ _ | .tupleBegin _ _ | .recordTupleBegin _ _ => true
  | _ => false

/-- Calls that panic. -/
def Fatal (n : Nat) (ts : List Token) : Prop :=
  ∃ pre t post, ts = pre ++ t :: post ∧ (∀ x ∈ pre, idles x = true ∨ Nested.opensEnum x = true) ∧
    (n + pre.countP Nested.opensEnum ≥ 1 ∧ endsEnum t = true ∨ n + pre.countP Nested.opensEnum ≥ 2 ∧ beginsFields t = true)

theorem fatal_cons (n : Nat) (t : Token) (ts : List Token) :
    Fatal n (t :: ts) ↔
      (n ≥ 1 ∧ endsEnum t = true ∨ n ≥ 2 ∧ beginsFields t = true) ∨
      (idles t = true ∨ Nested.opensEnum t = true) ∧ Fatal (n + if Nested.opensEnum t then 1 else 0) ts := by
  constructor
  · rintro ⟨pre, x, post, h1, h2, h3⟩
    cases pre with
    | nil =>
      cases h1
      exact .inl (by simpa using h3)
    | cons y pre =>
      cases h1
      refine .inr ⟨h2 _ (by simp), pre, x, post, rfl, fun z hz => h2 z (by simp [hz]), ?_⟩
      rw [List.countP_cons] at h3
      have : n + (if Nested.opensEnum t then 1 else 0) + pre.countP Nested.opensEnum =
          n + (pre.countP Nested.opensEnum + if Nested.opensEnum t then 1 else 0) := by omega
      rw [this]
      exact h3
  · rintro (h | ⟨h, pre, x, post, rfl, h2, h3⟩)
    · exact ⟨[], t, ts, rfl, by simp, by simpa using h⟩
    · refine ⟨t :: pre, x, post, rfl, ?_, ?_⟩
      · intro z hz
        rcases List.mem_cons.mp hz with rfl | hz
        · exact h
        · exact h2 z hz
      · rw [List.countP_cons]
        have : n + (if Nested.opensEnum t then 1 else 0) + pre.countP Nested.opensEnum =
            n + (pre.countP Nested.opensEnum + if Nested.opensEnum t then 1 else 0) := by omega
        rw [← this]
        exact h3

theorem walk_calls (c : Bool) (ts : List Token) :
    (walk (.ofToks ts) c .start = .boom ↔ Fatal 0 ts) ∧
    ∀ n, walk (.ofToks ts) c (.enums (n + 1)) = .boom ↔ Fatal (n + 1) ts := by
  induction ts with
  | nil =>
    have : ∀ n, ¬Fatal n [] := by
      rintro n ⟨pre, t, post, h, _⟩
      simp at h
    exact ⟨⟨fun h => absurd h (by simp [Prog.ofToks, walk]), fun h => absurd h (this _)⟩,
      fun n => ⟨fun h => absurd h (by simp [Prog.ofToks, walk]), fun h => absurd h (this _)⟩⟩
  | cons t ts ih =>
    constructor
    · rw [fatal_cons]
      cases t <;>
        simp [Prog.ofToks, walk, Nested.react, Way.andThen, idles, endsEnum, beginsFields, Nested.opensEnum, ih.1, ih.2 0]
    · intro n
      rw [fatal_cons]
      cases t <;>
        simp [Prog.ofToks, walk, Nested.react, Way.andThen, idles, endsEnum, beginsFields, Nested.opensEnum, ih.2 n, ih.2 (n + 1)]
      all_goals (cases n <;> simp)

/-- C93, exactly, for calls that are made in a row, with `?`: they make a recursive stream panic if and only if first come only
beginnings of enums, and calls that do nothing, and then an end of an enum, or, if two enums or more began, the beginning of a
record or a tuple. -/
theorem C93_nested_calls_exact {σ : Type} (C : Nested.Cb → σ → Res Unit σ) (hC : ∀ c s, ∃ s', C c s = .ok s') (ts : List Token)
    (computed : Bool) (s : σ) :
    Nested.stream C computed (.ofToks ts) s = .panicked ↔
      ∃ pre t post, ts = pre ++ t :: post ∧ (∀ x ∈ pre, idles x = true ∨ Nested.opensEnum x = true) ∧
        (pre.countP Nested.opensEnum ≥ 1 ∧ endsEnum t = true ∨ pre.countP Nested.opensEnum ≥ 2 ∧ beginsFields t = true) := by
  rw [C93_nested_exact_partial C hC _ (careful_of_propagates (ofToks_propagates ts)), (walk_calls computed ts).1]
  simp [Fatal]

/-- A variant that is a tuple, in one enum and in two, with a call that does nothing. -/
example :
    Nested.stream tallies false (.ofToks [.enumBegin {}, .mapKeyEnd, .tupleBegin {} none, .tupleEnd {}, .enumEnd {}]) 0 = .done true 3 ∧
    Nested.stream tallies false (.ofToks [.mapKeyEnd, .enumBegin {}, .enumBegin {}, .seqValueEnd, .tupleBegin {} none]) 0 = .panicked ∧
    Fatal 0 [.mapKeyEnd, .enumBegin {}, .enumBegin {}, .seqValueEnd, .tupleBegin {} none] := by
  refine ⟨by decide +kernel, by decide +kernel, [.mapKeyEnd, .enumBegin {}, .enumBegin {}, .seqValueEnd], .tupleBegin {} none, [], rfl, ?_, ?_⟩
  · simp [idles, Nested.opensEnum]
  · simp [List.countP_cons, Nested.opensEnum, beginsFields]

end Sval
