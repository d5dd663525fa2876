import Verif.Serde.Worse
import Verif.Props.NestedFree
import Verif.Props.Serde
import Verif.Serde.Round

set_option autoImplicit false

/-! # C89: serializing values without the feature `alloc` of `sval_serde` -/

namespace Sval

open Serde
open Nested (Build prog rel seen)
open Rust (RV items tree ok)

/-- With the feature, in every build. -/
theorem C89_alloc {ε τ : Type} (custom : ε) (S : SCall ε τ → τ → Res ε τ) (B : Build) (hB : B.alloc = true) (d : Nat) (p : Prog) (s : τ) :
    serializeA custom S B d p s = serialize custom S d p s := by
  have : ∀ d, intoA custom S B d = into custom S d := by
    intro d
    induction d with
    | zero => rfl
    | succ d ih => funext c p s; simp only [intoA, into, ih]; exact Nested.streamA_true _ hB c p _
  simp only [serializeA, serialize, this]

/-- C89, for every value that returns the errors of the stream, and every serializer that returns the errors of the values it is
given: without the feature, in every build, it is serialized as with it, or there is an error; or, in builds with debug assertions,
a panic. -/
theorem C89_partial {ε τ : Type} (custom : ε) (S : SCall ε τ → τ → Res ε τ) (B : Build) (hB : B.alloc = false)
    (hS : Honest (B.panics = true) S) (d : Nat) (p : Prog) (hp : p.Propagates) (s : τ) (h : serialize custom S d p s ≠ .panic) :
    serializeA custom S B d p s = serialize custom S d p s ∨ (∃ e s', serializeA custom S B d p s = .err e s') ∨
    B.panics = true ∧ serializeA custom S B d p s = .panic := by
  have hw := (weaker_into (custom := custom) hS B { alloc := true } hB rfl id d).worse (custom := custom) p hp s
  have e := C89_alloc custom S { alloc := true } rfl d p s
  simp only [serializeA] at hw e ⊢
  rw [e] at hw
  rcases hw with h' | ⟨h1, h2⟩ | h' | h'
  · exact absurd h' h
  · exact .inr (.inr ⟨h1, h2⟩)
  · exact .inr (.inl h')
  · exact .inl h'

/-- Without debug assertions, or with `no_debug_assertions`. -/
theorem C89_release_partial {ε τ : Type} (custom : ε) (S : SCall ε τ → τ → Res ε τ) (B : Build) (hB : B.alloc = false)
    (hP : B.panics = false) (hS : Honest False S) (d : Nat) (p : Prog) (hp : p.Propagates) (s : τ) (h : serialize custom S d p s ≠ .panic) :
    serializeA custom S B d p s = serialize custom S d p s ∨ ∃ e s', serializeA custom S B d p s = .err e s' := by
  have hP' : (B.panics = true) = False := by simp [hP]
  rcases C89_partial custom S B hB (by rw [hP']; exact hS) d p hp s h with h | h | h
  · exact .inl h
  · exact .inr h
  · exact absurd h.1 (by simp [hP])

/-- C89, for values of Rust types that need no copies, and every serializer: in every build they are serialized as with the feature. -/
theorem C89_rust {ε τ : Type} (custom : ε) (S : SCall ε τ → τ → Res ε τ) (B : Build) (x : RV) (hx : ok x) (hf : free x) :
    ∃ N, ∀ d ≥ N, ∀ s, serializeA custom S B d (prog (items x)) s = serV custom S (tree x) s ∧
      serializeA custom S B d (prog (items x)) s = serialize custom S d (prog (items x)) s := by
  obtain ⟨_, N, hN⟩ := intoA_sees custom S B (C71_rust x hx hf B)
  obtain ⟨_, M, hM⟩ := intoA_sees custom S { alloc := true } (C71_rust x hx hf { alloc := true })
  refine ⟨max N M, fun d hd s => ⟨?_, ?_⟩⟩
  · rw [← (serV_seen custom S (tree x)).1]
    exact hN d (by omega) s
  rw [← C89_alloc custom S { alloc := true } rfl]
  exact (hN d (by omega) s).trans (hM d (by omega) s).symm

/-- A serializer that does `f`; and after `g` serializes its argument, if there is one. -/
def doing {ε τ : Type} (f g : τ → Res ε τ) : SCall ε τ → τ → Res ε τ := fun c s =>
  match c.arg with
  | none => f s
  | some a => (g s).bind a

theorem honest_doing {ε τ : Type} (P : Prop) (f g : τ → Res ε τ) : Honest P (doing f g) := by
  intro x' x h s
  have key : ∀ a' a : τ → Res ε τ, (∀ s, Serde.Worse P (a' s) (a s)) → Serde.Worse P ((g s).bind a') ((g s).bind a) := by
    intro a' a h
    cases g s with
    | ok s => exact h s
    | err e s => exact .inr (.inr (.inr rfl))
    | panic => exact .inr (.inr (.inr rfl))
  cases h with
  | same => exact .inr (.inr (.inr rfl))
  | _ => exact key _ _ ‹_›

theorem countCalls_honest (P : Prop) : Honest P countCalls := by
  have e : countCalls = doing (fun n => .ok (n + 1)) (fun n => .ok (n + 1)) := by
    funext c s
    unfold countCalls doing
    cases c.arg <;> rfl
  rw [e]
  exact honest_doing P _ _

/-- A struct of an array, an optional string and a map, without the feature and with debug assertions. -/
def freeStruct : RV := .struct true (t! "S") {} [{ ident := some (t! "a") }, { ident := some (t! "b") }, { ident := some (t! "c") }]
  [.slice [.int .u8 1, .int .u8 2], .some (.str (t! "s")), .map [.str (t! "k")] [.bytes [1, 2]]]

example : ok freeStruct ∧ free freeStruct ∧
    serializeA () countCalls { alloc := false, debugAssertions := true } 9 (prog (items freeStruct)) 0 = .ok 19 ∧
    serV () countCalls (tree freeStruct) 0 = .ok 19 := by
  refine ⟨?_, ?_, rfl, rfl⟩
  · simp [freeStruct, ok, Rust.oks, Rust.okFields, Derive.accepted, Derive.plans, Derive.optLabelOr]
  · simp [freeStruct, free, frees, plainFields, staticLabel, keepsFields, Derive.labeled, Derive.indexed, Derive.rows, Derive.nameOf]

/-- A struct with a field of type `char`. -/
def charStruct : RV := .struct true (t! "S") {} [{ ident := some (t! "c") }] [.char 'x']

/-- C89 is false: a derived value does need buffering. With the feature it is serialized; without it there is an error,
and in builds with debug assertions a panic. -/
theorem C89_fails : ok charStruct ∧
    serialize () countCalls 3 (prog (items charStruct)) 0 = .ok 4 ∧
    serializeA () countCalls rel 3 (prog (items charStruct)) 0 = .err () 2 ∧
    serializeA () countCalls { alloc := false, debugAssertions := true } 3 (prog (items charStruct)) 0 = .panic := by
  refine ⟨?_, rfl, rfl, rfl⟩
  simp [charStruct, ok, Rust.oks, Rust.okFields, Derive.accepted, Derive.plans, Derive.optLabelOr]

/-- The hypotheses of `C89_partial` are met by it. -/
example : (prog (items charStruct)).Propagates ∧ serialize () countCalls 3 (prog (items charStruct)) 0 ≠ .panic ∧
    (rel : Build).panics = false := ⟨Nested.item_propagates _, by rw [C89_fails.2.1]; simp, rfl⟩

/-- A serializer that leaves out what cannot be serialized. -/
def leavesOut : SCall Unit Nat → Nat → Res Unit Nat := fun c n =>
  match c.arg with
  | none => .ok (n + 1)
  | some a =>
    match a (n + 1) with
    | .err _ _ => .ok n
    | r => r

/-- Nor is there always an error: it is the serializer that has to return it. -/
theorem C89_fails_serializer : ok charStruct ∧
    serialize () leavesOut 3 (prog (items charStruct)) 0 = .ok 4 ∧
    serializeA () leavesOut rel 3 (prog (items charStruct)) 0 = .ok 2 := ⟨C89_fails.1, rfl, rfl⟩

end Sval
