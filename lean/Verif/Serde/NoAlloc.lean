import Verif.Serde.Run
import Verif.Nested.Free

set_option autoImplicit false

/-!
# `sval_serde::ToSerialize`, with or without its feature `alloc`

The feature switches on `sval_nested/alloc`: `serde/Cargo.toml:19`. The code of `to_serialize.rs` is the same
in both; what streams values to it is not.
-/

namespace Sval.Serde

open Nested (Arg Cb Opened Variant SeesA Build)

section
variable {ε τ : Type} (custom : ε) (S : SCall ε τ → τ → Res ε τ) (B : Build)

/-- Stream a value to a `Serializer`, in the build `B`. See `into`. -/
def intoA : Nat → Bool → Prog → τ → Outcome (St ε τ)
  | 0, _, _, _ => .panicked
  | n + 1, computed, p, s => Nested.streamA (adapter custom S (intoA n)) B computed p { s }

/-- `ToSerialize::new(value).serialize(serializer)`, in the build `B`: `serde/src/to_serialize.rs:42-48`. See `serialize`. -/
def serializeA (depth : Nat) (p : Prog) (s : τ) : Res ε τ := finish custom (intoA custom S B depth false p s)

theorem intoA_sees {a : Arg} {v : V} (h : SeesA B a v) :
    a.borrowed = true ∧ ∃ N, ∀ d ≥ N, Good custom S (intoA custom S B d) a v := by
  let R : Arg → V → Prop := fun a w => ∃ N, ∀ d ≥ N, Good custom S (intoA custom S B d) a w
  refine SeesA.rec (motive_1 := fun a v _ => a.borrowed = true ∧ R a v) (motive_2 := fun X v _ => Opened R X v)
    (motive_3 := fun X v _ => Variant R X v) ?_ ?_ ?_ ?_ ?_ ?_ ?_ ?_ ?_ ?_ ?_ ?_ ?_ ?_ ?_ ?_ ?_ ?_ ?_ ?_ ?_ h
  · intro a X v ha h _ hX
    refine ⟨ha, ?_⟩
    obtain ⟨N, hN⟩ := bound_opened hX
    refine ⟨N + 1, fun d hd s => ?_⟩
    obtain ⟨d, rfl⟩ : ∃ e, d = e + 1 := ⟨d - 1, by omega⟩
    rw [intoA, h]
    exact opened_run (hN d (by omega)) s
  · intro a b v ha h _ hb
    refine ⟨ha, ?_⟩
    obtain ⟨hb, N, hN⟩ := hb
    refine ⟨N + 1, fun d hd s => ?_⟩
    obtain ⟨d, rfl⟩ : ∃ e, d = e + 1 := ⟨d - 1, by omega⟩
    rw [intoA, h, ← hN d (by omega) s]
    simp only [Nested.runCb_cons, adapter, hb, Bool.not_true]
    cases intoA custom S B d false b.prog s with
    | panicked => rfl
    | done ok st => cases ok <;> rfl
  · exact .null
  · exact .bool
  · exact .int
  · exact .f32
  · exact .f64
  · exact .text
  · exact .binary
  · exact .tag
  · exact fun m a v _ h => .tagged m a v h.2
  · exact fun n L _ h => .seq n L fun x hx => (h x hx).2
  · exact fun n L _ _ h1 h2 => .map n L (fun x hx => (h1 x hx).2) fun x hx => (h2 x hx).2
  · exact fun m n L _ h => .tuple m n L fun x hx => (h x hx).2
  · exact fun m n L _ h => .record m n L fun x hx => (h x hx).2
  · exact fun m X v _ h => .enum m X v h
  · exact .tag
  · exact fun m a v _ h => .tagged m a v h.2
  · exact fun m n L _ h => .tuple m n L fun x hx => (h x hx).2
  · exact fun m n L _ h => .record m n L fun x hx => (h x hx).2
  · exact fun m X v _ h => .nested m X v h

end

end Sval.Serde
