import Verif.Buffer.ArrayVecSafe

set_option autoImplicit false

/-!
# C62: the unsafe code of buffers without `alloc`
-/

namespace Sval

open Buf Buf.AV

/-- C62. Whatever is done with a vector of whatever capacity, no value is looked at, moved or dropped that is not there,
nothing panics, the vector holds what a list of bounded length would, and nothing is leaked. -/
theorem C62 {α : Type} (N : Nat) (ops : List (Op α)) :
    ∃ s, AV.run N ops { vec := new N } = .ok s ∧ deref s.vec = .ok (Spec.run N ops).items ∧
      drop s.vec = .ok (Spec.run N ops).items ∧ s.out = (Spec.run N ops).out ∧ s.dropped = (Spec.run N ops).dropped ∧
      forgotten s.vec = [] := by
  obtain ⟨s, R, h1, h2, h3, h4⟩ := run_spec (N := N) ops (s := { vec := new N }) (q := {}) (holds_new N) rfl rfl
  exact ⟨s, h1, h2.deref, h2.deref, h3, h4, h2.forgotten⟩

/-- Every value that ever was put into the vector, or that `clone` made, is moved out once or dropped once, when the
vector is dropped in the end. -/
theorem C62_once {α : Type} (N : Nat) (ops : List (Op α)) :
    ∃ s d, AV.run N ops { vec := new N } = .ok s ∧ drop s.vec = .ok d ∧
      (Spec.run N ops).made.Perm (d ++ (s.out ++ s.dropped)) := by
  obtain ⟨s, h1, _, h2, h3, h4, _⟩ := C62 N ops
  refine ⟨s, _, h1, h2, ?_⟩
  rw [h3, h4]
  exact perm_run ops (q := {}) (.refl _)

/-- The list is never longer than the capacity. -/
theorem C62_capacity {α : Type} (N : Nat) (ops : List (Op α)) : (Spec.run N ops).items.length ≤ N := by
  obtain ⟨s, R, _, h2, _⟩ := run_spec (N := N) ops (s := { vec := new N }) (q := {}) (holds_new N) rfl rfl
  have := h2.size
  simp only [Spec.run]
  omega

/-- The vectors of a buffer without `alloc` have room for one: what the model of buffers says of `push_kind` is what
the vector does. -/
theorem C62_buffer (ops : List (Op Buf.Part)) (b : Buf.St) (h : b.parts = (Spec.run 1 ops).items) (k : Buf.Part) :
    ∃ s v ok, AV.run 1 ops { vec := new 1 } = .ok s ∧ push 1 s.vec k = .ok (v, ok) ∧
      ((ok = true ∧ ∃ b', Buf.pushKind false k b = .ok b' ∧ deref v = .ok b'.parts) ∨
       (ok = false ∧ ∃ b', Buf.pushKind false k b = .err .noAlloc b' ∧ deref v = .ok b'.parts)) := by
  obtain ⟨s, R, h1, h2, _⟩ := run_spec (N := 1) ops (s := { vec := new 1 }) (q := {}) (holds_new 1) rfl rfl
  change Holds 1 s.vec (Spec.run 1 ops).items R at h2
  rw [← h] at h2
  rcases h2.push k with ⟨hn, v, R', h3, h4⟩ | ⟨hn, h3⟩
  · exact ⟨s, v, true, h1, h3, .inl ⟨rfl, { b with parts := b.parts ++ [k] }, by simp only [Buf.pushKind, Bool.false_or, hn, decide_true, if_true], h4.deref⟩⟩
  · exact ⟨s, s.vec, false, h1, h3, .inr ⟨rfl, { b with err := some .noAlloc }, by simp only [Buf.pushKind, Bool.false_or, hn, decide_false, Buf.fail]; rfl, h2.deref⟩⟩

/-- Fill up, be refused, take one, put one over another, clone, and clear. -/
example : (Spec.run 2 [.push 1, .push 2, .push 3, .pop, .set 0 7, .clone (· + 10), .push 4, .clear, .push 5] : Spec Nat) =
    { items := [5], out := [2], dropped := [3, 1, 7, 17, 4], made := [1, 2, 3, 7, 17, 4, 5] } := rfl

example : ∃ s, AV.run 2 [.push 1, .push 2, .push 3, .pop, .set 0 7, .clone (· + 10), .push 4, .clear, .push 5]
    { vec := (new 2 : Vec Nat) } = .ok s ∧ deref s.vec = .ok [5] ∧ s.dropped = [3, 1, 7, 17, 4] := ⟨_, rfl, rfl, rfl⟩

/-- A slot keeps the bits of what was moved out of it; they are not used. -/
example : ∃ s, AV.run 2 [.push 1, .push 2, .pop] { vec := (new 2 : Vec Nat) } = .ok s ∧
    s.vec.buf = [.live 1, .moved 2] ∧ deref s.vec = .ok [1] := ⟨_, rfl, rfl, rfl⟩

/-- To take the wrong slots to be initialised would be undefined. -/
example : deref { buf := [.live 1, .moved 2], len := 2 } = Run.undefined := rfl

end Sval
