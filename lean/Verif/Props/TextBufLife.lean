import Verif.Buffer.AsValue
import Verif.Props.Buffer

set_option autoImplicit false

/-!
# The life of a `TextBuf` or `BinaryBuf`: C14
-/

namespace Sval
open Buf

/-- What can be done to a buffer of text or bytes. `assign` is another made from a slice put in its place. -/
inductive FragOp (α : Type) where
  | push (f : List α)
  | pushComputed (f : List α)
  | clear
  | assign (f : List α)
  | own

/-- With an allocator, every one of them as the model has it. -/
def FragOp.apply {α : Type} : FragOp α → Cow α → Except Err (Cow α)
  | .push f, c => c.push true f
  | .pushComputed f, c => c.pushComputed true f
  | .clear, c => .ok c.clear
  | .assign f, _ => .ok (Cow.from f)
  | .own, c => .ok c.intoOwned

/-- What was done since the buffer last was empty: each of these adds a fragment, lent or not; being owned adds nothing,
but that is not lent. -/
def FragOp.since {α : Type} (ops : List (FragOp α)) : List (Frag (List α)) :=
  ops.foldl (fun fs op => match op with
    | .push f => fs ++ [.borrowed f]
    | .pushComputed f => fs ++ [.computed f]
    | .clear => []
    | .assign f => [.borrowed f]
    | .own => fs ++ [.computed []]) []

theorem FragOp.apply_merged {α : Type} (op : FragOp α) (fs : List (Frag (List α))) :
    op.apply (merged fs) = .ok (merged (match op with
      | .push f => fs ++ [.borrowed f]
      | .pushComputed f => fs ++ [.computed f]
      | .clear => []
      | .assign f => [.borrowed f]
      | .own => fs ++ [.computed []])) := by
  cases op with
  | push f => simp only [apply, merged_snoc]; exact pushOne_true (merged fs) (.borrowed f)
  | pushComputed f => simp only [apply, merged_snoc]; exact pushOne_true (merged fs) (.computed f)
  | clear => rfl
  | assign f => simp [apply, Cow.from, merged]
  | own =>
    simp only [apply, merged_snoc]
    cases merged fs <;> simp [pushFrag, Cow.intoOwned, Cow.content]

theorem FragOp.life {α : Type} (ops : List (FragOp α)) :
    ops.foldlM (fun c op => op.apply c) Cow.new = .ok (merged (since ops)) := by
  suffices H : ∀ fs, ops.foldlM (fun c op => op.apply c) (merged fs) = .ok (merged (ops.foldl (fun fs op => match op with
    | .push f => fs ++ [.borrowed f]
    | .pushComputed f => fs ++ [.computed f]
    | .clear => []
    | .assign f => [.borrowed f]
    | .own => fs ++ [.computed []]) fs)) from H []
  induction ops with
  | nil => intro fs; rfl
  | cons op ops ih =>
    intro fs
    rw [List.foldlM_cons, apply_merged]
    exact ih _

/-- C14 over the life of a buffer: pushes, clearing, being assigned, being owned, in any order. It never fails, holds the
concatenation of what was pushed since it was last empty, and lends a slice exactly if that was the last thing pushed and all
before it, since then, was empty; being made owned it lends nothing. -/
theorem C14_life {α : Type} (ops : List (FragOp α)) :
    ∃ c : Cow α, ops.foldlM (fun c op => op.apply c) Cow.new = .ok c ∧
      c.content = ((FragOp.since ops).map Frag.content).flatten ∧
      ∀ s, c.asBorrowed = some s ↔ (FragOp.since ops = [] ∧ s = []) ∨
        ∃ pre, FragOp.since ops = pre ++ [.borrowed s] ∧ ∀ g ∈ pre, g.content = [] := by
  obtain ⟨c, h1, h2, h3, _⟩ := C14_buffer_concatenates (FragOp.since ops)
  have h : c = merged (FragOp.since ops) := by
    rw [pushes_true] at h1
    exact ((Except.ok.inj h1).symm.trans (merged_foldl [] _))
  exact ⟨c, by rw [FragOp.life, h], h2, h3⟩

/-- Used, cleared, owned while empty, and lending again; then used some more. -/
example : [.push (t! "a"), .pushComputed (t! "b"), .clear, .own, .push (t! "c")].foldlM (fun c op => FragOp.apply op c) Cow.new =
      .ok (.borrowed (t! "c")) ∧
    [.assign (t! "a"), .push (t! "b")].foldlM (fun c op => FragOp.apply op c) Cow.new = .ok (.owned (t! "ab")) ∧
    [.assign (t! "a"), .own].foldlM (fun c op => FragOp.apply op c) Cow.new = .ok (.owned (t! "a")) := by decide +kernel

end Sval
