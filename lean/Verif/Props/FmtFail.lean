import Verif.Fmt.Always
import Verif.Props.Fmt

set_option autoImplicit false

/-!
# C49 for writers that stay broken

Sockets, files and pipes that have failed keep failing. For these C49 is true.
-/

namespace Sval
open Fmt

/-- A writer that has failed is `B`, and one that is `B` fails, whatever it is given. -/
def StaysBroken {ω : Type} (w : Fmt.Writer ω) (B : ω → Prop) : Prop :=
  (∀ k t o e o', w k t o = .err e o' → B o') ∧ (∀ k t o, B o → ∃ e o', w k t o = .err e o')

/-- Writing the message in place of an error: `fmt/src/to_fmt.rs:50`. -/
def noted {ω : Type} (w : Fmt.Writer ω) (o : ω) : Res Unit ω :=
  (w .text (t! "<") o).bind fun o => (w .text (t! "an error occurred when formatting an argument") o).bind (w .text (t! ">"))

private theorem noting_always {ω : Type} {w : Fmt.Writer ω} {B : ω → Prop} (h : StaysBroken w B) (k : Kind) (t : Text) :
    Always (fun o : ω × Bool => o.2 = true → B o.1) (noting w k t) := by
  intro o ho
  unfold noting
  cases hc : w k t o.1 with
  | ok o' =>
    intro hb
    obtain ⟨e, o2, h2⟩ := h.2 k t o.1 (ho hb)
    rw [hc] at h2
    cases h2
  | err e o' => exact fun _ => h.1 k t o.1 e o' hc
  | panic => exact trivial

private theorem noting_clean {ω : Type} (w : Fmt.Writer ω) (o : ω) :
    (∀ o' b, noted (noting w) (o, false) = .ok (o', b) → b = false) ∧ (∀ e o' b, noted (noting w) (o, false) = .err e (o', b) → b = true) := by
  have h1 : ∀ k t (q : ω × Bool), q.2 = false → match noting w k t q with
      | .ok q' => q'.2 = false | .err _ q' => q'.2 = true | .panic => True := by
    intro k t q hq
    unfold noting
    cases w k t q.1 <;> simp [hq]
  have h2 : ∀ (f g : ω × Bool → Res Unit (ω × Bool)),
      (∀ q, q.2 = false → match f q with | .ok q' => q'.2 = false | .err _ q' => q'.2 = true | .panic => True) →
      (∀ q, q.2 = false → match g q with | .ok q' => q'.2 = false | .err _ q' => q'.2 = true | .panic => True) →
      ∀ q, q.2 = false → match (f q).bind g with | .ok q' => q'.2 = false | .err _ q' => q'.2 = true | .panic => True := by
    intro f g hf hg q hq
    have := hf q hq
    cases hc : f q with
    | ok q1 => rw [hc] at this; exact hg q1 this
    | err e q1 => rw [hc] at this; exact this
    | panic => exact trivial
  have h3 := h2 _ _ (h1 .text (t! "<")) (h2 _ _ (h1 .text (t! "an error occurred when formatting an argument")) (h1 .text (t! ">"))) (o, false) rfl
  refine ⟨fun o' b h => ?_, fun e o' b h => ?_⟩
  · unfold noted at h
    rw [h] at h3
    exact h3
  · unfold noted at h
    rw [h] at h3
    exact h3

/-- C49, exactly. For code that uses `?` and any writer: formatting with `{}` fails just if a write has failed, unless
it was one of the value and the message could be written after it. -/
theorem C49_exact {ω : Type} (w : Fmt.Writer ω) (env : Fmt.Env) (p : Prog) (hp : p.Propagates) (o o' : ω) (ok b : Bool)
    (h : display (noting w) env p (o, false) = .done ok (o', b)) :
    ok = false ↔ b = true ∧ ∀ o1, toWrite (noting w) env p (o, false) = .done false (o1, true) → ∀ o2, noted (noting w) (o1, true) ≠ .ok o2 := by
  simp only [display] at h
  split at h
  · rename_i q hq
    cases h
    have := C27_errors w env p hp o o' b hq
    subst this
    simp
  · rename_i q hq
    obtain ⟨q1, b1⟩ := q
    have hn := noting_clean w q1
    split at h
    · rename_i q2 h2
      cases h
      cases b1 with
      | false =>
        have := hn.1 o' b h2
        subst this
        simp
      | true =>
        constructor
        · intro h; cases h
        · intro h
          exact absurd h2 (h.2 q1 hq _)
    · rename_i e q2 h2
      cases h
      refine ⟨fun _ => ⟨?_, ?_⟩, fun _ => rfl⟩
      · exact C49_display_error w env p o o' b (by simp only [display, hq, h2])
      · intro o1 ho1 o2 ho2
        rw [hq] at ho1
        cases ho1
        have := h2.symm.trans ho2
        cases this
    · cases h
  · cases h

/-- C49 for writers that stay broken: formatting code that uses `?` with `{}` fails if and only if a write has failed. -/
theorem C49_stays_broken {ω : Type} (w : Fmt.Writer ω) (B : ω → Prop) (hw : StaysBroken w B) (env : Fmt.Env) (p : Prog) (hp : p.Propagates)
    (o o' : ω) (ok b : Bool) (h : display (noting w) env p (o, false) = .done ok (o', b)) : ok = false ↔ b = true := by
  rw [C49_exact w env p hp o o' ok b h]
  refine ⟨fun h => h.1, fun hb => ⟨hb, fun o1 ho1 o2 ho2 => ?_⟩⟩
  have hb1 : B o1 := always_toWrite (P := fun o : ω × Bool => o.2 = true → B o.1) (fun k t => noting_always hw k t) p (o, false) (o1, true) false
    (fun h => nomatch h) ho1 rfl
  obtain ⟨e, o3, h3⟩ := hw.2 .text (t! "<") o1 hb1
  simp only [noted, noting, h3] at ho2
  cases ho2

/-- A pipe that is closed from the other end once so much was written. -/
def pipe (n : Nat) : Fmt.Writer (Text × Bool) := fun _ t o =>
  if o.2 then .err () o else if o.1.length + t.length ≤ n then .ok (o.1 ++ t, false) else .err () (o.1, true)

/-- Code that does not look at what its calls return can hide the failure of any writer. -/
theorem C49_fails_ignored : display (noting (pipe 3)) someEnv (.call (.bool true) fun _ => .ret true) (([], false), false) =
    .done true (([], true), true) := by
  decide +kernel

/-- With the value of `C49_fails` the failure is noticed. And if the value fails by itself, the message is written. -/
example : StaysBroken (pipe 60) (fun o => o.2 = true) ∧
    display (noting (pipe 60)) someEnv
      (valueOf (.seq none [one, .text none [.computed (t! "aaaaaaaaaaaaaaaaaaaaaaaaaaaaaaaaaaaaaaaaaaaaaaaaaaaaaaaaaaaaaaaaaaaaa")]])) (([], false), false) =
      .done false ((t! "[1, \"", true), true) ∧
    display (noting (pipe 60)) someEnv (.call (.seqBegin none) fun _ => .ret false) (([], false), false) =
      .done true ((t! "[<an error occurred when formatting an argument>", false), false) := by
  refine ⟨⟨fun k t o e o' h => ?_, fun k t o h => ⟨(), o, by simp [pipe, h]⟩⟩, by decide +kernel, by decide +kernel⟩
  unfold pipe at h
  split at h
  · cases h; assumption
  · split at h
    · cases h
    · cases h; rfl

end Sval
