import Verif.Core.Received

set_option autoImplicit false

/-!
# Two streams in related states
-/

namespace Sval

/-- Streams that give the same answers, in states that stay related, cannot be told apart by any code: it makes the same calls on
both. -/
theorem exec_related {σ τ : Type} {R : σ → τ → Prop} (S : Token → σ → σ × Bool) (T : Token → τ → τ × Bool)
    (hS : ∀ t s u, R s u → R (S t s).1 (T t u).1 ∧ (S t s).2 = (T t u).2) (p : Prog) (W : Wrapper) (s : σ) (u : τ) (h : R s u) :
    R (exec S p W s).1 (exec T p W u).1 ∧ (exec S p W s).2 = (exec T p W u).2 ∧ received S p W s = received T p W u := by
  induction p generalizing W s u with
  | ret ok => exact ⟨h, rfl, rfl⟩
  | call t k ih =>
    have h1 := hS (W.tok t) s u h
    have h2 := ih (S (W.tok t) s).2 W _ _ h1.1
    simp only [exec, received]
    rw [← h1.2]
    exact ⟨h2.1, h2.2.1, by rw [h2.2.2]⟩
  | value v k ihv ih =>
    have h1 := ihv W.valueTarget s u h
    have h2 := ih (exec S v W.valueTarget s).2 W _ _ h1.1
    simp only [exec, received]
    rw [← h1.2.1]
    exact ⟨h2.1, h2.2.1, by rw [h2.2.2, h1.2.2]⟩
  | valueComputed v k ihv ih =>
    have h1 := ihv W.computedTarget s u h
    have h2 := ih (exec S v W.computedTarget s).2 W _ _ h1.1
    simp only [exec, received]
    rw [← h1.2.1]
    exact ⟨h2.1, h2.2.1, by rw [h2.2.2, h1.2.2]⟩

end Sval
