import Verif.Core.Guard

set_option autoImplicit false

/-!
# The calls a stream receives from arbitrary code
-/

namespace Sval

/-- The calls a stream receives, in order, from code that may look at the result of each (`Verif/Core/Prog.lean`: the same
recursion as `exec`, `src/value.rs`, `src/stream.rs`, with the calls collected). -/
def received {σ : Type} (S : Token → σ → σ × Bool) : Prog → Wrapper → σ → List Token
  | .ret _, _, _ => []
  | .call t k, W, s => W.tok t :: received S (k (S (W.tok t) s).2) W (S (W.tok t) s).1
  | .value v k, W, s =>
    received S v W.valueTarget s ++ received S (k (exec S v W.valueTarget s).2) W (exec S v W.valueTarget s).1
  | .valueComputed v k, W, s =>
    received S v W.computedTarget s ++ received S (k (exec S v W.computedTarget s).2) W (exec S v W.computedTarget s).1

/-- What a stream is left with depends on the calls it received only. -/
theorem exec_received {σ : Type} (S : Token → σ → σ × Bool) (p : Prog) (W : Wrapper) (s : σ) :
    (exec S p W s).1 = (received S p W s).foldl (fun s t => (S t s).1) s := by
  induction p generalizing W s with
  | ret ok => rfl
  | call t k ih => exact ih _ _ _
  | value v k ihv ih => rw [received, List.foldl_append, ← ihv]; exact ih _ _ _
  | valueComputed v k ihv ih => rw [received, List.foldl_append, ← ihv]; exact ih _ _ _

/-- The calls received from a list of calls made with `?` are a start of the list. -/
theorem received_ofToks {σ : Type} (S : Token → σ → σ × Bool) (ts : List Token) (s : σ) :
    received S (.ofToks ts) .base s <+: ts := by
  induction ts generalizing s with
  | nil => exact List.prefix_refl _
  | cons t ts ih =>
    simp only [Prog.ofToks, received, Wrapper.tok]
    cases (S t s).2 with
    | true => exact (List.prefix_cons_inj t).2 (ih _)
    | false => exact ⟨ts, rfl⟩

/-- A panic of a guarded stream is the work of one of the calls received, made in a state the calls before it lead to. -/
theorem panic_at {ε σ : Type} (c : Token → σ → Res ε σ) (ts : List Token) (s : σ)
    (h : (ts.foldl (fun s t => (guarded c t s).1) (s, false)).2 = true) :
    ∃ a t b s', ts = a ++ t :: b ∧ a.foldl (fun s t => (guarded c t s).1) (s, false) = (s', false) ∧ c t s' = .panic := by
  induction ts generalizing s with
  | nil => simp at h
  | cons t ts ih =>
    rw [List.foldl_cons] at h
    cases e : c t s with
    | panic => exact ⟨[], t, ts, s, rfl, rfl, e⟩
    | ok s1 =>
      have hg : (guarded c t (s, false)).1 = (s1, false) := by simp [guarded, e]
      rw [hg] at h
      obtain ⟨a, t', b, s', h1, h2, h3⟩ := ih s1 h
      exact ⟨t :: a, t', b, s', by rw [h1]; rfl, by rw [List.foldl_cons, hg]; exact h2, h3⟩
    | err x s1 =>
      have hg : (guarded c t (s, false)).1 = (s1, false) := by simp [guarded, e]
      rw [hg] at h
      obtain ⟨a, t', b, s', h1, h2, h3⟩ := ih s1 h
      exact ⟨t :: a, t', b, s', by rw [h1]; rfl, by rw [List.foldl_cons, hg]; exact h2, h3⟩

/-- The same of any code. -/
theorem drive_panicked {ε σ : Type} (c : Token → σ → Res ε σ) (p : Prog) (s : σ) (h : drive c p s = .panicked) :
    ∃ a t b s', received (guarded c) p .base (s, false) = a ++ t :: b ∧
      a.foldl (fun s t => (guarded c t s).1) (s, false) = (s', false) ∧ c t s' = .panic := by
  refine panic_at c _ s ?_
  rw [← exec_received]
  simp only [drive] at h
  split at h
  · assumption
  · cases h

end Sval
