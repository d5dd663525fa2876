import Verif.Core.Extract

set_option autoImplicit false

namespace Sval

/-- A well-formed value, streamed by code that uses `?`. -/
def valueOf (v : V) : Prog := Prog.ofToks (toks v)

/-- Specification: the value under the wrappers that carry no data. -/
def leaf : V → V
  | .tagged _ v => leaf v
  | .enum _ v => leaf v
  | .hint _ v => leaf v
  | v => v

theorem leaf_ne_tagged (v : V) : ∀ m w, leaf v ≠ .tagged m w := by
  induction v using V.ind <;> simp_all [leaf]
theorem leaf_ne_enum (v : V) : ∀ m w, leaf v ≠ .enum m w := by
  induction v using V.ind <;> simp_all [leaf]
theorem leaf_ne_hint (v : V) : ∀ m w, leaf v ≠ .hint m w := by
  induction v using V.ind <;> simp_all [leaf]

namespace Res
def toOption {ε σ : Type} : Res ε σ → Option σ
  | ok s => some s
  | _ => none
end Res

theorem extract_ofToks {σ : Type} (c : Caps) (step : Token → σ → Res Unit σ) (s : σ)
    (ts : List Token) : extract c step s (Prog.ofToks ts) = (run step (lower c ts) s).toOption := by
  induction ts generalizing s with
  | nil => rfl
  | cons t ts ih =>
    have hl : lower c (t :: ts) = Low.tok c t ++ lower c ts := rfl
    rw [hl, run_append]
    simp only [extract, Prog.ofToks, exec, Wrapper.tok, stepS]
    cases h : run step (Low.tok c t) s with
    | ok s' => exact ih s'
    | err e s' => simp [exec, Res.toOption, Res.pair]
    | panic => simp [exec, Res.toOption, Res.pair]

/-- Wrappers leave no trace on a stream that ignores tags. -/
theorem lower_leaf (c : Caps) (h1 : c.tagged = false) (h2 : c.enum = false) (h3 : c.tagHint = false)
    (v : V) : lower c (toks v) = lower c (toks (leaf v)) := by
  induction v using V.ind with
  | tagged m v ih =>
    simp only [toks, leaf, ← ih]
    simp [lower, Low.tok, Low.taggedBegin, Low.taggedEnd, h1]
  | enum m v ih =>
    simp only [toks, leaf, ← ih]
    simp [lower, Low.tok, Low.enumBegin, Low.enumEnd, Low.taggedBegin, Low.taggedEnd, h1, h2]
  | hint t v ih =>
    simp only [toks, leaf, ← ih]
    simp [lower, Low.tok, Low.tagHint, h3]
  | _ => rfl

/-- A program run next to a log of the calls the concrete stream sees. -/
def withLog {σ : Type} (S : Token → σ → σ × Bool) (t : Token) (s : σ × List Token) :
    (σ × List Token) × Bool :=
  let r := S t s.1
  ((r.1, s.2 ++ [t]), r.2)

theorem exec_withLog {σ : Type} (S : Token → σ → σ × Bool) (p : Prog) (w : Wrapper) (s : σ)
    (l : List Token) :
    (exec (withLog S) p w (s, l)).1.1 = (exec S p w s).1 ∧
    (exec (withLog S) p w (s, l)).2 = (exec S p w s).2 := by
  induction p generalizing w s l with
  | ret ok => exact ⟨rfl, rfl⟩
  | call t k ih => simp only [exec, withLog]; exact ih _ _ _ _
  | value v k ihv ih =>
    simp only [exec]
    have h1 := (ihv w.valueTarget s l).1
    have h2 := (ihv w.valueTarget s l).2
    rw [h2]
    have := ih (exec S v w.valueTarget s).2 w (exec (withLog S) v w.valueTarget (s, l)).1.1
      (exec (withLog S) v w.valueTarget (s, l)).1.2
    rw [h1] at this
    have e : (exec (withLog S) v w.valueTarget (s, l)).1
        = ((exec S v w.valueTarget s).1, (exec (withLog S) v w.valueTarget (s, l)).1.2) := by
      rw [← h1]
    rw [e]; exact this
  | valueComputed v k ihv ih =>
    simp only [exec]
    have h1 := (ihv w.computedTarget s l).1
    have h2 := (ihv w.computedTarget s l).2
    rw [h2]
    have := ih (exec S v w.computedTarget s).2 w (exec (withLog S) v w.computedTarget (s, l)).1.1
      (exec (withLog S) v w.computedTarget (s, l)).1.2
    rw [h1] at this
    have e : (exec (withLog S) v w.computedTarget (s, l)).1
        = ((exec S v w.computedTarget s).1, (exec (withLog S) v w.computedTarget (s, l)).1.2) := by
      rw [← h1]
    rw [e]; exact this

/-- The calls a value makes on the concrete stream, as a log. -/
def callsOn {σ : Type} (S : Token → σ → σ × Bool) (p : Prog) (s : σ) : List Token :=
  (exec (withLog S) p .base (s, [])).1.2

/-- To relate the final state of a stream to the calls it saw, keep a relation at every call. -/
theorem exec_log_inv {σ : Type} (S : Token → σ → σ × Bool) (R : σ → List Token → Prop)
    (hR : ∀ t s l, R s l → R (S t s).1 (l ++ [t])) (p : Prog) (s : σ) (h : R s []) :
    R (exec S p .base s).1 (callsOn S p s) := by
  have := exec_inv (withLog S) (fun x => R x.1 x.2) (by intro t s hs; exact hR t s.1 s.2 hs)
    p .base (s, []) h
  rw [(exec_withLog S p .base s []).1] at this
  exact this

end Sval
