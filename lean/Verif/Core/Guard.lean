import Verif.Core.Prog
import Verif.Core.ExtractLemmas

set_option autoImplicit false

/-!
# Streams that may panic, driven by arbitrary code

A panic unwinds through the code that made the call: nothing that code does afterwards is observed.
-/

namespace Sval

/-- A stream seen by arbitrary code. The flag says that a call has panicked. -/
def guarded {ε σ : Type} (c : Token → σ → Res ε σ) (t : Token) (s : σ × Bool) : (σ × Bool) × Bool :=
  if s.2 then (s, false)
  else match c t s.1 with
    | .ok s' => ((s', false), true)
    | .err _ s' => ((s', false), false)
    | .panic => ((s.1, true), false)

/-- How a run of arbitrary code on a stream ends. -/
inductive Outcome (σ : Type) where
  | done (ok : Bool) (s : σ)
  | panicked
deriving DecidableEq, Repr

/-- Run any code on a stream. -/
def drive {ε σ : Type} (c : Token → σ → Res ε σ) (p : Prog) (s : σ) : Outcome σ :=
  let r := exec (guarded c) p .base (s, false)
  if r.1.2 then .panicked else .done r.2 r.1.1

/-- The outcome of a list of calls made with `?`. -/
def Res.outcome {ε σ : Type} : Res ε σ → Outcome σ
  | .ok s => .done true s
  | .err _ s => .done false s
  | .panic => .panicked

theorem guarded_stuck {ε σ : Type} (c : Token → σ → Res ε σ) (p : Prog) (W : Wrapper) (s : σ × Bool) (h : s.2 = true) :
    (exec (guarded c) p W s).1.2 = true := by
  refine exec_inv _ (fun s => s.2 = true) (fun t s h => ?_) p W s h
  simp [guarded, h]

theorem drive_ofToks {ε σ : Type} (c : Token → σ → Res ε σ) (ts : List Token) (s : σ) :
    drive c (.ofToks ts) s = (run c ts s).outcome := by
  induction ts generalizing s with
  | nil => rfl
  | cons t ts ih =>
    rw [run_cons]
    simp only [drive, Prog.ofToks, exec, Wrapper.tok, guarded, Bool.false_eq_true, if_false] at ih ⊢
    cases hc : c t s with
    | ok s1 => exact ih s1
    | err e s1 => rfl
    | panic => rfl

/-- What every call keeps, any code keeps. -/
theorem drive_inv {ε σ : Type} (c : Token → σ → Res ε σ) (I : σ → Prop)
    (h : ∀ t s, I s → match c t s with | .ok s' => I s' | .err _ s' => I s' | .panic => True)
    (p : Prog) (s : σ) (hs : I s) : match drive c p s with | .done _ s' => I s' | .panicked => True := by
  have := exec_inv (guarded c) (fun s => I s.1) (fun t s hs => by
    unfold guarded
    split
    · exact hs
    · have := h t s.1 hs
      cases hc : c t s.1 with
      | ok s1 => rw [hc] at this; exact this
      | err e s1 => rw [hc] at this; exact this
      | panic => exact hs) p .base (s, false) hs
  simp only [drive]
  split
  · rename_i heq; split at heq
    · cases heq
    · cases heq; exact this
  · trivial

/-- If no call panics, no code makes the stream panic. -/
theorem drive_no_panic {ε σ : Type} (c : Token → σ → Res ε σ) (h : ∀ t s, c t s ≠ .panic) (p : Prog) (s : σ) :
    drive c p s ≠ .panicked := by
  have := exec_inv (guarded c) (fun s => s.2 = false) (fun t s hs => by
    unfold guarded
    rw [hs]
    simp only [Bool.false_eq_true, if_false]
    cases hc : c t s.1 with
    | ok s1 => rfl
    | err e s1 => rfl
    | panic => exact absurd hc (h t s.1)) p .base (s, false) rfl
  simp [drive, this]

end Sval
