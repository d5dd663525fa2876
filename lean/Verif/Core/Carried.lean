import Verif.Core.Received
import Verif.Core.Decimal

set_option autoImplicit false

/-!
# How much data there is in a call
-/

namespace Sval

/-- The bytes of a label, if there is one, and the digits of an index. -/
def Meta.bytes (m : Meta) : Nat :=
  (m.label.map fun l => utf8Len l.text).getD 0 + (m.index.map fun i => utf8Len (intDec i.val)).getD 0

/-- The bytes of data in a call: those of text, bytes, labels and of numbers written out, floats as `f32` and `f64` say. -/
def Token.bytes (f32 : UInt32 → Text) (f64 : UInt64 → Text) : Token → Nat
  | .int _ v => utf8Len (intDec v)
  | .f32 b => utf8Len (f32 b)
  | .f64 b => utf8Len (f64 b)
  | .textFragment s | .textFragmentComputed s => utf8Len s
  | .binaryFragment b | .binaryFragmentComputed b => b.length
  | .enumBegin m | .enumEnd m | .taggedBegin m | .taggedEnd m | .tag m | .recordBegin m _ | .recordEnd m
  | .tupleBegin m _ | .tupleEnd m | .recordTupleBegin m _ | .recordTupleEnd m => m.bytes
  | .recordValueBegin _ l | .recordValueEnd _ l | .recordTupleValueBegin _ l _ | .recordTupleValueEnd _ l _ => utf8Len l.text
  | _ => 0

/-- A result that has grown by at most `n`. -/
def Grows {ε σ : Type} (μ : σ → Nat) (n : Nat) (r : Res ε σ) (s : σ) : Prop :=
  match r with
  | .ok s' => μ s' ≤ μ s + n
  | .err _ s' => μ s' ≤ μ s + n
  | .panic => True

variable {ε σ : Type} {μ : σ → Nat}

theorem Grows.bind {n m : Nat} {r : Res ε σ} {g : σ → Res ε σ} {s : σ} (h : Grows μ n r s) (hg : ∀ s', Grows μ m (g s') s') :
    Grows μ (n + m) (r.bind g) s := by
  cases r with
  | panic => trivial
  | err e s' => exact Nat.le_trans h (by omega)
  | ok s' =>
    have h : μ s' ≤ μ s + n := h
    have := hg s'
    simp only [Res.bind]
    cases e : g s' with
    | panic => trivial
    | ok s2 => rw [e] at this; have this : μ s2 ≤ μ s' + m := this; show μ s2 ≤ _; omega
    | err x s2 => rw [e] at this; have this : μ s2 ≤ μ s' + m := this; show μ s2 ≤ _; omega

theorem Grows.mono {n m : Nat} {r : Res ε σ} {s : σ} (h : Grows μ n r s) (hn : n ≤ m) : Grows μ m r s := by
  cases r with
  | panic => trivial
  | err e s' => exact Nat.le_trans h (by omega)
  | ok s' => exact Nat.le_trans h (by omega)

/-- From a state that measures as much. -/
theorem Grows.same {n : Nat} {r : Res ε σ} {s s' : σ} (h : Grows μ n r s') (hs : μ s' = μ s) : Grows μ n r s := by
  cases r with
  | panic => trivial
  | err e x => have h : μ x ≤ μ s' + n := h; rw [hs] at h; exact h
  | ok x => have h : μ x ≤ μ s' + n := h; rw [hs] at h; exact h

theorem grows_ok {s s' : σ} (h : μ s' = μ s) : Grows μ 0 (.ok s' : Res ε σ) s := by rw [Grows, h]; omega

theorem grows_run (c : Token → σ → Res ε σ) (cost : Token → Nat) (h : ∀ t s, Grows μ (cost t) (c t s) s) (ts : List Token) (s : σ) :
    Grows μ (ts.map cost).sum (run c ts s) s := by
  induction ts generalizing s with
  | nil => exact grows_ok rfl
  | cons t ts ih => rw [run_cons, List.map_cons, List.sum_cons]; exact (h t s).bind ih

/-- What any code makes a stream grow by: the costs of the calls received. -/
theorem grows_exec (c : Token → σ → Res ε σ) (cost : Token → Nat) (h : ∀ t s, Grows μ (cost t) (c t s) s) (p : Prog) (W : Wrapper) (s : σ) :
    μ (exec (guarded c) p W (s, false)).1.1 ≤ μ s + ((received (guarded c) p W (s, false)).map cost).sum := by
  rw [exec_received]
  generalize received (guarded c) p W (s, false) = ts
  suffices ∀ (ts : List Token) (x : σ × Bool),
      μ (ts.foldl (fun s t => (guarded c t s).1) x).1 ≤ μ x.1 + (ts.map cost).sum from this ts (s, false)
  intro ts
  induction ts with
  | nil => exact fun x => Nat.le_refl _
  | cons t ts ih =>
    rintro ⟨s, f⟩
    rw [List.foldl_cons, List.map_cons, List.sum_cons]
    refine Nat.le_trans (ih _) ?_
    have h1 : μ (guarded c t (s, f)).1.1 ≤ μ s + cost t := by
      cases f with
      | true => simp [guarded]
      | false =>
        have := h t s
        simp only [guarded, Bool.false_eq_true, if_false]
        cases e : c t s with
        | panic => exact Nat.le_add_right _ _
        | ok s' => rw [e] at this; exact this
        | err x s' => rw [e] at this; exact this
    simp only
    omega

end Sval
