import Verif.Core.Types

set_option autoImplicit false

/-!
# Binary floating point, as bit patterns

`f32 as f64` (used by `default_stream::f32`, `src/stream.rs:1276-1278`) written out on IEEE 754 bit
patterns. NaN payload propagation is platform dependent and not claimed.
-/

namespace Sval

/-- IEEE 754 single: sign, exponent, fraction. -/
def f32Sign (b : UInt32) : Nat := b.toNat / 2 ^ 31
def f32Exp (b : UInt32) : Nat := b.toNat / 2 ^ 23 % 2 ^ 8
def f32Frac (b : UInt32) : Nat := b.toNat % 2 ^ 23

/-- IEEE 754 double: sign, exponent, fraction. -/
def f64Sign (b : UInt64) : Nat := b.toNat / 2 ^ 63
def f64Exp (b : UInt64) : Nat := b.toNat / 2 ^ 52 % 2 ^ 11
def f64Frac (b : UInt64) : Nat := b.toNat % 2 ^ 52

/-- `f32::is_finite` / `f64::is_finite`. -/
def f32Finite (b : UInt32) : Bool := f32Exp b != 255
def f64Finite (b : UInt64) : Bool := f64Exp b != 2047

/-- Assemble a double. -/
def f64Make (s e f : Nat) : UInt64 := UInt64.ofNat (s * 2 ^ 63 + e * 2 ^ 52 + f)

/-- `v as f64` for `v : f32`. -/
def widen (b : UInt32) : UInt64 :=
  let s := f32Sign b
  let e := f32Exp b
  let f := f32Frac b
  if e = 255 then f64Make s 2047 (f * 2 ^ 29)
  else if e = 0 then
    if f = 0 then f64Make s 0 0
    else
      let k := Nat.log2 f
      f64Make s (k + 874) ((f - 2 ^ k) * 2 ^ (52 - k))
  else f64Make s (e + 896) (f * 2 ^ 29)

/-- Specification: the real number a finite single denotes, times `2^1074` (an integer). -/
def f32Val (b : UInt32) : Int :=
  let m : Nat := if f32Exp b = 0 then f32Frac b * 2 ^ 925 else (2 ^ 23 + f32Frac b) * 2 ^ (f32Exp b - 1 + 925)
  if f32Sign b = 0 then m else -(m : Int)

/-- Specification: the real number a finite double denotes, times `2^1074` (an integer). -/
def f64Val (b : UInt64) : Int :=
  let m : Nat := if f64Exp b = 0 then f64Frac b else (2 ^ 52 + f64Frac b) * 2 ^ (f64Exp b - 1)
  if f64Sign b = 0 then m else -(m : Int)

theorem f64Make_toNat (s e f : Nat) (hs : s < 2) (he : e < 2 ^ 11) (hf : f < 2 ^ 52) :
    (f64Make s e f).toNat = s * 2 ^ 63 + e * 2 ^ 52 + f := by
  unfold f64Make
  rw [UInt64.toNat_ofNat']
  apply Nat.mod_eq_of_lt
  have : s ≤ 1 := by omega
  omega

theorem f64Make_fields (s e f : Nat) (hs : s < 2) (he : e < 2 ^ 11) (hf : f < 2 ^ 52) :
    f64Sign (f64Make s e f) = s ∧ f64Exp (f64Make s e f) = e ∧ f64Frac (f64Make s e f) = f := by
  have h := f64Make_toNat s e f hs he hf
  unfold f64Sign f64Exp f64Frac
  rw [h]
  refine ⟨?_, ?_, ?_⟩ <;> omega

theorem f32Sign_lt (b : UInt32) : f32Sign b < 2 := by
  have := b.toNat_lt
  unfold f32Sign; omega

theorem f32Exp_lt (b : UInt32) : f32Exp b < 256 := by
  unfold f32Exp; omega

theorem f32Frac_lt (b : UInt32) : f32Frac b < 2 ^ 23 := by
  unfold f32Frac; omega

/-- Widening keeps the sign, stays finite and denotes exactly the same real number. -/
theorem widen_exact (b : UInt32) (h : f32Finite b = true) :
    f64Finite (widen b) = true ∧ f64Sign (widen b) = f32Sign b ∧ f64Val (widen b) = f32Val b := by
  have hs := f32Sign_lt b
  have he := f32Exp_lt b
  have hf := f32Frac_lt b
  have h255 : f32Exp b ≠ 255 := by simpa [f32Finite] using h
  unfold widen
  simp only [h255, if_false]
  split
  · next h0 =>
    split
    · next hz =>
      obtain ⟨a1, a2, a3⟩ := f64Make_fields (f32Sign b) 0 0 hs (by omega) (by omega)
      refine ⟨?_, a1, ?_⟩
      · simp [f64Finite, a2]
      · simp only [f64Val, f32Val, a1, a2, a3, h0, hz, if_true, Nat.zero_mul]
    · next hz =>
      have hk1 : 2 ^ Nat.log2 (f32Frac b) ≤ f32Frac b := Nat.log2_self_le hz
      have hk2 : f32Frac b < 2 ^ (Nat.log2 (f32Frac b) + 1) := Nat.lt_log2_self
      have hk3 : Nat.log2 (f32Frac b) < 23 := (Nat.log2_lt hz).2 hf
      generalize Nat.log2 (f32Frac b) = k at *
      have hpow : 2 ^ k * 2 ^ (52 - k) = 2 ^ 52 := by rw [← Nat.pow_add]; congr 1; omega
      have hlt : (f32Frac b - 2 ^ k) * 2 ^ (52 - k) < 2 ^ 52 := by
        rw [← hpow]
        apply Nat.mul_lt_mul_of_pos_right _ (Nat.pow_pos (by omega))
        rw [Nat.pow_succ] at hk2; omega
      obtain ⟨a1, a2, a3⟩ := f64Make_fields (f32Sign b) (k + 874) _ hs (by omega) hlt
      refine ⟨?_, a1, ?_⟩
      · simp [f64Finite, a2]; omega
      · have hk0 : ¬ (k + 874 = 0) := by omega
        have hm : (2 ^ 52 + (f32Frac b - 2 ^ k) * 2 ^ (52 - k)) * 2 ^ (k + 874 - 1)
            = f32Frac b * 2 ^ 925 := by
          have e1 : 2 ^ 52 + (f32Frac b - 2 ^ k) * 2 ^ (52 - k) = f32Frac b * 2 ^ (52 - k) := by
            rw [← hpow, ← Nat.add_mul]; congr 1; omega
          have e2 : 52 - k + (k + 874 - 1) = 925 := by omega
          rw [e1, Nat.mul_assoc, ← Nat.pow_add, e2]
        simp only [f64Val, f32Val, a1, a2, a3, h0, if_true, hk0, if_false, hm]
  · next h0 =>
    have hlt : f32Frac b * 2 ^ 29 < 2 ^ 52 := by omega
    obtain ⟨a1, a2, a3⟩ := f64Make_fields (f32Sign b) (f32Exp b + 896) _ hs (by omega) hlt
    refine ⟨?_, a1, ?_⟩
    · simp [f64Finite, a2]; omega
    · have hk0 : ¬ (f32Exp b + 896 = 0) := by omega
      have hm : (2 ^ 52 + f32Frac b * 2 ^ 29) * 2 ^ (f32Exp b + 896 - 1)
          = (2 ^ 23 + f32Frac b) * 2 ^ (f32Exp b - 1 + 925) := by
        have e1 : 2 ^ 52 + f32Frac b * 2 ^ 29 = (2 ^ 23 + f32Frac b) * 2 ^ 29 := by
          rw [Nat.add_mul, ← Nat.pow_add]
        have e2 : 29 + (f32Exp b + 896 - 1) = f32Exp b - 1 + 925 := by omega
        rw [e1, Nat.mul_assoc, ← Nat.pow_add, e2]
      simp only [f64Val, f32Val, a1, a2, a3, h0, hk0, if_false, hm]

/-- Widening keeps the sign, infinities stay infinities and NaNs stay NaNs. -/
theorem widen_nonfinite (b : UInt32) (h : f32Finite b = false) :
    f64Finite (widen b) = false ∧ f64Sign (widen b) = f32Sign b ∧
      (f64Frac (widen b) = 0 ↔ f32Frac b = 0) := by
  have hs := f32Sign_lt b
  have hf := f32Frac_lt b
  have h255 : f32Exp b = 255 := by simpa [f32Finite] using h
  unfold widen
  simp only [h255, if_true]
  obtain ⟨a1, a2, a3⟩ := f64Make_fields (f32Sign b) 2047 (f32Frac b * 2 ^ 29) hs (by omega) (by omega)
  refine ⟨by simp [f64Finite, a2], a1, ?_⟩
  rw [a3]; omega

end Sval
