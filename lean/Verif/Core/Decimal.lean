import Verif.Core.Types

set_option autoImplicit false

/-!
# Decimal spelling of integers

`fmt::Display` of the Rust integer types (and `itoa`, used by `sval_json`): canonical decimal
digits, most significant first, with a leading `-` for negative numbers. Modelled, not verified
against the Rust standard library.
-/

namespace Sval

/-- The ASCII digit of `d < 10`. -/
def digitChar (d : Nat) : Char := Char.ofNat (48 + d)

/-- Value of an ASCII digit. -/
def digitVal (c : Char) : Nat := c.toNat - 48

/-- Is the character one of `'0'..='9'`? -/
def isDigit (c : Char) : Bool := decide (48 ≤ c.toNat) && decide (c.toNat ≤ 57)

/-- Decimal digits with a recursion bound (so that it reduces in the kernel). -/
def natDecFuel : Nat → Nat → Text
  | 0, _ => []
  | f + 1, n => if n < 10 then [digitChar n] else natDecFuel f (n / 10) ++ [digitChar (n % 10)]

/-- Decimal digits of a natural number. -/
def natDec (n : Nat) : Text := natDecFuel (n + 1) n

theorem natDecFuel_eq (f g n : Nat) (hf : n < f) (hg : n < g) :
    natDecFuel f n = natDecFuel g n := by
  induction n using Nat.strongRecOn generalizing f g with
  | _ n ih =>
    obtain ⟨f, rfl⟩ : ∃ f', f = f' + 1 := ⟨f - 1, by omega⟩
    obtain ⟨g, rfl⟩ : ∃ g', g = g' + 1 := ⟨g - 1, by omega⟩
    unfold natDecFuel
    split
    · rfl
    · rw [ih (n / 10) (by omega) f g (by omega) (by omega)]

theorem natDec_eq (n : Nat) :
    natDec n = if n < 10 then [digitChar n] else natDec (n / 10) ++ [digitChar (n % 10)] := by
  unfold natDec
  rw [natDecFuel]
  split
  · rfl
  · rw [natDecFuel_eq n (n / 10 + 1) (n / 10) (by omega) (by omega)]

/-- Decimal spelling of an integer. -/
def intDec (v : Int) : Text :=
  if v < 0 then '-' :: natDec v.natAbs else natDec v.natAbs

/-- The number a digit string spells (specification). -/
def digitsVal (s : Text) : Nat := s.foldl (fun a c => a * 10 + digitVal c) 0

/-- Reading a decimal spelling back (specification). -/
def readInt : Text → Option Int
  | '-' :: s => if s ≠ [] ∧ s.all isDigit then some (-(digitsVal s : Int)) else none
  | s => if s ≠ [] ∧ s.all isDigit then some (digitsVal s : Int) else none

theorem digitChar_cases (d : Nat) (h : d < 10) :
    isDigit (digitChar d) = true ∧ digitVal (digitChar d) = d := by
  have : ∀ d, d < 10 → isDigit (digitChar d) = true ∧ digitVal (digitChar d) = d := by decide
  exact this d h

theorem digitChar_ne_zero (d : Nat) (h : d < 10) (h0 : d ≠ 0) : digitChar d ≠ '0' := by
  have : ∀ d, d < 10 → d ≠ 0 → digitChar d ≠ '0' := by decide
  exact this d h h0

theorem natDec_ne_nil (n : Nat) : natDec n ≠ [] := by
  rw [natDec_eq]; split <;> simp

theorem natDec_digits (n : Nat) : (natDec n).all isDigit = true := by
  induction n using Nat.strongRecOn with
  | _ n ih =>
    rw [natDec_eq]
    split
    · next h => simp [(digitChar_cases n h).1]
    · next h =>
      have h1 := ih (n / 10) (by omega)
      have h2 := (digitChar_cases (n % 10) (by omega)).1
      simp [h1, h2]

theorem digitsVal_append_one (s : Text) (c : Char) :
    digitsVal (s ++ [c]) = digitsVal s * 10 + digitVal c := by
  simp [digitsVal, List.foldl_append]

theorem digitsVal_natDec (n : Nat) : digitsVal (natDec n) = n := by
  induction n using Nat.strongRecOn with
  | _ n ih =>
    rw [natDec_eq]
    split
    · next h => simp [digitsVal, (digitChar_cases n h).2]
    · next h =>
      rw [digitsVal_append_one, ih (n / 10) (by omega), (digitChar_cases (n % 10) (by omega)).2]
      omega

/-- No leading zero unless the number is zero: the spelling is canonical. -/
theorem natDec_head (n : Nat) (h : n ≠ 0) : (natDec n).head? ≠ some '0' := by
  induction n using Nat.strongRecOn with
  | _ n ih =>
    rw [natDec_eq]
    split
    · next h10 => simpa using digitChar_ne_zero n h10 h
    · next h10 =>
      have h1 := ih (n / 10) (by omega) (by omega)
      cases hd : natDec (n / 10) with
      | nil => exact absurd hd (natDec_ne_nil _)
      | cons a b => rw [hd] at h1; simpa using h1

theorem natDec_zero : natDec 0 = ['0'] := by
  decide

theorem natDec_inj {a b : Nat} (h : natDec a = natDec b) : a = b := by
  have := congrArg digitsVal h
  simpa [digitsVal_natDec] using this

theorem isDigit_minus : isDigit '-' = false := by decide

theorem readInt_intDec (v : Int) : readInt (intDec v) = some v := by
  unfold intDec
  have hall := natDec_digits v.natAbs
  have hne := natDec_ne_nil v.natAbs
  split
  · next h =>
    simp only [readInt]
    rw [if_pos ⟨hne, hall⟩, digitsVal_natDec]
    congr 1; omega
  · next h =>
    cases hd : natDec v.natAbs with
    | nil => exact absurd hd hne
    | cons c cs =>
      have hc : c ≠ '-' := by
        intro hc
        rw [hd, hc] at hall
        simp [isDigit_minus] at hall
      have : readInt (c :: cs) =
          if (c :: cs) ≠ [] ∧ (c :: cs).all isDigit then some (digitsVal (c :: cs) : Int) else none := by
        unfold readInt
        split
        · next heq => injection heq with h1 h2; exact absurd h1 hc
        · next heq => rfl
      rw [this, ← hd, if_pos ⟨hne, hall⟩, digitsVal_natDec]
      congr 1; omega

end Sval
