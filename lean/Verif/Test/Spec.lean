import Verif.Test.Model

set_option autoImplicit false

/-! # What assertions on calls compare -/

namespace Sval.Test

/-- A label without its hint and where its text is. -/
def plainLabel (l : Label) : Label := { text := l.text, backing := .computed }
/-- An index without its hint. -/
def plainIndex (i : Index) : Index := { val := i.val }
/-- A tag, label and index without hints. -/
def plainMeta (m : Meta) : Meta := { tag := m.tag, label := m.label.map plainLabel, index := m.index.map plainIndex }

/-- What can be told apart: labels by their text, indexes by their number, and floats by their number, so that zero has no
sign. -/
def plain : Token → Token
  | .f32 b => .f32 (if b.toNat % 2 ^ 31 = 0 then 0 else b)
  | .f64 b => .f64 (if b.toNat % 2 ^ 63 = 0 then 0 else b)
  | .enumBegin m => .enumBegin (plainMeta m)
  | .enumEnd m => .enumEnd (plainMeta m)
  | .taggedBegin m => .taggedBegin (plainMeta m)
  | .taggedEnd m => .taggedEnd (plainMeta m)
  | .tag m => .tag (plainMeta m)
  | .recordBegin m n => .recordBegin (plainMeta m) n
  | .recordValueBegin t l => .recordValueBegin t (plainLabel l)
  | .recordValueEnd t l => .recordValueEnd t (plainLabel l)
  | .recordEnd m => .recordEnd (plainMeta m)
  | .tupleBegin m n => .tupleBegin (plainMeta m) n
  | .tupleValueBegin t i => .tupleValueBegin t (plainIndex i)
  | .tupleValueEnd t i => .tupleValueEnd t (plainIndex i)
  | .tupleEnd m => .tupleEnd (plainMeta m)
  | .recordTupleBegin m n => .recordTupleBegin (plainMeta m) n
  | .recordTupleValueBegin t l i => .recordTupleValueBegin t (plainLabel l) (plainIndex i)
  | .recordTupleValueEnd t l i => .recordTupleValueEnd t (plainLabel l) (plainIndex i)
  | .recordTupleEnd m => .recordTupleEnd (plainMeta m)
  | t => t

/-- A float that is not a number. -/
def isNan : Token → Bool
  | .f32 b => 0x7f800000 < b.toNat % 2 ^ 31
  | .f64 b => 0x7ff0000000000000 < b.toNat % 2 ^ 63
  | _ => false

/-- The calls that a value makes on a stream that accepts them all, and what it returns. -/
def callsOf (p : Prog) : List Token × Bool := exec (recorder fun _ _ => true) p .base []

/-! ## Lemmas -/

theorem eqF32_iff (a b : UInt32) : eqF32 a b = true ↔
    (if a.toNat % 2 ^ 31 = 0 then 0 else a) = (if b.toNat % 2 ^ 31 = 0 then 0 else b) ∧ ¬ 0x7f800000 < a.toNat % 2 ^ 31 := by
  have e : ∀ x y : UInt32, x = y ↔ x.toNat = y.toNat := fun x y => UInt32.toNat_inj.symm
  have ha := a.toNat_lt
  have hb := b.toNat_lt
  split <;> split <;> simp [eqF32, e] <;> simp only [f32Exp, f32Frac] <;> omega

theorem eqF64_iff (a b : UInt64) : eqF64 a b = true ↔
    (if a.toNat % 2 ^ 63 = 0 then 0 else a) = (if b.toNat % 2 ^ 63 = 0 then 0 else b) ∧
      ¬ 0x7ff0000000000000 < a.toNat % 2 ^ 63 := by
  have e : ∀ x y : UInt64, x = y ↔ x.toNat = y.toNat := fun x y => UInt64.toNat_inj.symm
  have ha := a.toNat_lt
  have hb := b.toNat_lt
  split <;> split <;> simp [eqF64, e] <;> simp only [f64Exp, f64Frac] <;> omega

theorem label_iff (a b : Label) : a.beq b.toOwned = true ↔ plainLabel a = plainLabel b := by
  have h : b.toOwned.text = b.text := by unfold Label.toOwned; split <;> rfl
  simp [Label.beq, plainLabel, h]

theorem index_iff (a b : Index) : a.beq b = true ↔ plainIndex a = plainIndex b := by
  simp [Index.beq, plainIndex]

theorem meta_iff (a b : Meta) : eqMeta a (ownMeta b) = true ↔ plainMeta a = plainMeta b := by
  obtain ⟨t, l, i⟩ := a
  obtain ⟨t', l', i'⟩ := b
  have hl : eqOpt Label.beq l (l'.map Label.toOwned) = true ↔ l.map plainLabel = l'.map plainLabel := by
    cases l <;> cases l' <;> simp [eqOpt, label_iff]
  have hi : eqOpt Index.beq i i' = true ↔ i.map plainIndex = i'.map plainIndex := by
    cases i <;> cases i' <;> simp [eqOpt, index_iff]
  simp [eqMeta, ownMeta, plainMeta, hl, hi, and_assoc]
  exact fun _ _ => decide_eq_true_iff

theorem token_iff (a b : Token) : eqToken a (token b) = true ↔ plain a = plain b ∧ isNan a = false := by
  cases a <;> cases b <;>
    simp [eqToken, token, plain, isNan, meta_iff, label_iff, index_iff, eqF32_iff, eqF64_iff, and_assoc]

end Sval.Test
