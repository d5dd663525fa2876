import Verif.Core.Lower
import Verif.Core.Carried
import Verif.Json.Text

set_option autoImplicit false

/-!
# What default methods make of a call, measured
-/

namespace Sval.Low

variable (f : UInt64 → Text) (c : Caps)

/-- Bytes, with floats counted as `f64`. -/
def load (ts : List Token) : Nat := (ts.map fun t => t.bytes (fun b => f (widen b)) f).sum

theorem load_append (a b : List Token) : load f (a ++ b) = load f a + load f b := by simp [load]

theorem frags_load (v : Int) : load f ((intDecFrags v).map .textFragmentComputed) = utf8Len (intDec v) := by
  simp only [intDecFrags, intDec]
  split
  · simp [load, Token.bytes, utf8Len]
  · simp [load, Token.bytes]

theorem number_cost (v : Int) : (number c v).length ≤ 6 ∧ load f (number c v) = utf8Len (intDec v) := by
  have h1 : (intDecFrags v).length ≤ 2 := by
    simp only [intDecFrags]
    split <;> simp
  constructor
  · simp only [number, taggedBegin, taggedEnd]
    split <;> simp <;> omega
  · simp only [number, taggedBegin, taggedEnd, load_append, frags_load]
    split <;> simp [load, Token.bytes, Meta.bytes]

theorem int_cost (ty : IntTy) (v : Int) : (int c ty v).length ≤ 6 ∧ load f (int c ty v) = utf8Len (intDec v) := by
  have one : ∀ ty, ([Token.int ty v]).length ≤ 6 ∧ load f [.int ty v] = utf8Len (intDec v) := fun ty =>
    ⟨by simp, by simp [load, Token.bytes]⟩
  have n := number_cost f c v
  cases ty <;> simp only [int, u8, u16, u32, u64, u128, i8, i16, i32, i64, i128] <;>
    (repeat' split) <;> first | exact one _ | exact n

theorem byte_short (b : UInt8) : utf8Len (intDec b.toNat) ≤ 3 := by
  have : ∀ n : Fin 256, utf8Len (intDec n.val) ≤ 3 := by decide +kernel
  exact this ⟨b.toNat, b.toNat_lt⟩

theorem byte_cost (b : UInt8) : (u8 c b.toNat).length = 1 ∧ load f (u8 c b.toNat) ≤ 3 := by
  have one : ∀ ty, ([Token.int ty b.toNat]).length = 1 ∧ load f [.int ty b.toNat] ≤ 3 := fun ty =>
    ⟨rfl, by simpa [load, Token.bytes] using byte_short b⟩
  have fits : IntTy.i64.fits (b.toNat : Int) = true := by
    have := b.toNat_lt
    rw [IntTy.fits_iff]
    simp only [IntTy.min, IntTy.max]
    omega
  simp only [u8, u16, u32, u64, u128, fits, if_true]
  repeat' split
  all_goals exact one _

theorem bytes_cost (s : Bytes) :
    (s.flatMap fun b => [.seqValueBegin] ++ u8 c b.toNat ++ [.seqValueEnd]).length = 3 * s.length ∧
    load f (s.flatMap fun b => [.seqValueBegin] ++ u8 c b.toNat ++ [.seqValueEnd]) ≤ 3 * s.length := by
  induction s with
  | nil => exact ⟨rfl, by simp [load]⟩
  | cons b s ih =>
    rw [List.flatMap_cons]
    have := byte_cost f c b
    constructor
    · simp only [List.length_append, List.length_cons, List.length_nil, this.1, ih.1]
      omega
    · rw [load_append, load_append, load_append]
      have h1 : load f [Token.seqValueBegin] = 0 := rfl
      have h2 : load f [Token.seqValueEnd] = 0 := rfl
      simp only [List.length_cons]
      omega

/-- One call becomes at most nine, and three for each byte, and carries at most three times as much. -/
theorem tok_cost (t : Token) :
    (tok c t).length ≤ 9 + 3 * t.bytes (fun b => f (widen b)) f ∧ load f (tok c t) ≤ 3 * t.bytes (fun b => f (widen b)) f := by
  cases t with
  | int ty v =>
    have := int_cost f c ty v
    simp only [tok, Token.bytes]
    omega
  | binaryFragment s | binaryFragmentComputed s =>
    have := bytes_cost f c s
    simp only [tok, binaryFragment, binaryFragmentComputed, Token.bytes]
    (repeat' split)
    all_goals first
      | exact ⟨by simp; omega, by simp [load, Token.bytes]; omega⟩
      | exact ⟨by omega, by omega⟩
  | tag m =>
    obtain ⟨tg, l, i⟩ := m
    cases l <;>
    simp only [tok, tag, labelValue, textValue, textValueComputed, textFragment, taggedBegin, taggedEnd] <;>
    (repeat' split) <;> simp [load, Token.bytes, Meta.bytes] <;> omega
  | _ =>
    simp only [tok, f32, textFragment, binaryBegin, binaryEnd, mapBegin, mapKeyBegin, mapKeyEnd, mapValueBegin, mapValueEnd, mapEnd, enumBegin,
      enumEnd, taggedBegin, taggedEnd, tagHint, recordBegin, recordValueBegin, recordValueEnd, recordEnd, tupleBegin, tupleValueBegin, tupleValueEnd,
      tupleEnd, recordTupleBegin, recordTupleValueBegin, recordTupleValueEnd, recordTupleEnd, labelValue, textValue, textValueComputed]
    (repeat' split) <;> simp [load, Token.bytes, Meta.bytes] <;> omega

theorem lower_cost (ts : List Token) :
    (lower c ts).length ≤ 9 * ts.length + 3 * load f ts ∧ load f (lower c ts) ≤ 3 * load f ts := by
  induction ts with
  | nil => simp [lower, load]
  | cons t ts ih =>
    have := tok_cost f c t
    have h : load f (t :: ts) = t.bytes (fun b => f (widen b)) f + load f ts := rfl
    rw [lower, List.flatMap_cons, load_append, h, List.length_append, List.length_cons]
    rw [lower] at ih
    omega

end Sval.Low
