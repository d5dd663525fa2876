import Verif.Flatten.Model
import Verif.Core.Carried

set_option autoImplicit false

/-!
# How many calls flattening makes
-/

namespace Sval.Flatten

section
variable {σ : Type} (ν : σ → Nat)

/-- An action that makes at most `n` calls, if `ν` counts them. -/
def Makes (n : Nat) (x : Act σ) : Prop := ∀ st, Grows (fun st : St σ => ν st.s) n (x st) st

variable {ν}

theorem makes_ok {n : Nat} : Makes ν n (.ok : Act σ) := fun _ => (grows_ok rfl).mono (Nat.zero_le n)

/-- Changes to the fields of the flattener. -/
theorem makes_ctl {n : Nat} {x : Act σ} (h : Makes ν n x) (st st' : St σ) (hs : st'.s = st.s) :
    Grows (fun st : St σ => ν st.s) n (x st') st := (h st').same (by rw [hs])

variable {cfg : Cfg} {S : Token → σ → Res Unit σ} (hS : ∀ t s, Grows ν 1 (S t s) s)
include hS

theorem makes_lift (t : Token) : Makes ν 1 (lift S t) := by
  intro st
  have := hS t st.s
  rw [lift]
  cases h : S t st.s with
  | panic => trivial
  | ok s => rw [h] at this; exact this
  | err e s => rw [h] at this; exact this

theorem makes_toStream (t : Token) : Makes ν 1 (toStream cfg S t) := by
  intro st
  rw [toStream]
  split
  · exact makes_ctl (makes_lift hS t) _ _ rfl
  · exact makes_lift hS t st

theorem makes_toLabel (t : Token) : Makes ν 1 (toLabel cfg S t) := by
  intro st
  rw [toLabel]
  split
  · split
    · exact Nat.le_add_right _ _
    · exact Nat.le_add_right _ _
    · trivial
  · split
    · exact Nat.le_add_right _ _
    · exact Nat.le_add_right _ _
    · trivial
  · exact makes_ok st
  · exact makes_ok st
  · exact makes_toStream hS t st

theorem makes_toStreamAll (ts : List Token) : Makes ν ts.length (toStreamAll cfg S ts) := by
  induction ts with
  | nil => exact makes_ok
  | cons t ts ih =>
    intro st
    rw [toStreamAll]
    exact ((makes_toStream hS t st).bind ih).mono (by simp; omega)

theorem makes_flatBegin (t : Option Tag) (l : Label) (i : Index) : Makes ν 6 (flatBegin cfg S t l i) := by
  intro st
  rw [flatBegin]
  split
  · exact (makes_toStream hS _ st).mono (by omega)
  · exact (makes_toStream hS _ st).mono (by omega)
  · exact (makes_toStream hS _ st).mono (by omega)
  · exact (makes_toStream hS _ st).mono (by omega)
  · refine Grows.bind (n := 5) (m := 1) ?_ fun st => makes_toStream hS _ st
    split
    · exact makes_ok st
    · exact makes_toStreamAll hS _ st

theorem makes_flatEnd (t : Option Tag) (l : Label) (i : Index) : Makes ν 6 (flatEnd cfg S t l i) := by
  intro st
  rw [flatEnd]
  split <;> exact (makes_toStream hS _ st).mono (by omega)

omit hS

theorem makes_valueAtRoot {a b c : Act σ} {n : Nat} (ha : Makes ν n a) (hb : Makes ν n b) (hc : Makes ν n c) :
    Makes ν n (valueAtRoot a b c) := by
  intro st
  rw [valueAtRoot]
  split
  · exact ha st
  · split
    · exact hb st
    · exact hc st

theorem makes_begin {a b c : Act σ} {n : Nat} (ha : Makes ν n a) (hb : Makes ν n b) (hc : Makes ν n c) :
    Makes ν n (flattenableBegin a b c) := by
  intro st
  simp only [flattenableBegin]
  split
  · exact makes_ctl ha _ _ rfl
  · split
    · exact makes_ctl hb _ _ rfl
    · exact makes_ctl hc _ _ rfl

theorem makes_value {a b c : Act σ} {n : Nat} (ha : Makes ν n a) (hb : Makes ν n b) (hc : Makes ν n c) :
    Makes ν n (flattenableValue a b c) := by
  intro st
  rw [flattenableValue]
  split
  · exact hb st
  · split
    · exact ha st
    · exact hc st

theorem makes_end {a b c : Act σ} {n : Nat} (ha : Makes ν n a) (hb : Makes ν n b) (hc : Makes ν n c) :
    Makes ν n (flattenableEnd cfg a b c) := by
  intro st
  rw [flattenableEnd]
  refine Grows.bind (m := 0) ?_ fun st => ?_
  · split
    · exact ha st
    · split
      · exact hb st
      · exact hc st
  · rw [leave]
    split
    · trivial
    · exact Nat.le_refl _

theorem makes_withIndexLabel {f : Label → Act σ} {n : Nat} (i : Index) (l : Option Label) (h : ∀ l, Makes ν n (f l)) :
    Makes ν n (withIndexLabel cfg i l f) := by
  intro st
  unfold withIndexLabel
  split
  · exact h _ st
  · split
    · exact h _ st
    · exact Nat.le_add_right _ _

theorem makes_withBegin {f : Index → Act σ} {n : Nat} (i : Option Index) (h : ∀ i, Makes ν n (f i)) :
    Makes ν n (withBegin cfg i f) := by
  intro st
  rw [withBegin]
  split
  · exact h _ st
  · trivial

theorem makes_withEnd {f : Index → Act σ} {n : Nat} (i : Option Index) (h : ∀ i, Makes ν n (f i)) :
    Makes ν n (withEnd cfg i f) := by
  intro st
  rw [withEnd]
  split
  · exact makes_ctl (h _) _ _ rfl
  · trivial

theorem makes_withKey {f : Label → Act σ} {n : Nat} (h : ∀ l, Makes ν n (f l)) : Makes ν n (withKey cfg f) :=
  fun st => h _ st

theorem takeLabel_s (st : St σ) : (takeLabel cfg st).2.s = st.s := by rw [takeLabel]; split <;> rfl

include hS

/-- Six calls for a call, at most. -/
theorem makes_call (t : Token) : Makes ν 6 (call cfg S t) := by
  have hl : ∀ t, Makes ν 6 (toLabel cfg S t) := fun t st => (makes_toLabel hS t st).mono (by omega)
  have hs : ∀ t, Makes ν 6 (toStream cfg S t) := fun t st => (makes_toStream hS t st).mono (by omega)
  have hb := makes_flatBegin (cfg := cfg) hS
  have he := makes_flatEnd (cfg := cfg) hS
  have hv : ∀ t, Makes ν 6 (value cfg S t) := fun t => makes_valueAtRoot makes_ok (hl t) (hs t)
  have ho : ∀ t, Makes ν 6 (opens cfg S t) := fun t => makes_begin (hl t) makes_ok (hs t)
  have hc : ∀ t, Makes ν 6 (closes cfg S t) := fun t => makes_end (hl t) makes_ok (hs t)
  have key : ∀ t b, Makes ν 6 (fun st : St σ => (toLabel cfg S t st).bind fun st => .ok { st with ctl.inKey := b }) :=
    fun t b st => (Grows.bind (m := 0) (makes_toLabel hS t st) fun _ => Nat.le_refl _).mono (by omega)
  have mv : Makes ν 6 (mapValueBegin cfg S) := by
    intro st
    have ht := takeLabel_s (cfg := cfg) st
    rw [mapValueBegin]
    generalize takeLabel cfg st = y at ht
    obtain ⟨k, st'⟩ := y
    exact makes_ctl (makes_withKey fun l => makes_withBegin none fun i => hb none l i) _ _ ht
  cases t with
  | null | bool | int | f32 | f64 | textBegin | textFragment | textFragmentComputed | textEnd
  | binaryBegin | binaryFragment | binaryFragmentComputed | binaryEnd | tag | tagHint => exact hv _
  | mapBegin | seqBegin | recordBegin | tupleBegin | recordTupleBegin => exact ho _
  | mapEnd | seqEnd | recordEnd | tupleEnd | recordTupleEnd => exact hc _
  | mapKeyBegin => exact makes_value (hl _) (key _ _) (hs _)
  | mapKeyEnd => exact makes_value (hl _) (key _ _) (hs _)
  | mapValueBegin => exact makes_value (hl _) mv (hs _)
  | mapValueEnd => exact makes_value (hl _) (makes_withKey fun l => makes_withEnd none fun i => he none l i) (hs _)
  | seqValueBegin => exact makes_value (hl _) (makes_withBegin none fun i => makes_withIndexLabel i none fun l => hb none l i) (hs _)
  | seqValueEnd => exact makes_value (hl _) (makes_withEnd none fun i => makes_withIndexLabel i none fun l => he none l i) (hs _)
  | enumBegin => exact makes_valueAtRoot (fun st => Nat.le_add_right _ _) (hl _) (hs _)
  | enumEnd => exact makes_valueAtRoot makes_ok (hl _) (hs _)
  | taggedBegin m =>
    intro st
    simp only [call]
    split
    · exact makes_begin (hl _) (makes_withBegin m.index fun i => makes_withIndexLabel i m.label fun l => hb none l i) (hs _) st
    · split
      · exact makes_ok st
      · exact hv _ st
  | taggedEnd m =>
    intro st
    simp only [call]
    split
    · exact makes_end (hl _) (makes_withEnd m.index fun i => makes_withIndexLabel i m.label fun l => he none l i) (hs _) st
    · split
      · exact makes_ok st
      · exact hv _ st
  | recordValueBegin tg l => exact makes_value (hl _) (makes_withBegin none fun i => hb tg l i) (hs _)
  | recordValueEnd tg l => exact makes_value (hl _) (makes_withEnd none fun i => he tg l i) (hs _)
  | tupleValueBegin tg i => exact makes_value (hl _) (makes_withBegin _ fun i => makes_withIndexLabel i none fun l => hb tg l i) (hs _)
  | tupleValueEnd tg i => exact makes_value (hl _) (makes_withEnd _ fun i => makes_withIndexLabel i none fun l => he tg l i) (hs _)
  | recordTupleValueBegin tg l i => exact makes_value (hl _) (makes_withBegin _ fun i => hb tg l i) (hs _)
  | recordTupleValueEnd tg l i => exact makes_value (hl _) (makes_withEnd _ fun i => he tg l i) (hs _)

end

end Sval.Flatten
