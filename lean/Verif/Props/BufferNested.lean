import Verif.Props.Buffer

set_option autoImplicit false

/-!
# What a buffer streams, whatever calls it was given (C17, C18)
-/

namespace Sval

open Buf

/-- The call that closes what a call opens. -/
def closer : Token → Option Token
  | .mapBegin _ => some .mapEnd
  | .mapKeyBegin => some .mapKeyEnd
  | .mapValueBegin => some .mapValueEnd
  | .seqBegin _ => some .seqEnd
  | .seqValueBegin => some .seqValueEnd
  | .enumBegin m => some (.enumEnd m)
  | .taggedBegin m => some (.taggedEnd m)
  | .recordBegin m _ => some (.recordEnd m)
  | .recordValueBegin t l => some (.recordValueEnd t l)
  | .tupleBegin m _ => some (.tupleEnd m)
  | .tupleValueBegin t i => some (.tupleValueEnd t i)
  | .recordTupleBegin m _ => some (.recordTupleEnd m)
  | .recordTupleValueBegin t l i => some (.recordTupleValueEnd t l i)
  | _ => none

/-- A call that is a value, or a hint, on its own. -/
def single : Token → Bool
  | .null | .bool _ | .int _ _ | .f32 _ | .f64 _ | .tag _ | .tagHint _ => true
  | _ => false

/-- Calls where everything that is opened is closed, by what closes it and in order, and where texts and bytes are one
fragment, with their length. -/
inductive WellNested : List Token → Prop where
  | nil : WellNested []
  | single {t : Token} {ts : List Token} : single t = true → WellNested ts → WellNested (t :: ts)
  | text {s : Text} {f : Token} {ts : List Token} : f = .textFragment s ∨ f = .textFragmentComputed s → WellNested ts →
    WellNested (.textBegin (some (utf8Len s)) :: f :: .textEnd :: ts)
  | binary {s : Bytes} {f : Token} {ts : List Token} : f = .binaryFragment s ∨ f = .binaryFragmentComputed s → WellNested ts →
    WellNested (.binaryBegin (some s.length) :: f :: .binaryEnd :: ts)
  | wrap {b e : Token} {ts us : List Token} : closer b = some e → WellNested ts → WellNested us → WellNested (b :: (ts ++ e :: us))

theorem then_toks {a b : Out} (h : (a.then b).panic = false) : a.panic = false ∧ b.panic = false ∧ (a.then b).toks = a.toks ++ b.toks := by
  unfold Out.then at h ⊢
  cases ha : a.panic <;> simp_all

theorem replayN_nested (fuel : Nat) (ps : List Part) (h : (replayN fuel ps).panic = false) : WellNested (replayN fuel ps).toks := by
  induction fuel generalizing ps with
  | zero => exact .nil
  | succ fuel ih =>
    cases ps with
    | nil => exact .nil
    | cons p rest =>
      cases p with
      | opened o len =>
        rw [replayN] at h ⊢
        split at h
        · cases h
        · rename_i hl
          rw [if_neg hl]
          obtain ⟨h1, h2, e1⟩ := then_toks h
          obtain ⟨h3, _, e2⟩ := then_toks h1
          obtain ⟨_, h5, e3⟩ := then_toks h3
          rw [e1, e2, e3]
          have := WellNested.wrap (b := o.begin) (e := o.end) (by cases o <;> rfl) (ih _ h5) (ih _ h2)
          simpa using this
      | text c =>
        rw [replayN] at h ⊢
        obtain ⟨_, h2, e⟩ := then_toks h
        rw [e]
        cases c with
        | borrowed s => exact .text (.inl rfl) (ih _ h2)
        | owned s => exact .text (.inr rfl) (ih _ h2)
      | binary c =>
        rw [replayN] at h ⊢
        obtain ⟨_, h2, e⟩ := then_toks h
        rw [e]
        cases c with
        | borrowed s => exact .binary (.inl rfl) (ih _ h2)
        | owned s => exact .binary (.inr rfl) (ih _ h2)
      | null | bool | int | f32 | f64 | tag | tagHint =>
        rw [replayN] at h ⊢
        obtain ⟨_, h2, e⟩ := then_toks h
        rw [e]
        exact .single rfl (ih _ h2)

theorem replayN_ne (fuel : Nat) (ps : List Part) (hp : ps ≠ []) (h : (replayN (fuel + 1) ps).panic = false) :
    (replayN (fuel + 1) ps).toks ≠ [] := by
  cases ps with
  | nil => exact absurd rfl hp
  | cons p rest =>
    cases p with
    | opened o len =>
      rw [replayN] at h ⊢
      split at h
      · cases h
      · rename_i hl
        rw [if_neg hl]
        obtain ⟨h1, _, e1⟩ := then_toks h
        obtain ⟨h3, _, e2⟩ := then_toks h1
        obtain ⟨_, _, e3⟩ := then_toks h3
        rw [e1, e2, e3]
        simp
    | null | bool | int | f32 | f64 | tag | tagHint | text | binary =>
      rw [replayN] at h ⊢
      rw [(then_toks h).2.2]
      simp [Cow.textToks, Cow.binaryToks]

/-- C17. Whatever calls a buffer was given, streaming it makes calls that are properly nested, and at least one. -/
theorem C17_nested (s : St) (h : Reach s) : WellNested (replay s.parts).toks ∧ (replay s.parts).toks ≠ [] := by
  have hp := (C17_unbalanced_end s h).2.2.2
  unfold replay at hp ⊢
  split
  · exact ⟨.single rfl .nil, by simp⟩
  · rename_i hl
    rw [if_neg hl] at hp
    refine ⟨replayN_nested _ _ hp, ?_⟩
    obtain ⟨n, hn⟩ := Nat.exists_eq_succ_of_ne_zero hl
    rw [hn] at hp ⊢
    exact replayN_ne n _ (fun e => hl (by rw [e]; rfl)) hp

/-- C18. A new buffer, and one that was cleared, streams a null; and it is not complete. -/
theorem C18_empty (s : St) : replay (clear s).parts = ⟨[.null], false⟩ ∧ isComplete (clear s) = false ∧
    replay ({} : St).parts = ⟨[.null], false⟩ := ⟨rfl, rfl, rfl⟩

/-- A history with an end too many, one that closes something else, and containers left open. -/
example : ∃ s, Reach s ∧ (replay s.parts).toks = [.seqBegin none, .bool true, .seqEnd, .mapBegin none, .mapEnd, .mapKeyBegin, .mapKeyEnd] := by
  refine ⟨{ parts := [.opened (.seq none) 1, .bool true, .opened (.map none) 0, .opened .mapKey 0], stack := [3, 2], err := some .unbalanced },
    ?_, by decide +kernel⟩
  refine .ok .mapKeyBegin (s := { parts := [.opened (.seq none) 1, .bool true, .opened (.map none) 0], stack := [2], err := some .unbalanced }) ?_ rfl
  refine .ok (.mapBegin none) (s := { parts := [.opened (.seq none) 1, .bool true], err := some .unbalanced }) ?_ rfl
  refine .ok .mapEnd (s := { parts := [.opened (.seq none) 0, .bool true], stack := [0], err := some .unbalanced }) ?_ rfl
  refine .ok (.bool true) (s := { parts := [.opened (.seq none) 0], stack := [0], err := some .unbalanced }) ?_ rfl
  refine .ok (.seqBegin none) (s := { err := some .unbalanced }) ?_ rfl
  exact .err (s := {}) .seqEnd .new rfl

end Sval
