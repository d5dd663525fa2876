import Verif.Serde.NoAlloc
import Verif.Nested.Sim
import Verif.Props.NestedDebug

set_option autoImplicit false

/-!
# Serializing values that may fail where others do not
-/

namespace Sval.Serde

open Nested (Arg Cb Build Less)

section
variable {ε τ : Type}

/-- A result that is another one, or an error; `panics`: or a panic. If the other one is a panic, anything. -/
def Worse (panics : Prop) (r' r : Res ε τ) : Prop :=
  r = .panic ∨ (panics ∧ r' = .panic) ∨ (∃ e s, r' = .err e s) ∨ r' = r

/-- A call that is given a value that may fail where another one does not. -/
inductive SCall.Worse (panics : Prop) : SCall ε τ → SCall ε τ → Prop
  | same (x : SCall ε τ) : Worse panics x x
  | some (f' f : τ → Res ε τ) (h : ∀ s, Serde.Worse panics (f' s) (f s)) : Worse panics (.some f') (.some f)
  | newtypeStruct (name : Text) (f' f : τ → Res ε τ) (h : ∀ s, Serde.Worse panics (f' s) (f s)) :
    Worse panics (.newtypeStruct name f') (.newtypeStruct name f)
  | newtypeVariant (name : Text) (i : UInt32) (v : Text) (f' f : τ → Res ε τ) (h : ∀ s, Serde.Worse panics (f' s) (f s)) :
    Worse panics (.newtypeVariant name i v f') (.newtypeVariant name i v f)
  | seqElement (f' f : τ → Res ε τ) (h : ∀ s, Serde.Worse panics (f' s) (f s)) : Worse panics (.seqElement f') (.seqElement f)
  | tupleElement (f' f : τ → Res ε τ) (h : ∀ s, Serde.Worse panics (f' s) (f s)) : Worse panics (.tupleElement f') (.tupleElement f)
  | tupleStructField (f' f : τ → Res ε τ) (h : ∀ s, Serde.Worse panics (f' s) (f s)) :
    Worse panics (.tupleStructField f') (.tupleStructField f)
  | tupleVariantField (f' f : τ → Res ε τ) (h : ∀ s, Serde.Worse panics (f' s) (f s)) :
    Worse panics (.tupleVariantField f') (.tupleVariantField f)
  | mapKey (f' f : τ → Res ε τ) (h : ∀ s, Serde.Worse panics (f' s) (f s)) : Worse panics (.mapKey f') (.mapKey f)
  | mapValue (f' f : τ → Res ε τ) (h : ∀ s, Serde.Worse panics (f' s) (f s)) : Worse panics (.mapValue f') (.mapValue f)
  | structField (key : Text) (f' f : τ → Res ε τ) (h : ∀ s, Serde.Worse panics (f' s) (f s)) :
    Worse panics (.structField key f') (.structField key f)
  | structVariantField (key : Text) (f' f : τ → Res ε τ) (h : ∀ s, Serde.Worse panics (f' s) (f s)) :
    Worse panics (.structVariantField key f') (.structVariantField key f)

/-- A serializer that returns the errors of the values it is given. -/
def Honest (panics : Prop) (S : SCall ε τ → τ → Res ε τ) : Prop :=
  ∀ x' x, SCall.Worse panics x' x → ∀ s, Worse panics (S x' s) (S x s)

/-- The same state; or an error that is not returned yet. -/
def Doomed (st' st : St ε τ) : Prop :=
  st' = st ∨ (∃ e, st'.failed = some e) ∧ st'.mode = st.mode ∧ st.mode ≠ .top ∧ ∀ n, st.mode ≠ .enum n

/-- Two ways of streaming values. -/
def Weaker (P : Prop) (K' K : Bool → Prog → τ → Outcome (St ε τ)) : Prop :=
  ∀ c p, p.Propagates → ∀ s, K c p s = .panicked ∨ (P ∧ K' c p s = .panicked) ∨ (∃ x, K' c p s = .done false x) ∨
    ∃ ok a b, K' c p s = .done ok a ∧ K c p s = .done ok b ∧ Doomed a b

variable {custom : ε} {S : SCall ε τ → τ → Res ε τ} {P : Prop} {K' K : Bool → Prog → τ → Outcome (St ε τ)}

theorem Weaker.worse (hK : Weaker P K' K) (p : Prog) (hp : p.Propagates) (s : τ) :
    Worse P (finish custom (K' false p s)) (finish custom (K false p s)) := by
  rcases hK false p hp s with h | ⟨hp, h⟩ | ⟨x, h⟩ | ⟨ok, a, b, h1, h2, h⟩
  · rw [h]; exact .inl rfl
  · rw [h]; exact .inr (.inl ⟨hp, rfl⟩)
  · rw [h]; exact .inr (.inr (.inl ⟨_, _, rfl⟩))
  · rw [h1, h2]
    cases ok with
    | false => exact .inr (.inr (.inl ⟨_, _, rfl⟩))
    | true =>
      rcases h with rfl | ⟨⟨e, he⟩, _⟩
      · exact .inr (.inr (.inr rfl))
      · refine .inr (.inr (.inl ⟨e, a.s, ?_⟩))
        simp [finish, he]

variable (hS : Honest P S)
include hS

theorem less_keep {m : Mode} {x' x : SCall ε τ} (hx : SCall.Worse P x' x) (hm : m ≠ .top) (hm' : ∀ n, m ≠ .enum n) (st : St ε τ) :
    Less P Doomed (fun _ => True) (keep S m x' st) (keep S m x st) := by
  unfold keep
  rcases hS x' x hx st.s with h | ⟨hp, h⟩ | ⟨e, s, h⟩ | h
  · rw [h]; exact .panic
  · rw [h]; exact .inr (.inl ⟨hp, rfl⟩)
  · rw [h]
    cases S x st.s with
    | ok s => exact .ok (.inr ⟨⟨e, rfl⟩, rfl, hm, hm'⟩)
    | err e' s => exact .ok (.inr ⟨⟨e, rfl⟩, rfl, hm, hm'⟩)
    | panic => exact .panic
  · rw [h]
    cases S x st.s with
    | ok s => exact .ok (.inl rfl)
    | err e' s => exact .ok (.inl rfl)
    | panic => exact .panic

theorem less_element {x' x : SCall ε τ} (hx : SCall.Worse P x' x) {st' st : St ε τ} (h : Doomed st' st) :
    Less P Doomed (fun _ => True) (element S x' st') (element S x st) := by
  rcases h with rfl | ⟨⟨e, he⟩, _⟩
  · unfold element
    cases st'.failed with
    | some e => exact .err trivial
    | none =>
      rcases hS x' x hx st'.s with h | ⟨hp, h⟩ | ⟨e, s, h⟩ | h
      · simp only [h]; exact .panic
      · simp only [h]; exact .inr (.inl ⟨hp, rfl⟩)
      · simp only [h]; exact .err trivial
      · simp only [h]
        cases S x st'.s with
        | ok s => exact .ok (.inl rfl)
        | err e' s => exact .err trivial
        | panic => exact .panic
  · unfold element
    rw [he]
    exact .err trivial

theorem less_ending {x : SCall ε τ} {st' st : St ε τ} (h : Doomed st' st) :
    Less P Doomed (fun _ => True) (ending S x st') (ending S x st) := by
  rcases h with rfl | ⟨⟨e, he⟩, hm, _⟩
  · unfold ending
    cases st'.failed with
    | some e => exact .ok (.inl rfl)
    | none => exact less_keep hS (.same x) (by simp) (by simp) _
  · unfold ending
    rw [he]
    cases st.failed with
    | some e' => exact .ok (.inr ⟨⟨e, rfl⟩, rfl, by simp, by simp⟩)
    | none =>
      simp only [keep]
      cases S x st.s with
      | ok s => exact .ok (.inr ⟨⟨e, rfl⟩, rfl, by simp, by simp⟩)
      | err e' s => exact .ok (.inr ⟨⟨e, rfl⟩, rfl, by simp, by simp⟩)
      | panic => exact .panic

theorem less_adapter (hK : Weaker P K' K) (c : Cb) (hc : c.Propagates) (st' st : St ε τ) (h : Doomed st' st) :
    Less P Doomed (fun _ => True) (adapter custom S K' c st') (adapter custom S K c st) := by
  have hmode : st'.mode = st.mode := by rcases h with rfl | h; exacts [rfl, h.2.1]
  have heq : (st.mode = .top ∨ ∃ n, st.mode = .enum n) → st' = st := by
    intro h'
    rcases h with h | ⟨_, _, h1, h2⟩
    · exact h
    · rcases h' with h' | ⟨n, h'⟩
      · exact absurd h' h1
      · exact absurd h' (h2 n)
  have hser : ∀ a : Arg, a.prog.Propagates → ∀ s, Worse P (finish custom (K' false a.prog s)) (finish custom (K false a.prog s)) :=
    fun a ha s => hK.worse a.prog ha s
  have refl : ∀ r : Res Unit (St ε τ), Less P Doomed (fun _ => True) r r := by
    intro r
    cases r with
    | ok s => exact .ok (.inl rfl)
    | err e s => exact .err trivial
    | panic => exact .panic
  unfold adapter
  simp only [hmode]
  cases hm : st.mode with
  | top =>
    obtain rfl := heq (.inl hm)
    cases c with
    | value a =>
      simp only []
      rcases hK (!a.borrowed) a.prog hc st'.s with h | ⟨hp, h⟩ | ⟨x, h⟩ | ⟨ok, a, b, h1, h2, h⟩
      · rw [h]; exact .panic
      · rw [h]; exact .inr (.inl ⟨hp, rfl⟩)
      · rw [h]; exact .err trivial
      · rw [h1, h2]
        cases ok with
        | false => exact .err trivial
        | true => exact .ok h
    | tagged m a =>
      simp only []
      split
      · exact less_keep hS (.some _ _ (hser a hc)) (by simp) (by simp) _
      · split
        · exact less_keep hS (.newtypeStruct _ _ _ (hser a hc)) (by simp) (by simp) _
        · exact .err trivial
    | _ => exact refl _
  | enum name =>
    obtain rfl := heq (.inr ⟨_, hm⟩)
    cases c with
    | variantTagged m a =>
      simp only []
      split
      · exact less_keep hS (.newtypeVariant _ _ _ _ _ (hser a hc)) (by simp) (by simp) _
      · exact .err trivial
    | _ => exact refl _
  | seq =>
    cases c with
    | seqValue a => exact less_element hS (.seqElement _ _ (hser a hc)) h
    | seqEnd => exact less_ending hS h
    | _ => exact .panic
  | map =>
    cases c with
    | mapKey a => exact less_element hS (.mapKey _ _ (hser a hc)) h
    | mapValue a => exact less_element hS (.mapValue _ _ (hser a hc)) h
    | mapEnd => exact less_ending hS h
    | _ => exact .panic
  | tuple b =>
    cases c with
    | tupleValue t i a =>
      cases b
      · exact less_element hS (.tupleElement _ _ (hser a hc)) h
      · exact less_element hS (.tupleStructField _ _ (hser a hc)) h
    | tupleEnd => cases b <;> exact less_ending hS h
    | _ => cases b <;> exact .panic
  | record b =>
    cases c with
    | recordValue t l a =>
      cases b
      · exact less_element hS (.tupleElement _ _ (hser a hc)) h
      · simp only []
        rcases h with rfl | ⟨⟨e, he⟩, _⟩
        · split
          · exact less_element hS (.structField _ _ _ (hser a hc)) (.inl rfl)
          · exact .err trivial
        · rw [he]; exact .err trivial
    | recordEnd => cases b <;> exact less_ending hS h
    | _ => cases b <;> exact .panic
  | vtuple =>
    cases c with
    | tupleValue t i a => exact less_element hS (.tupleVariantField _ _ (hser a hc)) h
    | tupleEnd => exact less_ending hS h
    | _ => exact .panic
  | vrecord =>
    cases c with
    | recordValue t l a =>
      simp only []
      split
      · exact less_element hS (.structVariantField _ _ _ (hser a hc)) h
      · exact .err trivial
    | recordEnd => exact less_ending hS h
    | _ => exact .panic
  | over => exact .panic

theorem weaker_into (B B' : Build) (hB : B.alloc = false) (hB' : B'.alloc = true) (hP : B.panics = true → P) (d : Nat) :
    Weaker P (intoA custom S B d) (intoA custom S B' d) := by
  induction d with
  | zero => intro c p _ s; exact .inl rfl
  | succ d ih =>
    intro c p hp s
    have hC := less_adapter (custom := custom) hS ih
    have h2 := Nested.sim_stream hC c p hp (s' := { s }) (s := { s }) (.inl rfl)
    simp only [intoA]
    rw [Nested.streamA_true _ hB'] at *
    rcases C71_debug (adapter custom S (intoA custom S B d)) B B' hB hB' c p hp { s } with h | h | ⟨h1, h, _⟩
    · rw [h, Nested.streamA_true _ hB']; exact h2
    · exact .inr (.inr (.inl h))
    · exact .inr (.inl ⟨hP h1, h⟩)

end

end Sval.Serde
