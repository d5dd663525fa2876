import Verif.Core.Received
import Verif.Buffer.Reach

set_option autoImplicit false

/-!
# When `ValueBuf` panics
-/

namespace Sval.Buf

/-- A state in which no call panics. -/
def Firm (b : St) : Prop := Shape b.parts b.stack ∧ b.parts ≠ []

theorem firm_step {t : Token} {b : St} (h : Firm b) :
    match step true t b with
    | .panic => False
    | .ok b' => Firm b'
    | .err _ b' => Firm b' := by
  have hs := step_shape t b h.1
  generalize hr : step true t b = r at hs
  have := step_to t b
  rw [hr] at this
  cases this with
  | push k x _ _ _ => exact ⟨hs.2 _ (.inl rfl), by simp⟩
  | begin o _ _ => rw [pushBegin_true] at hs ⊢; exact ⟨hs.2 _ (.inl rfl), by simp⟩
  | «end» _ _ =>
    cases hst : b.stack with
    | nil =>
      simp only [pushEnd, hst, fail] at hs ⊢
      exact ⟨by simpa [hst] using hs.2 _ (.inr ⟨_, rfl⟩), h.2⟩
    | cons i st =>
      have h0 := h.1
      rw [hst] at h0
      obtain ⟨Q, B, o, h1, h2, h3⟩ := h0.end
      subst h2
      rw [pushEnd_opened Q B o 0 st b h1 hst]
      exact ⟨h3, by simp⟩
  | text x _ _ => exact h
  | frag P k k' _ _ h1 h2 h3 => exact ⟨hs.2 _ (.inl rfl), by simp⟩
  | outside _ _ _ => exact h
  | none h1 _ h2 => exact absurd h2 h.2

/-- Any code, on a buffer that holds something. -/
theorem firm_exec (p : Prog) (W : Wrapper) (b : St) (h : Firm b) :
    (exec (guarded (step true)) p W (b, false)).1.2 = false ∧ Firm (exec (guarded (step true)) p W (b, false)).1.1 := by
  refine exec_inv (guarded (step true)) (fun s => s.2 = false ∧ Firm s.1) ?_ p W (b, false) ⟨rfl, h⟩
  rintro t ⟨b, f⟩ ⟨hf, hb⟩
  dsimp only at hf hb
  subst hf
  have := firm_step (t := t) hb
  simp only [guarded, Bool.false_eq_true, if_false]
  cases e : step true t b with
  | panic => rw [e] at this; exact this.elim
  | ok b' => rw [e] at this; exact ⟨rfl, this⟩
  | err x b' => rw [e] at this; exact ⟨rfl, this⟩

/-- A call after which a buffer with nothing in it has something in it. -/
def fills : Token → Bool
  | .textEnd | .binaryEnd => false
  | t => !isEnd t && !isFrag t

/-- An empty buffer. -/
def Bare (b : St) : Prop := b.parts = [] ∧ b.stack = []

theorem bare_step {t : Token} {b : St} (h : Bare b) :
    if isFrag t then step true t b = .panic
    else match step true t b with
      | .panic => False
      | .ok b' => if fills t then Firm b' else Bare b'
      | .err _ b' => fills t = false ∧ Bare b' := by
  obtain ⟨ps, st, it, er⟩ := b
  obtain ⟨h1, h2⟩ := h
  dsimp only at h1 h2
  subst h1 h2
  have hsh : ∀ b', step true t { parts := [], stack := [], inText := it, err := er } = .ok b' → Shape b'.parts b'.stack :=
    fun b' e => (step_shape t { parts := [], stack := [], inText := it, err := er } (.base .nil)).2 b' (.inl e)
  have firm : ∀ b', step true t { parts := [], stack := [], inText := it, err := er } = .ok b' → b'.parts ≠ [] →
      Firm b' := fun b' e hne => ⟨hsh b' e, hne⟩
  cases t <;>
    first
    | exact ⟨rfl, rfl, rfl⟩
    | exact ⟨rfl, rfl⟩
    | rfl
    | exact firm _ rfl (by simp)
    | (simp only [step, beginMeta_true, ownMeta_true] at firm ⊢
       exact firm _ rfl (by simp))

/-- Exactly when calls make an empty buffer panic. -/
theorem panics_bare (ts : List Token) (b : St) (h : Bare b) :
    (ts.foldl (fun s t => (guarded (step true) t s).1) (b, false)).2 = true ↔
      ∃ a t c, ts = a ++ t :: c ∧ (∀ u ∈ a, fills u = false ∧ isFrag u = false) ∧ isFrag t = true := by
  have stuck : ∀ (ts : List Token) (b : St), (ts.foldl (fun s t => (guarded (step true) t s).1) (b, true)).2 = true := by
    intro ts
    induction ts with
    | nil => intro b; rfl
    | cons t ts ih => intro b; rw [List.foldl_cons]; exact ih b
  have still : ∀ (ts : List Token) (b : St), Firm b → (ts.foldl (fun s t => (guarded (step true) t s).1) (b, false)).2 = false := by
    intro ts
    induction ts with
    | nil => intro b _; rfl
    | cons t ts ih =>
      intro b hb
      rw [List.foldl_cons]
      have := firm_step (t := t) hb
      cases e : step true t b with
      | panic => rw [e] at this; exact this.elim
      | ok b' =>
        rw [e] at this
        have hg : (guarded (step true) t (b, false)).1 = (b', false) := by simp [guarded, e]
        rw [hg]; exact ih b' this
      | err x b' =>
        rw [e] at this
        have hg : (guarded (step true) t (b, false)).1 = (b', false) := by simp [guarded, e]
        rw [hg]; exact ih b' this
  induction ts generalizing b with
  | nil => simp
  | cons t ts ih =>
    rw [List.foldl_cons]
    have hb := bare_step (t := t) h
    -- what an empty buffer that stays empty does
    have go : ∀ b', (guarded (step true) t (b, false)).1 = (b', false) → Bare b' → fills t = false → isFrag t = false →
        ((ts.foldl (fun s t => (guarded (step true) t s).1) (guarded (step true) t (b, false)).1).2 = true ↔
        ∃ a u c, t :: ts = a ++ u :: c ∧ (∀ u ∈ a, fills u = false ∧ isFrag u = false) ∧ isFrag u = true) := by
      intro b' hg hb' h1 h2
      rw [hg]
      refine (ih b' hb').trans ?_
      constructor
      · rintro ⟨a, u, c, rfl, h3, h4⟩
        exact ⟨t :: a, u, c, rfl, fun x hx => by
          cases hx with
          | head => exact ⟨h1, h2⟩
          | tail _ hx => exact h3 x hx, h4⟩
      · rintro ⟨a, u, c, h3, h4, h5⟩
        cases a with
        | nil => cases h3; rw [h2] at h5; cases h5
        | cons x a => cases h3; exact ⟨a, u, c, rfl, fun x hx => h4 x (.tail _ hx), h5⟩
    cases hf : isFrag t with
    | true =>
      rw [hf, if_pos rfl] at hb
      have hg : (guarded (step true) t (b, false)).1 = (b, true) := by simp [guarded, hb]
      rw [hg]
      exact ⟨fun _ => ⟨[], t, ts, rfl, by simp, hf⟩, fun _ => stuck ts b⟩
    | false =>
      rw [hf, if_neg (by simp)] at hb
      cases e : step true t b with
      | panic => rw [e] at hb; exact hb.elim
      | err x b' =>
        rw [e] at hb
        exact go b' (by simp [guarded, e]) hb.2 hb.1 hf
      | ok b' =>
        rw [e] at hb
        have hg : (guarded (step true) t (b, false)).1 = (b', false) := by simp [guarded, e]
        cases hfi : fills t with
        | false => rw [hfi] at hb; exact go b' hg hb hfi hf
        | true =>
          rw [hfi] at hb
          rw [hg, still ts b' hb]
          refine ⟨by simp, ?_⟩
          rintro ⟨a, u, c, h3, h4, h5⟩
          cases a with
          | nil => cases h3; rw [hf] at h5; cases h5
          | cons x a => cases h3; have := (h4 t (.head _)).1; rw [hfi] at this; cases this

theorem drive_panics (p : Prog) :
    drive (step true) p {} = .panicked ↔
      ∃ a t c, received (guarded (step true)) p .base ({}, false) = a ++ t :: c ∧
        (∀ u ∈ a, fills u = false ∧ isFrag u = false) ∧ isFrag t = true := by
  rw [← panics_bare _ {} ⟨rfl, rfl⟩, ← exec_received]
  simp only [drive]
  split
  · rename_i h; simp [h]
  · rename_i h; simp [h]

end Sval.Buf
