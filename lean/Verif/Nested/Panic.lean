import Verif.Nested.Deep

set_option autoImplicit false

/-!
# Values that cannot be variants
-/

namespace Sval.Nested

/-- Does an enum with the variant `v` reach an assertion? -/
def asserts (inner : Bool) : V → Bool
  | .tuple _ _ _ | .record _ _ _ | .recordTuple _ _ _ => inner
  | .enum _ v => asserts true v
  | .hint _ v => asserts inner v
  | _ => false

section
variable {σ : Type} (C : Cb → σ → Res Unit σ)

theorem exec_stop {t : Token} {q : List Item} {st st' : St σ} (h : call C t st = .err () st') :
    exec C (prog (.tok t :: q)) false st = .done false st' := by
  rw [exec_cons_tok, if_neg (by simp), h]; rfl

theorem exec_panic {t : Token} {q : List Item} {st : St σ} (h : call C t st = .panic) :
    exec C (prog (.tok t :: q)) false st = .panicked := by
  rw [exec_cons_tok, if_neg (by simp), h]; rfl

theorem exec_go {t : Token} {q : List Item} {st st' : St σ} (h : call C t st = .ok st') :
    exec C (prog (.tok t :: q)) false st = exec C (prog q) false st' := by
  rw [exec_cons_tok, if_neg (by simp), h]; rfl

theorem exec_does {p q : List Item} {b b' : Option Buffered} {m m' : Mode} (h : Does p b m [] b' m') (s : σ) :
    exec C (prog (p ++ q)) false ⟨b, m, s⟩ = exec C (prog q) false ⟨b', m', s⟩ := by
  have h0 := h σ C s
  simp only [runCb, Agrees] at h0
  rw [exec_append, h0]; rfl

theorem exec_inline (c : Bool) (q : List Item) (e : List Meta) (s : σ) :
    exec C (prog [if c then .comp q else .val q]) false ⟨none, .enum e, s⟩ =
      match exec C (prog (if c then computed q else q)) false ⟨none, .enum e, s⟩ with
      | .done true st => .done true st
      | .done false st => .done false { st with mode := .done false }
      | .panicked => .panicked := by
  cases c
  · simp only [exec_one, delegate, if_false, Bool.false_eq_true]
    rcases exec C (prog q) false _ with ⟨_ | _, st⟩ | _ <;> rfl
  · simp only [exec_one, delegate, exec_true, if_true]
    rcases exec C (prog (computed q)) false _ with ⟨_ | _, st⟩ | _ <;> rfl

/-- A value that cannot be a variant fails or panics before any method is called. -/
theorem exec_bad (n : Nat) : ∀ (is : List Item) (v : V) (q : List Meta) (s : σ), size is ≤ n → Shows is v →
    variant (!q.isEmpty) v = false →
    if asserts (!q.isEmpty) v then exec C (prog is) false ⟨none, .enum q, s⟩ = .panicked
    else ∃ b, exec C (prog is) false ⟨none, .enum q, s⟩ = .done false ⟨b, .done false, s⟩ := by
  induction n with
  | zero =>
    intro is v q s hn h
    exfalso
    cases h <;> simp [size, Item.size] at hn
  | succ n ih =>
    intro is v q s hn h hv
    cases h with
    | null => exact ⟨_, exec_stop C rfl⟩
    | bool b => exact ⟨_, exec_stop C rfl⟩
    | int t v => exact ⟨_, exec_stop C rfl⟩
    | f32 b => exact ⟨_, exec_stop C rfl⟩
    | f64 b => exact ⟨_, exec_stop C rfl⟩
    | text n fs =>
      have e1 : call C (.textBegin n) ⟨none, .enum q, s⟩ = .ok ⟨some (.text .new), .enum q, s⟩ := rfl
      simp only [asserts, text, if_false, Bool.false_eq_true]
      refine ⟨none, ?_⟩
      · rw [exec_go C e1, exec_does C (does_textFrags fs .new (.enum q))]
        refine exec_stop C (st' := ⟨none, .done false, s⟩) ?_
        simp only [call]
        rw [bufferOr_none _ _ _ _ _ (by simp)]
        cases fs.foldl Buf.pushFrag Buf.Cow.new <;> rfl
    | binary n fs =>
      have e1 : call C (.binaryBegin n) ⟨none, .enum q, s⟩ = .ok ⟨some (.binary .new), .enum q, s⟩ := rfl
      simp only [asserts, binary, if_false, Bool.false_eq_true]
      refine ⟨none, ?_⟩
      · rw [exec_go C e1, exec_does C (does_binFrags fs .new (.enum q))]
        refine exec_stop C (st' := ⟨none, .done false, s⟩) ?_
        simp only [call]
        rw [bufferOr_none _ _ _ _ _ (by simp)]
        cases fs.foldl Buf.pushFrag Buf.Cow.new <;> rfl
    | seq n L h => exact ⟨_, exec_stop C rfl⟩
    | bareSeq n L h => exact ⟨_, exec_stop C rfl⟩
    | map n L h1 h2 => exact ⟨_, exec_stop C rfl⟩
    | tag m => exact Bool.noConfusion hv
    | tuple m k L h =>
      have hq : ∃ a r, q = a :: r := by
        cases q with
        | nil => exact Bool.noConfusion hv
        | cons a r => exact ⟨a, r, rfl⟩
      obtain ⟨a, r, rfl⟩ := hq
      exact exec_panic C rfl
    | record m k L h =>
      have hq : ∃ a r, q = a :: r := by
        cases q with
        | nil => exact Bool.noConfusion hv
        | cons a r => exact ⟨a, r, rfl⟩
      obtain ⟨a, r, rfl⟩ := hq
      exact exec_panic C rfl
    | recordTuple m k L h =>
      have hq : ∃ a r, q = a :: r := by
        cases q with
        | nil => exact Bool.noConfusion hv
        | cons a r => exact ⟨a, r, rfl⟩
      obtain ⟨a, r, rfl⟩ := hq
      exact exec_panic C rfl
    | tagged m is v h => exact Bool.noConfusion hv
    | enum m is v h =>
      have hq : (!(q ++ [own m]).isEmpty) = true := by cases q <;> rfl
      have := ih is v (q ++ [own m]) s (by simp [size, Item.size, size_append] at hn; omega) h (by rw [hq]; exact hv)
      rw [hq] at this
      have e1 : call C (.enumBegin m) ⟨none, .enum q, s⟩ = .ok ⟨none, .enum (q ++ [own m]), s⟩ := rfl
      change if asserts true v = true then _ else _
      split at this
      · rename_i ha
        rw [if_pos ha, exec_go C e1, exec_append, this]; rfl
      · rename_i ha
        obtain ⟨b, this⟩ := this
        rw [if_neg ha]
        exact ⟨b, by rw [exec_go C e1, exec_append, this]; rfl⟩
    | hint t is v h =>
      have := ih is v q s (by simp [size, Item.size] at hn; omega) h hv
      have e1 : call C (.tagHint t) ⟨none, .enum q, s⟩ = .ok ⟨none, .enum q, s⟩ := rfl
      rw [exec_go C e1]; exact this
    | val is v h =>
      have := ih is v q s (by simp [size, Item.size] at hn; omega) h hv
      have e := exec_inline C false is q s
      simp only [if_false, Bool.false_eq_true] at e
      rw [e]
      split at this
      · rename_i ha; rw [if_pos ha, this]
      · rename_i ha; obtain ⟨b, this⟩ := this; rw [if_neg ha, this]; exact ⟨_, rfl⟩
    | comp is v h =>
      have := ih (computed is) v q s
        (by have := size_computed is; simp [size, Item.size] at hn; omega) h.computed hv
      have e := exec_inline C true is q s
      simp only [if_true] at e
      rw [e]
      split at this
      · rename_i ha; rw [if_pos ha, this]
      · rename_i ha; obtain ⟨b, this⟩ := this; rw [if_neg ha, this]; exact ⟨_, rfl⟩

end

end Sval.Nested
