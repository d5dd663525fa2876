import Verif.Buffer.Debug
import Verif.Props.BufferNoAlloc

set_option autoImplicit false

/-! # Buffers in builds with debug assertions: C70 -/

namespace Sval.Buf

/-- Errors are only recorded by calls that fail. -/
theorem step_ok (alloc : Bool) (t : Token) (s s' : St) (h : step alloc t s = .ok s') : s'.err = s.err := by
  have hk : ∀ (k : Part) (s1 : St), pushKind alloc k s1 = .ok s' → s'.err = s1.err := by
    intro k s1 h
    unfold pushKind at h
    split at h
    · cases h; rfl
    · cases h
  have hb : ∀ (o : Opener) (s1 : St), pushBegin alloc o s1 = .ok s' → s'.err = s1.err := by
    intro o s1 h
    unfold pushBegin at h
    split at h
    · exact hk _ { s1 with stack := s1.parts.length :: s1.stack } h
    · cases h
  have he : ∀ (s1 : St), pushEnd s1 = .ok s' → s'.err = s1.err := by
    intro s1 h
    unfold pushEnd at h
    split at h
    · cases h
    · simp only at h
      split at h
      · cases h
      · split at h
        · cases h
        · cases h; rfl
        · cases h
  have hm : ∀ (m : Meta) (o : Meta → Opener) (s1 : St), beginMeta alloc m o s1 = .ok s' → s'.err = s1.err := by
    intro m o s1 h
    unfold beginMeta at h
    split at h
    · exact hb _ _ h
    · cases h
  have hl : ∀ (m : Label) (o : Label → Opener) (s1 : St), beginLabel alloc m o s1 = .ok s' → s'.err = s1.err := by
    intro m o s1 h
    unfold beginLabel at h
    split at h
    · exact hb _ _ h
    · cases h
  have ht : ∀ (f : Cow Char → Except Err (Cow Char)) (s1 : St), textPush f s1 = .ok s' → s'.err = s1.err := by
    intro f s1 h
    unfold textPush at h
    split at h
    · cases h
    · split at h
      · cases h; rfl
      · cases h
    · cases h
  have hy : ∀ (f : Cow UInt8 → Except Err (Cow UInt8)) (s1 : St), binaryPush f s1 = .ok s' → s'.err = s1.err := by
    intro f s1 h
    unfold binaryPush at h
    split at h
    · cases h
    · split at h
      · cases h; rfl
      · cases h
    · cases h
  cases t with
  | textEnd => cases h; rfl
  | binaryEnd => cases h; rfl
  | tag m =>
    simp only [step] at h
    split at h
    · exact hk _ _ h
    · cases h
  | textBegin n => exact hk _ { s with inText := true } h
  | binaryBegin n => exact hk _ { s with inText := true } h
  | _ => first | exact hk _ _ h | exact hb _ _ h | exact he _ h | exact hm _ _ _ h | exact hl _ _ _ h | exact ht _ _ h | exact hy _ _ h

/-- With an allocator nothing fails for lack of one. -/
theorem step_alloc (t : Token) (s s' : St) : step true t s ≠ .err .noAlloc s' := by
  have hb : ∀ (o : Opener), pushBegin true o s ≠ .err .noAlloc s' := fun o h => by cases h
  have he : pushEnd s ≠ .err .noAlloc s' := by
    intro h
    unfold pushEnd at h
    split at h
    · cases h
    · simp only at h
      split at h
      · cases h
      · split at h <;> cases h
  have ht : ∀ (f : Cow Char → Except Err (Cow Char)), (∀ c, ∃ c', f c = .ok c') → textPush f s ≠ .err .noAlloc s' := by
    intro f hf h
    unfold textPush at h
    split at h
    · cases h
    · rename_i c _; obtain ⟨c', e⟩ := hf c; rw [e] at h; cases h
    · cases h
  have hy : ∀ (f : Cow UInt8 → Except Err (Cow UInt8)), (∀ c, ∃ c', f c = .ok c') → binaryPush f s ≠ .err .noAlloc s' := by
    intro f hf h
    unfold binaryPush at h
    split at h
    · cases h
    · rename_i c _; obtain ⟨c', e⟩ := hf c; rw [e] at h; cases h
    · cases h
  have hp : ∀ {α : Type} (f : List α) (c : Cow α), ∃ c', c.push true f = .ok c' := by
    intro α f c; unfold Cow.push; split <;> exact ⟨_, rfl⟩
  cases t with
  | textFragment f => exact ht _ (hp f)
  | textFragmentComputed f => exact ht _ fun c => ⟨_, rfl⟩
  | binaryFragment f => exact hy _ (hp f)
  | binaryFragmentComputed f => exact hy _ fun c => ⟨_, rfl⟩
  | tag m => simp only [step, ownMeta_true]; intro h; cases h
  | enumBegin m => show beginMeta _ _ _ _ ≠ _; rw [beginMeta_true]; exact hb _
  | taggedBegin m => show beginMeta _ _ _ _ ≠ _; rw [beginMeta_true]; exact hb _
  | recordBegin m n => show beginMeta _ _ _ _ ≠ _; rw [beginMeta_true]; exact hb _
  | tupleBegin m n => show beginMeta _ _ _ _ ≠ _; rw [beginMeta_true]; exact hb _
  | recordTupleBegin m n => show beginMeta _ _ _ _ ≠ _; rw [beginMeta_true]; exact hb _
  | recordValueBegin t l => simp only [step, beginLabel_true]; exact hb _
  | recordTupleValueBegin t l i => simp only [step, beginLabel_true]; exact hb _
  | _ => first | exact hb _ | exact he | exact fun h => by cases h

theorem stepD_true (panics : Bool) (t : Token) (s : St) : stepD true panics t s = step true t s := by
  unfold stepD
  split
  · rename_i h; exact absurd h (step_alloc _ _ _)
  · rfl

/-- A call in a build that panics for lack of an allocator: the same, and not a failure for lack of one, or a panic. -/
theorem stepD_panics (alloc : Bool) (t : Token) (s : St) :
    (stepD alloc true t s = step alloc t s ∧ ∀ s', step alloc t s ≠ .err .noAlloc s') ∨
    (stepD alloc true t s = .panic ∧ ∃ s', step alloc t s = .err .noAlloc s') := by
  unfold stepD
  split
  · rename_i s' h; exact .inr ⟨rfl, s', h⟩
  · rename_i h; exact .inl ⟨rfl, h⟩

/-- The same for any code: the same state and no failure for lack of an allocator, or a panic. -/
theorem execD_panics (alloc : Bool) (p : Prog) : ∀ (w : Wrapper) (x : St × Bool), p.Propagates →
    (exec (guarded (stepD alloc true)) p w x = exec (stepB alloc) p w x ∧
      (x.1.err ≠ some .noAlloc → (exec (stepB alloc) p w x).1.1.err ≠ some .noAlloc)) ∨
    ((exec (guarded (stepD alloc true)) p w x).1.2 = true ∧ (exec (guarded (stepD alloc true)) p w x).2 = false ∧
      ∃ s, exec (stepB alloc) p w x = ((s, false), false) ∧ s.err = some .noAlloc) := by
  induction p with
  | ret ok => intro w x _; exact .inl ⟨rfl, id⟩
  | call t k ih =>
    rintro w x ⟨h0, h1⟩
    simp only [exec]
    by_cases hs : x.2 = true
    · have e1 : guarded (stepD alloc true) (w.tok t) x = (x, false) := by simp [guarded, hs]
      have e2 : stepB alloc (w.tok t) x = (x, false) := by simp [stepB, hs]
      rw [e1, e2, h0]
      exact .inl ⟨rfl, id⟩
    · rcases stepD_panics alloc (w.tok t) x.1 with ⟨h, hn⟩ | ⟨h, s', hs'⟩
      · have e : guarded (stepD alloc true) (w.tok t) x = stepB alloc (w.tok t) x := by
          unfold guarded stepB; rw [h]
          split
          · rfl
          · cases step alloc (w.tok t) x.1 <;> rfl
        rw [e]
        have hx' : x.1.err ≠ some .noAlloc → (stepB alloc (w.tok t) x).1.1.err ≠ some .noAlloc := by
          intro hx
          unfold stepB
          rw [if_neg hs]
          cases hr : step alloc (w.tok t) x.1 with
          | ok s => show s.err ≠ _; rw [step_ok _ _ _ _ hr]; exact hx
          | err e s =>
            show s.err ≠ _
            rw [step_err _ _ _ _ _ hr]
            intro hc; cases hc; exact hn s hr
          | panic => exact hx
        cases hr : (stepB alloc (w.tok t) x).2 with
        | true => exact (ih true _ _ h1).imp (fun h => ⟨h.1, h.2 ∘ hx'⟩) id
        | false => rw [h0]; exact .inl ⟨rfl, hx'⟩
      · have e1 : guarded (stepD alloc true) (w.tok t) x = ((x.1, true), false) := by simp [guarded, hs, h]
        have e2 : stepB alloc (w.tok t) x = ((s', false), false) := by simp [stepB, hs, hs']
        rw [e1, e2, h0]
        exact .inr ⟨rfl, rfl, s', rfl, step_err _ _ _ _ _ hs'⟩
  | value v k ihv ih =>
    rintro w x ⟨hv, h0, h1⟩
    simp only [exec]
    rcases ihv w.valueTarget x hv with ⟨h, hn⟩ | ⟨h, hf, s, hs, he⟩
    · rw [h]
      cases hr : (exec (stepB alloc) v w.valueTarget x).2 with
      | true => exact (ih true _ _ h1).imp (fun h => ⟨h.1, h.2 ∘ hn⟩) id
      | false => rw [h0]; exact .inl ⟨rfl, hn⟩
    · rw [hs, hf, h0]; exact .inr ⟨h, rfl, s, rfl, he⟩
  | valueComputed v k ihv ih =>
    rintro w x ⟨hv, h0, h1⟩
    simp only [exec]
    rcases ihv w.computedTarget x hv with ⟨h, hn⟩ | ⟨h, hf, s, hs, he⟩
    · rw [h]
      cases hr : (exec (stepB alloc) v w.computedTarget x).2 with
      | true => exact (ih true _ _ h1).imp (fun h => ⟨h.1, h.2 ∘ hn⟩) id
      | false => rw [h0]; exact .inl ⟨rfl, hn⟩
    · rw [hs, hf, h0]; exact .inr ⟨h, rfl, s, rfl, he⟩

theorem guarded_stepD_quiet (alloc : Bool) : guarded (stepD alloc false) = stepB alloc := by
  funext t x
  unfold guarded stepB
  rw [stepD_quiet]
  split
  · rfl
  · cases step alloc t x.1 <;> rfl

end Sval.Buf

namespace Sval
open Buf

/-- C70, in a build where a lack of allocator panics (with debug assertions and without the feature `no_debug_assertions`):
`collect` and `collect_owned` panic exactly when they would fail for lack of an allocator, and otherwise do the same. -/
theorem C70_debug (alloc computed : Bool) (p : Prog) (hp : p.Propagates) :
    collectD alloc true computed p =
      (if collect alloc computed p = .err .noAlloc then .panic else collect alloc computed p) := by
  rcases execD_panics alloc p (if computed then .computed .base else .base) ({}, false) hp with
    ⟨h, hn⟩ | ⟨h, _, s, hs, he⟩
  · have e : collectD alloc true computed p = collect alloc computed p := by simp only [collectD, collect, h]; rfl
    rw [e, if_neg]
    have hn := hn (by simp)
    unfold collect
    revert hn
    generalize exec (stepB alloc) p (if computed then .computed .base else .base) ({}, false) = r
    obtain ⟨⟨s, b⟩, ok⟩ := r
    intro hn
    cases b with
    | true => simp
    | false => cases ok with
      | true => simp
      | false =>
        simp only [Bool.false_eq_true, if_false]
        simp only at hn
        cases hse : s.err with
        | none => simp
        | some e => rw [hse] at hn; simpa using hn
  · simp [collectD, collect, h, hs, he]

/-- C70: without debug assertions, or with the feature, nothing panics that does not panic with an allocator. -/
theorem C70_feature (alloc computed : Bool) (p : Prog) : collectD alloc false computed p = collect alloc computed p := by
  simp only [collectD, collect, guarded_stepD_quiet]; rfl

example : collectD false true false (valueOf (.seq none [.null])) = .panic ∧
    collectD false false false (valueOf (.seq none [.null])) = .err .noAlloc ∧
    collectD false true false (valueOf .null) = .ok { parts := [.null] } := by decide

end Sval
