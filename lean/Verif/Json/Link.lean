import Verif.Json.Main
import Verif.Core.ExtractLemmas

set_option autoImplicit false

/-!
# From the machine to `stream_to_fmt_write`; keys, fragments and prefixes
-/

namespace Sval.Json

variable {ω : Type} (w : Writer ω) (env : Env)

/-! ## Results -/

theorem exec_ok (ts : List Token) (s s' : St ω) (h : run (call w env) ts s = .ok s') :
    exec (stepP w env) (Prog.ofToks ts) .base (s, false) = ((s', false), true) := by
  induction ts generalizing s with
  | nil => cases h; rfl
  | cons t ts ih =>
    rw [run_cons] at h
    simp only [Prog.ofToks, exec, Wrapper.tok, stepP]
    cases hc : call w env t s with
    | ok s1 => rw [hc] at h; exact ih s1 h
    | err e s1 => rw [hc] at h; cases h
    | panic => rw [hc] at h; cases h

theorem exec_err (ts : List Token) (s s' : St ω) (h : run (call w env) ts s = .err () s') :
    exec (stepP w env) (Prog.ofToks ts) .base (s, false) = ((s', false), false) := by
  induction ts generalizing s with
  | nil => cases h
  | cons t ts ih =>
    rw [run_cons] at h
    simp only [Prog.ofToks, exec, Wrapper.tok, stepP]
    cases hc : call w env t s with
    | ok s1 => rw [hc] at h; exact ih s1 h
    | err e s1 => rw [hc] at h; cases h; rfl
    | panic => rw [hc] at h; cases h

theorem exec_panic (ts : List Token) (s : St ω) (h : run (call w env) ts s = .panic) :
    (exec (stepP w env) (Prog.ofToks ts) .base (s, false)).1.2 = true := by
  induction ts generalizing s with
  | nil => cases h
  | cons t ts ih =>
    rw [run_cons] at h
    simp only [Prog.ofToks, exec, Wrapper.tok, stepP]
    cases hc : call w env t s with
    | ok s1 => rw [hc] at h; exact ih s1 h
    | err e s1 => rw [hc] at h; cases h
    | panic => rfl

theorem toFmt_ok (ts : List Token) (o : ω) (s : St ω) (h : run (call w env) ts { out := o } = .ok s) :
    toFmt w env (Prog.ofToks ts) o = (.ok, s.out) := by
  simp [toFmt, exec_ok w env ts _ s h]

theorem toFmt_err (ts : List Token) (o : ω) (s : St ω) (h : run (call w env) ts { out := o } = .err () s) :
    toFmt w env (Prog.ofToks ts) o = (if s.badKey then .invalidKey else .generic, s.out) := by
  simp [toFmt, exec_err w env ts _ s h]

theorem toFmt_panic (ts : List Token) (o : ω) (h : run (call w env) ts { out := o } = .panic) :
    (toFmt w env (Prog.ofToks ts) o).1 = .panic := by
  simp [toFmt, exec_panic w env ts _ h]

theorem toFmt_ok_iff (ts : List Token) (o : ω) :
    (toFmt w env (Prog.ofToks ts) o).1 = .ok ↔ ∃ s, run (call w env) ts { out := o } = .ok s := by
  cases h : run (call w env) ts { out := o } with
  | ok s => simp [toFmt_ok w env ts o s h]
  | err e s => rw [toFmt_err w env ts o s h]; simp only [reduceCtorEq, exists_false, iff_false]; split <;> simp
  | panic => simp [toFmt_panic w env ts o h]

theorem toString_eq (ts : List Token) :
    toString env (Prog.ofToks ts) = (run (call strWriter env) ts { out := [] }).toOption.map St.out := by
  unfold toString
  cases h : run (call strWriter env) ts { out := [] } with
  | ok s => rw [toFmt_ok strWriter env ts [] s h]; rfl
  | err e s =>
    rw [toFmt_err strWriter env ts [] s h]
    split
    · rename_i heq; simp only [Prod.mk.injEq] at heq; split at heq <;> simp at heq
    · rfl
  | panic =>
    have := toFmt_panic strWriter env ts [] h
    split
    · rename_i heq; rw [heq] at this; simp at this
    · rfl

/-! ## Keys that are not scalars -/

/-- Is the value, below its wrappers, a container? Binary arrives as a sequence. -/
def complexKey : V → Bool
  | .map _ _ | .seq _ _ | .record _ _ _ | .tuple _ _ _ | .recordTuple _ _ _ | .binary _ _ => true
  | .tagged _ v | .enum _ v | .hint _ v => complexKey v
  | _ => false

theorem mapBegin_key (s : St ω) (h : s.quoted = false) : mapBegin w s = .err () { s with badKey := true } := by
  simp [mapBegin, h]

theorem seqBegin_key (s : St ω) (h : s.quoted = false) : seqBegin w s = .err () { s with badKey := true } := by
  simp [seqBegin, h]

theorem tagBegin_key (m : Meta) (s : St ω) (h : s.quoted = false) :
    (∃ s', tagBegin w m s = .ok s' ∧ s'.quoted = false) ∨ ∃ s', tagBegin w m s = .err () s' ∧ s'.badKey = true := by
  unfold tagBegin
  split
  · cases m.label with
    | some l =>
      right
      simp only [tagMapBeginLabel]
      rw [mapBegin_key w _ (by exact h)]
      exact ⟨_, rfl, rfl⟩
    | none =>
      cases ixI64 m.index with
      | some i =>
        right
        simp only [tagMapBeginIndex]
        rw [mapBegin_key w _ (by exact h)]
        exact ⟨_, rfl, rfl⟩
      | none => exact .inl ⟨_, rfl, h⟩
  · exact .inl ⟨_, rfl, h⟩

theorem call_one' (t : Token) (s : St ω) (h : Low.tok jsonCaps t = [t]) : call w env t s = step w env t s := by
  rw [call, h, run_cons]
  cases step w env t s <;> rfl

/-- A container in key position is refused at once, and nothing is written. -/
theorem complexKey_run (k : V) (hk : complexKey k = true) (s : St ω) (h : s.quoted = false) (r : List Token) :
    ∃ s', run (call w env) (toks k ++ r) s = .err () s' ∧ s'.badKey = true := by
  have begin_ : ∀ (f : St ω → Res Unit (St ω)) (m : Meta) (s : St ω), s.quoted = false →
      (∀ s, s.quoted = false → f s = .err () { s with badKey := true }) →
      ∀ g, ∃ s', ((tagBegin w m s).bind f).bind g = .err () s' ∧ s'.badKey = true := by
    intro f m s h hf g
    rcases tagBegin_key w m s h with ⟨s', h1, h2⟩ | ⟨s', h1, h2⟩
    · rw [h1]; simp only [Res.bind, hf s' h2]; exact ⟨_, rfl, rfl⟩
    · rw [h1]; exact ⟨_, rfl, h2⟩
  induction k using V.ind generalizing s r with
  | binary n fs =>
    simp only [toks, List.cons_append, run_cons]
    show ∃ s', ((seqBegin w s).bind (run (step w env) [])).bind _ = _ ∧ _
    rw [seqBegin_key w s h]
    exact ⟨_, rfl, rfl⟩
  | seq n xs ih =>
    simp only [toks, List.cons_append, run_cons, call_one' w env (.seqBegin n) s rfl, step, seqBegin_key w s h]
    exact ⟨_, rfl, rfl⟩
  | map n kvs ih =>
    simp only [toks, List.cons_append, run_cons, call_one' w env (.mapBegin n) s rfl, step, mapBegin_key w s h]
    exact ⟨_, rfl, rfl⟩
  | record m n fs ih =>
    simp only [toks, List.cons_append, run_cons, call_one' w env (.recordBegin m n) s rfl, step]
    exact begin_ _ m s h (fun s h => mapBegin_key w s h) _
  | recordTuple m n fs ih =>
    simp only [toks, List.cons_append, run_cons]
    rw [show call w env (.recordTupleBegin m n) s = call w env (.recordBegin m n) s from rfl,
      call_one' w env (.recordBegin m n) s rfl]
    exact begin_ _ m s h (fun s h => mapBegin_key w s h) _
  | tuple m n fs ih =>
    simp only [toks, List.cons_append, run_cons, call_one' w env (.tupleBegin m n) s rfl, step]
    exact begin_ _ m s h (fun s h => seqBegin_key w s h) _
  | enum m v ih =>
    simp only [toks, List.cons_append, run_cons, List.append_assoc, call_one' w env (.enumBegin m) s rfl, step, enumBegin]
    rcases tagBegin_key w m s h with ⟨s', h1, h2⟩ | ⟨s', h1, h2⟩
    · rw [h1]; exact ih hk { s' with tagged := true, empty := true } h2 _
    · rw [h1]; exact ⟨_, rfl, h2⟩
  | tagged m v ih =>
    simp only [toks, List.cons_append, run_cons, List.append_assoc, call_one' w env (.taggedBegin m) s rfl, step, taggedBegin]
    have hq : ∀ (a b c d : Prop) [Decidable a] [Decidable b] [Decidable c] [Decidable d] (s1 s2 s3 s4 : St ω),
        s1.quoted = false → s2.quoted = false → s3.quoted = false → s4.quoted = false →
        (if a then s1 else if b then s2 else if c then s3 else if d then s4 else s).quoted = false := by
      intro a b c d _ _ _ _ s1 s2 s3 s4 e1 e2 e3 e4
      split
      · exact e1
      · split
        · exact e2
        · split
          · exact e3
          · split
            · exact e4
            · exact h
    rcases tagBegin_key w m _ (hq (m.tag = some tags.JSON_TEXT) (m.tag = some tags.JSON_VALUE) (m.tag = some tags.NUMBER)
      (m.tag = some tags.JSON_NUMBER) { s with handler := some .native } { s with quoted := false, handler := some .native }
      { s with quoted := false, handler := if s.handler.isNone then some (.number {}) else s.handler }
      { s with quoted := false, handler := some .native } h rfl rfl rfl) with ⟨s', h1, h2⟩ | ⟨s', h1, h2⟩
    · rw [h1]; exact ih hk { s' with empty := true } h2 _
    · rw [h1]; exact ⟨_, rfl, h2⟩
  | hint t v ih =>
    simp only [toks, List.cons_append, run_cons]
    exact ih hk s h r
  | null | bool b | int t v | f32 b | f64 b | text n fs | tag m => cases hk

end Sval.Json
