import Verif.Core.Extract
import Verif.Core.Guard

set_option autoImplicit false

/-!
# Code that differs only in things a receiver does not look at

Specification for "a receiver does not look at …": two pieces of arbitrary code that take the same
decisions and make the same calls, except for the arguments that `e` forgets.
-/

namespace Sval

/-- The same code, up to what `e` forgets of each call. -/
inductive Prog.Alike {α : Type} (e : Token → α) : Prog → Prog → Prop where
  | ret (ok : Bool) : Alike e (.ret ok) (.ret ok)
  | call (t u : Token) (k l : Bool → Prog) (h : e t = e u) (hk : ∀ b, Alike e (k b) (l b)) :
      Alike e (.call t k) (.call u l)
  | value (v u : Prog) (k l : Bool → Prog) (h : Alike e v u) (hk : ∀ b, Alike e (k b) (l b)) :
      Alike e (.value v k) (.value u l)
  | valueComputed (v u : Prog) (k l : Bool → Prog) (h : Alike e v u) (hk : ∀ b, Alike e (k b) (l b)) :
      Alike e (.valueComputed v k) (.valueComputed u l)

/-- A call without its size hint. -/
def Token.unhint : Token → Token
  | .textBegin _ => .textBegin none
  | .binaryBegin _ => .binaryBegin none
  | .mapBegin _ => .mapBegin none
  | .seqBegin _ => .seqBegin none
  | .recordBegin m _ => .recordBegin m none
  | .tupleBegin m _ => .tupleBegin m none
  | .recordTupleBegin m _ => .recordTupleBegin m none
  | t => t

/-- The calls that are left of a list of calls, without size hints. -/
abbrev unhints (ts : List Token) : List Token := ts.map Token.unhint

theorem Prog.Alike.rfl' {α : Type} (e : Token → α) (p : Prog) : Prog.Alike e p p := by
  induction p with
  | ret ok => exact .ret ok
  | call t k ih => exact .call t t k k rfl ih
  | value v k ihv ih => exact .value v v k k ihv ih
  | valueComputed v k ihv ih => exact .valueComputed v v k k ihv ih

theorem Prog.Alike.mono {α β : Type} {e : Token → α} {f : Token → β} (h : ∀ t u, e t = e u → f t = f u) {p q : Prog}
    (hpq : Prog.Alike e p q) : Prog.Alike f p q := by
  induction hpq with
  | ret ok => exact .ret ok
  | call t u k l ht _ ih => exact .call t u k l (h _ _ ht) ih
  | value v u k l _ _ ihv ih => exact .value v u k l ihv ih
  | valueComputed v u k l _ _ ihv ih => exact .valueComputed v u k l ihv ih

/-- Lists of calls, made with `?`. -/
theorem Prog.Alike.ofToks {α : Type} (e : Token → α) : ∀ (a b : List Token), a.map e = b.map e →
    Prog.Alike e (.ofToks a) (.ofToks b)
  | [], [], _ => .ret true
  | [], _ :: _, h => by simp at h
  | _ :: _, [], h => by simp at h
  | t :: a, u :: b, h => by
    simp only [List.map_cons, List.cons.injEq] at h
    refine .call t u _ _ h.1 fun x => ?_
    cases x with
    | true => exact ofToks e a b h.2
    | false => exact .ret false

/-- A stream that answers alike calls the same cannot tell alike code apart. -/
theorem exec_alike {α σ : Type} {e : Token → α} (S : Token → σ → σ × Bool)
    (hS : ∀ t u, e t = e u → S t = S u) (hc : ∀ t u, e t = e u → e (computedTok t) = e (computedTok u))
    {p q : Prog} (h : Prog.Alike e p q) (W : Wrapper) (s : σ) : exec S p W s = exec S q W s := by
  have hW : ∀ (W : Wrapper) t u, e t = e u → S (W.tok t) = S (W.tok u) := by
    intro W t u h
    rw [Wrapper.tok_eq, Wrapper.tok_eq]
    split
    · exact hS _ _ (hc _ _ h)
    · exact hS _ _ h
  induction h generalizing W s with
  | ret ok => rfl
  | call t u k l ht _ ih => simp only [exec]; rw [hW W t u ht]; exact ih _ _ _
  | value v u k l _ _ ihv ih => simp only [exec]; rw [ihv]; exact ih _ _ _
  | valueComputed v u k l _ _ ihv ih => simp only [exec]; rw [ihv]; exact ih _ _ _

/-- The same for two streams in related states. -/
theorem exec_alike_rel {α σ τ : Type} {e : Token → α} {R : σ → τ → Prop} (S : Token → σ → σ × Bool) (T : Token → τ → τ × Bool)
    (hS : ∀ t u s s', e t = e u → R s s' → R (S t s).1 (T u s').1 ∧ (S t s).2 = (T u s').2)
    (hc : ∀ t u, e t = e u → e (computedTok t) = e (computedTok u))
    {p q : Prog} (h : Prog.Alike e p q) (W : Wrapper) (s : σ) (s' : τ) (hs : R s s') :
    R (exec S p W s).1 (exec T q W s').1 ∧ (exec S p W s).2 = (exec T q W s').2 := by
  have hW : ∀ (W : Wrapper) t u, e t = e u → e (W.tok t) = e (W.tok u) := by
    intro W t u h
    rw [Wrapper.tok_eq, Wrapper.tok_eq]
    split
    · exact hc _ _ h
    · exact h
  induction h generalizing W s s' with
  | ret ok => exact ⟨hs, rfl⟩
  | call t u k l ht _ ih =>
    simp only [exec]
    have h := hS _ _ s s' (hW W t u ht) hs
    rw [h.2]
    exact ih _ _ _ _ h.1
  | value v u k l _ _ ihv ih =>
    simp only [exec]
    have h := ihv W.valueTarget s s' hs
    rw [h.2]
    exact ih _ _ _ _ h.1
  | valueComputed v u k l _ _ ihv ih =>
    simp only [exec]
    have h := ihv W.computedTarget s s' hs
    rw [h.2]
    exact ih _ _ _ _ h.1

theorem drive_alike {α ε σ : Type} {e : Token → α} (c : Token → σ → Res ε σ)
    (hS : ∀ t u, e t = e u → c t = c u) (hc : ∀ t u, e t = e u → e (computedTok t) = e (computedTok u))
    {p q : Prog} (h : Prog.Alike e p q) (s : σ) : drive c p s = drive c q s := by
  have : exec (guarded c) p .base (s, false) = exec (guarded c) q .base (s, false) := by
    refine exec_alike (e := e) _ (fun t u htu => ?_) hc h _ _
    funext s
    simp only [guarded, hS t u htu]
  simp only [drive, this]

theorem Token.unhint_computed (t u : Token) (h : t.unhint = u.unhint) : (computedTok t).unhint = (computedTok u).unhint := by
  have : ∀ t : Token, (computedTok t).unhint = computedTok t.unhint := by intro t; cases t <;> rfl
  rw [this, this, h]

/-- The default methods pass hints on and do nothing else with them. -/
theorem Low.tok_unhint (c : Caps) (t : Token) : unhints (Low.tok c t.unhint) = unhints (Low.tok c t) := by
  cases t <;> try rfl
  case binaryBegin n => simp only [Token.unhint, Low.tok, Low.binaryBegin]; split <;> rfl
  case mapBegin n => simp only [Token.unhint, Low.tok, Low.mapBegin]; split <;> rfl
  case recordBegin m n =>
    simp only [Token.unhint, Low.tok, Low.recordBegin, Low.mapBegin]
    split
    · rfl
    · simp only [unhints, List.map_append]
      split <;> rfl
  case tupleBegin m n =>
    simp only [Token.unhint, Low.tok, Low.tupleBegin]
    split
    · rfl
    · simp only [unhints, List.map_append]
      first | rfl | (split <;> rfl)
  case recordTupleBegin m n =>
    simp only [Token.unhint, Low.tok, Low.recordTupleBegin, Low.recordBegin, Low.mapBegin]
    split
    · rfl
    · split
      · rfl
      · simp only [unhints, List.map_append]
        split <;> rfl

/-- A stream whose implemented methods ignore hints. -/
theorem run_unhint {ε σ : Type} (step : Token → σ → Res ε σ) (h : ∀ t, step t.unhint = step t) (ts us : List Token)
    (e : unhints ts = unhints us) (s : σ) : run step ts s = run step us s := by
  induction ts generalizing us s with
  | nil => cases us with
    | nil => rfl
    | cons u us => simp [unhints] at e
  | cons t ts ih => cases us with
    | nil => simp [unhints] at e
    | cons u us =>
      simp only [unhints, List.map_cons, List.cons.injEq] at e
      rw [run_cons, run_cons, ← h t, e.1, h u]
      cases step u s with
      | ok s1 => exact ih us e.2 s1
      | err _ _ => rfl
      | panic => rfl

theorem run_low_unhint {ε σ : Type} (c : Caps) (step : Token → σ → Res ε σ) (h : ∀ t, step t.unhint = step t) (t u : Token)
    (e : t.unhint = u.unhint) (s : σ) : run step (Low.tok c t) s = run step (Low.tok c u) s := by
  refine run_unhint step h _ _ ?_ s
  rw [← Low.tok_unhint c t, ← Low.tok_unhint c u, e]

theorem extract_unhint {σ : Type} (c : Caps) (step : Token → σ → Res Unit σ) (h : ∀ t, step t.unhint = step t) (init : σ)
    {p q : Prog} (hpq : Prog.Alike Token.unhint p q) : extract c step init p = extract c step init q := by
  have : exec (stepS c step) p .base init = exec (stepS c step) q .base init := by
    refine exec_alike _ (fun t u htu => ?_) Token.unhint_computed hpq _ _
    funext s
    simp only [stepS, run_low_unhint c step h t u htu]
  simp only [extract, this]

end Sval
