import Verif.Core.Relate
import Verif.Json.Fates
import Verif.Props.JsonRefuse

set_option autoImplicit false

/-!
# Exactly how `sval_json` ends: C82 and C23, with panics

`fate`, in `Json/Fate`, says from the value alone whether it is written, refused, or panics.
-/

namespace Sval

open Json (fate Fate toFmt strWriter Env Writer trips cuts odd firm leading)

/-- The outcome that goes with a fate. -/
def ends : Fate → Json.Ended
  | .written => .ok
  | .refused => .invalidKey
  | .panic => .panic

/-- C82. How any value ends, for any writer that does not fail: the value alone says it. -/
theorem C82_fate {ω : Type} (w : Writer ω) (hw : ∀ t o, ∃ o', w t o = .ok o') (env : Env) (v : V) (o : ω) :
    (toFmt w env (valueOf v) o).1 = ends (fate false true .plain v) := by
  have h1 := Json.runs_alike hw env (toks v) { out := o }
  have h2 := Json.fateOf (env := env) v false true true none false nofun
  change Json.Matches _ (run (Json.callN env) (toks v) ⟨false, true, true, none, false, ()⟩) at h1
  change Json.Comes _ (fate false true .plain v) _ at h2
  cases hf : fate false true .plain v with
  | written =>
    rw [hf] at h2
    obtain ⟨s, h2, -⟩ := h2
    rw [h2] at h1
    cases hr : run (Json.call w env) (toks v) { out := o } with
    | ok s' => rw [valueOf, Json.toFmt_ok w env _ o s' hr]; rfl
    | err e s' => rw [hr] at h1; cases h1
    | panic => rw [hr] at h1; cases h1
  | refused =>
    rw [hf] at h2
    obtain ⟨s, h2, h3⟩ := h2
    rw [h2] at h1
    cases hr : run (Json.call w env) (toks v) { out := o } with
    | ok s' => rw [hr] at h1; cases h1
    | err e s' =>
      rw [hr] at h1
      cases h1
      rw [valueOf, Json.toFmt_err w env _ o s' hr, show s'.badKey = true from h3]; rfl
    | panic => rw [hr] at h1; cases h1
  | panic =>
    rw [hf] at h2
    rw [show run (Json.callN env) _ _ = Res.panic from h2] at h1
    cases hr : run (Json.call w env) (toks v) { out := o } with
    | ok s' => rw [hr] at h1; cases h1
    | err e s' => rw [hr] at h1; cases h1
    | panic => exact Json.toFmt_panic w env _ o hr

/-- C82. For any code that streams, in any order and with errors ignored or not: the outcome is the same for all writers that do
not fail, and so is what the code was told on the way. -/
theorem C82_same {ω ω' : Type} (w : Writer ω) (hw : ∀ t o, ∃ o', w t o = .ok o') (w' : Writer ω') (hw' : ∀ t o, ∃ o', w' t o = .ok o')
    (env : Env) (p : Prog) (o : ω) (o' : ω') :
    (toFmt w env p o).1 = (toFmt w' env p o').1 ∧
      received (Json.stepP w env) p .base ({ out := o }, false) = received (Json.stepP w' env) p .base ({ out := o' }, false) := by
  have hS : ∀ {ω : Type} (w : Writer ω) (hw : ∀ t o, ∃ o', w t o = .ok o') (t : Token) (s : Json.St ω × Bool)
      (u : Json.St Unit × Bool), u = (Json.outless s.1, s.2) →
      (Json.stepP Json.noWriter env t u).1 = (Json.outless (Json.stepP w env t s).1.1, (Json.stepP w env t s).1.2) ∧
      (Json.stepP w env t s).2 = (Json.stepP Json.noWriter env t u).2 := by
    rintro ω w hw t ⟨s, b⟩ _ rfl
    cases b with
    | true => exact ⟨rfl, rfl⟩
    | false =>
      have := Json.call_alike hw env t s
      simp only [Json.stepP, Bool.false_eq_true, if_false]
      cases hc : Json.call w env t s with
      | ok s' => rw [hc] at this; rw [show Json.call Json.noWriter env t (Json.outless s) = _ from this]; exact ⟨rfl, rfl⟩
      | err e s' => rw [hc] at this; rw [show Json.call Json.noWriter env t (Json.outless s) = _ from this]; exact ⟨rfl, rfl⟩
      | panic => rw [hc] at this; rw [show Json.call Json.noWriter env t (Json.outless s) = _ from this]; exact ⟨rfl, rfl⟩
  have key : ∀ {ω : Type} (w : Writer ω) (hw : ∀ t o, ∃ o', w t o = .ok o') (o : ω),
      (toFmt w env p o).1 = (toFmt Json.noWriter env p ()).1 ∧
      received (Json.stepP w env) p .base ({ out := o }, false) = received (Json.stepP Json.noWriter env) p .base ({ out := () }, false) := by
    intro ω w hw o
    have h := exec_related (R := fun s u => u = (Json.outless s.1, s.2)) (Json.stepP w env) (Json.stepP Json.noWriter env)
      (fun t s u r => hS w hw t s u r) p .base ({ out := o }, false) ({ out := () }, false) rfl
    constructor
    · simp only [toFmt]
      rw [h.1, h.2.1]
      simp only [Json.outless]
      split
      · rfl
      · split <;> rfl
    · exact h.2.2
  exact ⟨(key w hw o).1.trans (key w' hw' o').1.symm, (key w hw o).2.trans (key w' hw' o').2.symm⟩

/-- A `String` is such a writer, and one that only counts is another. -/
example : (∀ t o, ∃ o', strWriter t o = .ok o') ∧ (∀ t o, ∃ o', (fun (t : Text) (n : Nat) => Res.ok (ε := Unit) (n + utf8Len t)) t o = .ok o') :=
  ⟨fun _ _ => ⟨_, rfl⟩, fun _ _ => ⟨_, rfl⟩⟩

/-- Text in fragments trips in the first fragment with digits, or before. -/
theorem trips_iff (vs : List Text) :
    trips vs = true ↔ ∃ before v after, vs = before ++ v :: after ∧ (∀ u ∈ before, ∀ c ∈ u, odd c = false ∧ firm c = false) ∧
      (∀ c ∈ v, odd c = false) ∧ ∀ a b, v = a ++ b → utf8Len a ≠ leading v := by
  induction vs with
  | nil => simp [trips]
  | cons x vs ih =>
    have hc : cuts x = true ↔ (∀ c ∈ x, odd c = false) ∧ ∀ a b, x = a ++ b → utf8Len a ≠ leading x := by
      rw [cuts, Bool.and_eq_true]
      refine and_congr (by simp) ?_
      rw [Bool.not_eq_true', ← Bool.not_eq_true, Json.boundary_iff]
      exact ⟨fun h a b e h2 => h ⟨a, b, e, h2⟩, fun h ⟨a, b, e, h2⟩ => h a b e h2⟩
    rw [trips, Bool.or_eq_true, hc, Bool.and_eq_true, Bool.and_eq_true, ih]
    constructor
    · rintro (h | ⟨⟨h1, h2⟩, before, v, after, rfl, h3, h4⟩)
      · exact ⟨[], x, vs, rfl, fun _ h => (by cases h), h⟩
      · refine ⟨x :: before, v, after, rfl, ?_, h4⟩
        intro u hu c hu'
        rcases List.mem_cons.mp hu with rfl | hu
        · simp only [Bool.not_eq_true', List.any_eq_false, Bool.not_eq_true] at h1 h2
          exact ⟨h1 c hu', h2 c hu'⟩
        · exact h3 u hu c hu'
    · rintro ⟨before, v, after, h1, h2, h3⟩
      cases before with
      | nil =>
        cases h1
        exact .inl h3
      | cons y before =>
        cases h1
        refine .inr ⟨?_, before, v, after, rfl, fun u hu => h2 u (.tail _ hu), h3⟩
        simp only [Bool.not_eq_true', List.any_eq_false, Bool.not_eq_true]
        exact ⟨fun c hc => (h2 _ (.head _) c hc).1, fun c hc => (h2 _ (.head _) c hc).2⟩

/-- C23. Exactly when text tagged NUMBER panics: a fragment before which there were no digits and none of `sniSNI`, and that has
none of these itself, must not have a character cut by dropping as many bytes as it has signs and zeroes before its first digit
from 1 to 9 or point. Any other text is written. -/
theorem C23_panic_exact {ω : Type} (w : Writer ω) (hw : ∀ t o, ∃ o', w t o = .ok o') (env : Env) (m : Meta)
    (hm : m.tag = some tags.NUMBER) (n : Option Nat) (fs : List (Frag Text)) (o : ω) :
    ((toFmt w env (valueOf (.tagged m (.text n fs))) o).1 = .panic ↔
      ∃ before v after, fs.map Frag.content = before ++ v :: after ∧
        (∀ u ∈ before, ∀ c ∈ u, c ∉ t! "sniSNI123456789.") ∧ (∀ c ∈ v, c ∉ t! "sniSNI") ∧
        ∀ a b, v = a ++ b → utf8Len a ≠ ((v.takeWhile fun c => c ∉ t! "123456789.").filter fun c => c ∈ t! "0+-").length) ∧
    ((toFmt w env (valueOf (.tagged m (.text n fs))) o).1 ≠ .panic → (toFmt w env (valueOf (.tagged m (.text n fs))) o).1 = .ok) := by
  have h := C82_fate w hw env (.tagged m (.text n fs)) o
  have hf : fate false true .plain (.tagged m (.text n fs)) = if trips (fs.map Frag.content) then .panic else .written := by
    simp [fate, hm, Json.Hand.enter]
  rw [h, hf]
  constructor
  · have h1 : (ends (if trips (fs.map Frag.content) then .panic else .written) = .panic) ↔ trips (fs.map Frag.content) = true := by
      cases trips (fs.map Frag.content) <;> simp [ends]
    rw [h1, trips_iff]
    have ho : ∀ c, odd c = false ↔ c ∉ t! "sniSNI" := fun c => by rw [odd, ← Bool.not_eq_true, List.contains_iff_mem]
    have hfm : ∀ c, firm c = false ↔ c ∉ t! "123456789." := fun c => by rw [firm, ← Bool.not_eq_true, List.contains_iff_mem]
    have hl : ∀ v, leading v = ((v.takeWhile fun c => c ∉ t! "123456789.").filter fun c => c ∈ t! "0+-").length := by
      intro v
      have e1 : (fun c => !firm c) = fun c => decide (c ∉ t! "123456789.") := by
        funext c
        rw [Bool.eq_iff_iff, Bool.not_eq_true', hfm, decide_eq_true_eq]
      have e2 : (fun c => (t! "0+-").contains c) = fun c => decide (c ∈ t! "0+-") := by
        funext c
        rw [Bool.eq_iff_iff, List.contains_iff_mem, decide_eq_true_eq]
      rw [leading, e1, e2]
    simp only [ho, hfm, hl]
    have e3 : ∀ c : Char, c ∉ t! "sniSNI123456789." ↔ c ∉ t! "sniSNI" ∧ c ∉ t! "123456789." := by
      intro c
      rw [show (t! "sniSNI123456789.") = (t! "sniSNI") ++ t! "123456789." from rfl, List.mem_append, not_or]
    simp only [e3]
  · cases trips (fs.map Frag.content) <;> simp [ends]

/-- Where a fragment is cut decides: `é0` panics, and so does `é`, `0`, no: the zero comes too late there; `00é` is written; with a
digit in front nothing panics. -/
example : let number (vs : List Text) := (toFmt strWriter anyEnv (valueOf (.tagged { tag := some tags.NUMBER } (.text none (vs.map .borrowed)))) []).1
    number [t! "é0"] = .panic ∧ number [t! "é", t! "0"] = .ok ∧ number [t! "00é"] = .ok ∧ number [t! "1é0"] = .ok ∧
    number [t! "1", t! "é0"] = .ok ∧ number [t! "0", t! "é0"] = .panic ∧ number [t! "é0n"] = .ok ∧ number [t! "é00"] = .ok ∧
    number [t! "e", t! "é+"] = .panic := by decide +kernel

/-- A panic comes before an error or behind it, as the value goes; and behind a number, raw text in a sequence is text again. -/
example :
    fate false true .plain (.seq none [.tagged { tag := some tags.NUMBER } (textV (t! "é0")), .tagged { tag := some tags.NUMBER } (.seq none [])]) = .panic ∧
    fate false true .plain (.seq none [.tagged { tag := some tags.NUMBER } (.seq none []), .tagged { tag := some tags.NUMBER } (textV (t! "é0"))]) = .refused ∧
    fate false true .plain (.tagged { tag := some tags.JSON_TEXT } (.seq none [.tagged { tag := some tags.NUMBER } (textV (t! "é0"))])) = .written ∧
    fate false true .plain (.tagged { tag := some tags.JSON_TEXT } (.seq none
      [.tagged { tag := some tags.NUMBER } (textV (t! "é0")), .tagged { tag := some tags.NUMBER } (textV (t! "é0"))])) = .panic := by
  decide +kernel

end Sval
