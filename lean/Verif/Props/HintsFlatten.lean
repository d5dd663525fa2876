import Verif.Props.Hints
import Verif.Flatten.Model

set_option autoImplicit false

/-!
# C91 for flattening: size hints

A flattener in front of a stream that does not look at size hints does not look at them either, whatever it
flattens into.
-/

namespace Sval

namespace Flatten

section
variable {σ : Type} (cfg : Cfg) {S : Token → σ → Res Unit σ} (hS : ∀ t : Token, S t.unhint = S t)
include hS

theorem toStream_unhint (t : Token) : toStream cfg S t.unhint = toStream cfg S t := by
  funext st
  have : seenAfter t.unhint = seenAfter t := by cases t <;> rfl
  simp only [toStream, lift, hS, this]

omit hS in
theorem labelStep_unhint (alloc : Bool) (t : Token) : LabelBuf.step alloc t.unhint = LabelBuf.step alloc t := by
  funext b
  cases t <;> rfl

omit hS in
theorem labelCall_unhint (alloc : Bool) (t : Token) : LabelBuf.call alloc t.unhint = LabelBuf.call alloc t := by
  funext b
  have h : ∀ (a : List Token) b, run (LabelBuf.step alloc) (unhints a) b = run (LabelBuf.step alloc) a b := by
    intro a
    induction a with
    | nil => intro b; rfl
    | cons t a ih =>
      intro b
      simp only [unhints, List.map_cons, run_cons, labelStep_unhint] at ih ⊢
      congr 1
      funext b
      exact ih b
  rw [LabelBuf.call, ← h, Low.tok_unhint, h]
  rfl

theorem toLabel_unhint (t : Token) : toLabel cfg S t.unhint = toLabel cfg S t := by
  funext st
  simp only [toLabel, labelCall_unhint, toStream_unhint cfg hS]

theorem call_unhint (t : Token) : call cfg S t.unhint = call cfg S t := by
  have a := toStream_unhint cfg hS t
  have b := toLabel_unhint cfg hS t
  cases t <;> first
    | rfl
    | (simp only [Token.unhint] at a b; simp only [Token.unhint, call, value, opens, a, b])

end
end Flatten

/-- **C91 for flattening**: code that differs only in size hints leaves the same behind, and the same offset for what is flattened
next, if the stream that is flattened into does not look at them. -/
theorem C91_flatten {σ : Type} (cfg : Flatten.Cfg) (S : Token → σ → Res Unit σ) (hS : ∀ t : Token, S t.unhint = S t) (p q : Prog)
    (h : Prog.Alike Token.unhint p q) (off : Int) (s : σ) : Flatten.flattenTo cfg S p off s = Flatten.flattenTo cfg S q off s := by
  simp only [Flatten.flattenTo]
  rw [drive_alike (Flatten.call cfg S) (fun t u htu => ?_) Token.unhint_computed h]
  rw [← Flatten.call_unhint cfg hS t, htu, Flatten.call_unhint cfg hS]

/-- **C91 for flattening** into JSON and into formatted text. -/
theorem C91_flatten_text (cfg : Flatten.Cfg) (p q : Prog) (h : Prog.Alike Token.unhint p q) (off : Int) :
    (∀ {ω : Type} (w : Json.Writer ω) (env : Json.Env) (s : Json.St ω),
      Flatten.flattenTo cfg (Json.call w env) p off s = Flatten.flattenTo cfg (Json.call w env) q off s) ∧
    ∀ {ω : Type} (w : Fmt.Writer ω) (env : Fmt.Env) (s : Fmt.St ω),
      Flatten.flattenTo cfg (Fmt.call w env) p off s = Flatten.flattenTo cfg (Fmt.call w env) q off s := by
  refine ⟨fun w env s => C91_flatten cfg _ (fun t => ?_) p q h off s, fun w env s => C91_flatten cfg _ (fun t => ?_) p q h off s⟩
  · rw [← Json.call_seen, ← Json.call_seen w env t]
    congr 1
    cases t <;> rfl
  · rw [← Fmt.call_seen, ← Fmt.call_seen w env t]
    congr 1
    cases t <;> rfl

/-- A map that says it is empty, flattened into a record of JSON: its entry is a field all the same. -/
example : Prog.Alike Token.unhint
    (.ofToks [.mapBegin (some 0), .mapKeyBegin, .textBegin (some 1), .textFragment (t! "x"), .textEnd, .mapKeyEnd,
      .mapValueBegin, .null, .mapValueEnd, .mapEnd])
    (.ofToks [.mapBegin none, .mapKeyBegin, .textBegin none, .textFragment (t! "x"), .textEnd, .mapKeyEnd,
      .mapValueBegin, .null, .mapValueEnd, .mapEnd]) :=
  .ofToks _ _ _ rfl

end Sval
