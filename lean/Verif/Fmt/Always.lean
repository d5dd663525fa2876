import Verif.Fmt.Lemmas

set_option autoImplicit false

/-!
# What every write keeps, every call keeps

Unlike `Keeps`, also when something fails.
-/

namespace Sval.Fmt

section
variable {ω : Type} {w : Writer ω} {env : Env}

/-- `P` of what is left, after success and after failure. -/
def Post {σ : Type} (P : σ → Prop) : Res Unit σ → Prop
  | .ok o => P o
  | .err _ o => P o
  | .panic => True

/-- What holds of the output whatever happened, given that it held before. -/
def Always (P : ω → Prop) (f : ω → Res Unit ω) : Prop := ∀ o, P o → Post P (f o)

variable {P : ω → Prop}

theorem post_bind {σ : Type} {P : σ → Prop} {r : Res Unit σ} {g : σ → Res Unit σ} (hr : Post P r) (hg : ∀ o, P o → Post P (g o)) :
    Post P (r.bind g) := by
  cases r with
  | ok o => exact hg o hr
  | err e o => exact hr
  | panic => exact trivial

theorem Always.bind {f g : ω → Res Unit ω} (hf : Always P f) (hg : Always P g) : Always P fun o => (f o).bind g :=
  fun o h => post_bind (hf o h) hg

theorem Always.ok : Always P fun o => .ok o := fun _ h => h

theorem Always.ite {b : Prop} [Decidable b] {f g : ω → Res Unit ω} (hf : Always P f) (hg : Always P g) :
    Always P fun o => if b then f o else g o := by
  split
  · exact hf
  · exact hg

theorem Always.puts (hw : ∀ k t, Always P (w k t)) (L : List (Kind × Text)) : Always P (puts w L) := by
  induction L with
  | nil => exact Always.ok
  | cons x L ih => exact (hw x.1 x.2).bind ih

/-- The same of a state. -/
def AlwaysS (P : ω → Prop) (r : Res Unit (St ω)) : Prop := Post (fun s => P s.out) r

theorem alwaysS_put {f : ω → Res Unit ω} (hf : Always P f) (s : St ω) (h : P s.out) : AlwaysS P (put f s) := by
  have := hf s.out h
  unfold put
  cases hfo : f s.out with
  | ok o => rw [hfo] at this; exact this
  | err e o => rw [hfo] at this; exact this
  | panic => exact trivial

theorem alwaysS_ok (s : St ω) (h : P s.out) : AlwaysS P (.ok s) := h

theorem always_bytes (hw : ∀ k t, Always P (w k t)) (b : Bytes) (s : St ω) (h : P s.out) : AlwaysS P (binaryBytes w b s) := by
  induction b generalizing s with
  | nil => exact alwaysS_ok s h
  | cons b bs ih =>
    simp only [binaryBytes]
    refine post_bind (alwaysS_put (f := writeSeqValueBegin w s.empty) (Always.ite Always.ok ((hw _ _).bind (hw _ _))) s h) fun s1 h1 => ?_
    exact post_bind (alwaysS_put (hw _ _) s1 h1) fun s2 h2 => ih { s2 with empty := false } h2

theorem always_tag (hw : ∀ k t, Always P (w k t)) (m : Meta) (s : St ω) (h : P s.out) : AlwaysS P (tag w m s) := by
  simp only [tag]
  split
  · exact alwaysS_put (hw _ _) { s with empty := false } h
  · exact alwaysS_put (hw _ _) { s with empty := false } h

theorem always_text (hw : ∀ k t, Always P (w k t)) (t : Text) : Always P (writeText w env t) := by
  have : writeText w env t = puts w (pieces env [] t) := by funext o; exact escapeLoop_puts w [] t o
  rw [this]
  exact Always.puts hw _

theorem always_step (hw : ∀ k t, Always P (w k t)) (t : Token) (s : St ω) (h : P s.out) : AlwaysS P (step w env t s) := by
  have seq : ∀ b, Always P (writeSeqValueBegin w b) := fun b => Always.ite Always.ok ((hw _ _).bind (hw _ _))
  have first : ∀ b : Bool, Always P fun o => if b then Res.ok o else w .punct (t! ",") o := fun b => Always.ite Always.ok (hw _ _)
  have mend : ∀ b, Always P (writeMapEnd w b) := fun b => (Always.ite Always.ok (hw _ _)).bind (hw _ _)
  cases t with
  | null => exact alwaysS_put (hw _ _) s h
  | bool b => exact alwaysS_put (hw _ _) s h
  | int t v => exact alwaysS_put (hw _ _) s h
  | f32 b => exact alwaysS_put (hw _ _) s h
  | f64 b => exact alwaysS_put (hw _ _) s h
  | textBegin n => simp only [step]; split; exact alwaysS_ok s h; exact alwaysS_put (hw _ _) s h
  | textFragmentComputed t => simp only [step]; split; exact alwaysS_put (hw _ _) s h; exact alwaysS_put (always_text hw t) s h
  | textEnd => simp only [step]; split; exact alwaysS_ok s h; exact alwaysS_put (hw _ _) s h
  | binaryBegin n => exact alwaysS_put (hw _ _) { s with number := false, empty := true } h
  | binaryFragmentComputed b => exact always_bytes hw b s h
  | binaryEnd => exact alwaysS_put (hw _ _) s h
  | mapBegin n => exact alwaysS_put (hw _ _) { s with number := false, empty := true } h
  | mapKeyBegin => exact alwaysS_put (f := writeMapKeyBegin w s.empty) ((first _).bind (hw _ _)) s h
  | mapKeyEnd => exact alwaysS_put (f := writeMapValueBegin w) ((hw _ _).bind (hw _ _)) s h
  | mapValueBegin => exact alwaysS_ok s h
  | mapValueEnd => exact alwaysS_ok { s with empty := false } h
  | mapEnd => exact alwaysS_put (mend _) s h
  | seqBegin n => exact alwaysS_put (hw _ _) { s with number := false, empty := true } h
  | seqValueBegin => exact alwaysS_put (seq _) s h
  | seqValueEnd => exact alwaysS_ok { s with empty := false } h
  | seqEnd => exact alwaysS_put (hw _ _) s h
  | enumBegin m => exact alwaysS_ok { s with empty := true } h
  | enumEnd m => simp only [step]; split; exact always_tag hw m s h; exact alwaysS_ok s h
  | taggedBegin m =>
    simp only [step]; split
    · exact alwaysS_put ((hw _ _).bind (hw _ _)) ⟨false, s.number || decide (m.tag = some tags.NUMBER), s.out⟩ h
    · exact alwaysS_ok ⟨false, s.number || decide (m.tag = some tags.NUMBER), s.out⟩ h
  | taggedEnd m =>
    simp only [step]; split
    · exact alwaysS_put (hw _ _) { s with number := s.number && !decide (m.tag = some tags.NUMBER) } h
    · exact alwaysS_ok { s with number := s.number && !decide (m.tag = some tags.NUMBER) } h
  | tag m => exact always_tag hw m s h
  | recordBegin m n =>
    simp only [step]
    refine alwaysS_put (f := fun o => _) (Always.bind (f := fun o => match m.label with
        | some l => writeRecordType w l.text o
        | none => .ok o) ?_ (hw _ _)) ⟨true, false, s.out⟩ h
    cases m.label with
    | some l => exact (hw _ _).bind (hw _ _)
    | none => exact Always.ok
  | recordValueBegin t l =>
    exact alwaysS_put (f := writeRecordValueBegin w l.text s.empty)
      ((first _).bind ((hw _ _).bind ((hw _ _).bind ((hw _ _).bind (hw _ _))))) s h
  | recordValueEnd t l => exact alwaysS_ok { s with empty := false } h
  | recordEnd m => exact alwaysS_put (mend _) s h
  | tupleBegin m n =>
    simp only [step]
    refine alwaysS_put (f := fun o => _) (Always.bind (f := writeTupleType w m.label) ?_ (hw _ _)) ⟨true, false, s.out⟩ h
    unfold writeTupleType
    cases m.label with
    | some l => exact hw _ _
    | none => exact Always.ok
  | tupleValueBegin t i => exact alwaysS_put (seq _) s h
  | tupleValueEnd t i => exact alwaysS_ok { s with empty := false } h
  | tupleEnd m => exact alwaysS_put (hw _ _) s h
  | _ => exact trivial

theorem always_call (hw : ∀ k t, Always P (w k t)) (t : Token) (s : St ω) (h : P s.out) : AlwaysS P (call w env t s) := by
  unfold call
  generalize Low.tok fmtCaps t = ts
  induction ts generalizing s with
  | nil => exact alwaysS_ok s h
  | cons t ts ih =>
    rw [run_cons]
    exact post_bind (always_step hw t s h) ih

/-- Whatever the code does. -/
theorem always_exec (hw : ∀ k t, Always P (w k t)) (p : Prog) (W : Wrapper) (s : St ω × Bool) (h : P s.1.out) :
    P (exec (guarded (call w env)) p W s).1.1.out := by
  refine exec_inv (guarded (call w env)) (fun s => P s.1.out) (fun t s h => ?_) p W s h
  have := always_call (env := env) hw t s.1 h
  unfold guarded
  split
  · exact h
  · split
    · rename_i s' hs; rw [hs] at this; exact this
    · rename_i e s' hs; rw [hs] at this; exact this
    · exact h

theorem always_toWrite (hw : ∀ k t, Always P (w k t)) (p : Prog) (o o' : ω) (b : Bool) (h : P o) (hs : toWrite w env p o = .done b o') : P o' := by
  have := always_exec (env := env) hw p .base (St.new o, false) h
  simp only [toWrite, drive] at hs
  generalize exec (guarded (call w env)) p .base (St.new o, false) = r at hs this
  obtain ⟨⟨s, pn⟩, b'⟩ := r
  cases pn with
  | true => simp at hs
  | false =>
    simp only [Bool.false_eq_true, if_false, Outcome.done.injEq] at hs
    rw [← hs.2]
    exact this

end

end Sval.Fmt
