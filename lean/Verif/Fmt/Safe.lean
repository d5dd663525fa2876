import Verif.Fmt.Lemmas

set_option autoImplicit false

/-!
# `sval_fmt` does not panic by itself

Whatever is called, in whatever order: a panic is one of the `TokenWrite`.
-/

namespace Sval.Fmt

/-- A write that does not panic. -/
def Safe {ω : Type} (f : ω → Res Unit ω) : Prop := ∀ o, f o ≠ .panic

section
variable {ω : Type} {w : Writer ω} {env : Env}

theorem safe_bind {ε α : Type} {r : Res ε α} {g : α → Res ε α} (hr : r ≠ .panic) (hg : ∀ a, g a ≠ .panic) : r.bind g ≠ .panic := by
  cases r with
  | ok a => exact hg a
  | err e a => simp [Res.bind]
  | panic => exact absurd rfl hr

theorem Safe.bind {f g : ω → Res Unit ω} (hf : Safe f) (hg : Safe g) : Safe fun o => (f o).bind g := fun o => safe_bind (hf o) hg

theorem Safe.ok : Safe fun o : ω => .ok o := fun o => by simp

theorem Safe.ite {b : Prop} [Decidable b] {f g : ω → Res Unit ω} (hf : Safe f) (hg : Safe g) :
    Safe fun o => if b then f o else g o := by
  split
  · exact hf
  · exact hg

theorem safe_puts (hw : ∀ k t, Safe (w k t)) (L : List (Kind × Text)) : Safe (puts w L) := by
  induction L with
  | nil => exact Safe.ok
  | cons x L ih => exact (hw x.1 x.2).bind ih

theorem safe_put {f : ω → Res Unit ω} (hf : Safe f) (s : St ω) : put f s ≠ .panic := by
  simp only [put]
  cases e : f s.out with
  | panic => exact absurd e (hf _)
  | ok o => simp
  | err x o => simp

theorem safe_bytes (hw : ∀ k t, Safe (w k t)) (b : Bytes) (s : St ω) : binaryBytes w b s ≠ .panic := by
  induction b generalizing s with
  | nil => simp [binaryBytes]
  | cons b bs ih =>
    exact safe_bind (safe_put (f := writeSeqValueBegin w s.empty) (Safe.ite Safe.ok ((hw _ _).bind (hw _ _))) s) fun s =>
      safe_bind (safe_put (hw .number (intDec b.toNat)) s) fun s => ih _

theorem safe_tag (hw : ∀ k t, Safe (w k t)) (m : Meta) (s : St ω) : tag w m s ≠ .panic := by
  simp only [tag]
  split
  · exact safe_put (hw _ _) _
  · exact safe_put (hw _ _) _

theorem safe_step (hw : ∀ k t, Safe (w k t)) (t : Token) (hn : fmtCaps.native t = true) (s : St ω) :
    step w env t s ≠ .panic := by
  have seq : ∀ b, Safe (writeSeqValueBegin w b) := fun b => Safe.ite Safe.ok ((hw _ _).bind (hw _ _))
  have first : ∀ b : Bool, Safe fun o => if b then Res.ok o else w .punct (t! ",") o := fun b => Safe.ite Safe.ok (hw _ _)
  have mend : ∀ b, Safe (writeMapEnd w b) := fun b => (Safe.ite Safe.ok (hw _ _)).bind (hw _ _)
  have txt : ∀ t, Safe (writeText w env t) := fun t => by
    have : writeText w env t = puts w (pieces env [] t) := by funext o; exact escapeLoop_puts w [] t o
    rw [this]
    exact safe_puts hw _
  cases t with
  | null => exact safe_put (hw _ _) s
  | bool b => exact safe_put (hw _ _) s
  | int t v => exact safe_put (hw _ _) s
  | f32 b => exact safe_put (hw _ _) s
  | f64 b => exact safe_put (hw _ _) s
  | textBegin n => simp only [step]; split; simp; exact safe_put (hw _ _) s
  | textFragmentComputed t => simp only [step]; split; exact safe_put (hw _ _) s; exact safe_put (txt t) s
  | textEnd => simp only [step]; split; simp; exact safe_put (hw _ _) s
  | binaryBegin n => exact safe_put (hw _ _) _
  | binaryFragmentComputed b => exact safe_bytes hw b s
  | binaryEnd => exact safe_put (hw _ _) s
  | mapBegin n => exact safe_put (hw _ _) _
  | mapKeyBegin => exact safe_put (f := writeMapKeyBegin w s.empty) ((first _).bind (hw _ _)) s
  | mapKeyEnd => exact safe_put (f := writeMapValueBegin w) ((hw _ _).bind (hw _ _)) s
  | mapValueBegin => simp [step]
  | mapValueEnd => simp [step]
  | mapEnd => exact safe_put (mend _) s
  | seqBegin n => exact safe_put (hw _ _) _
  | seqValueBegin => exact safe_put (seq _) s
  | seqValueEnd => simp [step]
  | seqEnd => exact safe_put (hw _ _) s
  | enumBegin m => simp [step]
  | enumEnd m => simp only [step]; split; exact safe_tag hw m s; simp
  | taggedBegin m => simp only [step]; split; exact safe_put ((hw _ _).bind (hw _ _)) _; simp
  | taggedEnd m => simp only [step]; split; exact safe_put (hw _ _) _; simp
  | tag m => exact safe_tag hw m s
  | recordBegin m n =>
    simp only [step]
    refine safe_put (f := fun o => _) (Safe.bind (f := fun o => match m.label with
        | some l => writeRecordType w l.text o
        | none => .ok o) ?_ (hw _ _)) _
    cases m.label with
    | some l => exact (hw _ _).bind (hw _ _)
    | none => exact Safe.ok
  | recordValueBegin t l =>
    exact safe_put (f := writeRecordValueBegin w l.text s.empty)
      ((first _).bind ((hw _ _).bind ((hw _ _).bind ((hw _ _).bind (hw _ _))))) s
  | recordValueEnd t l => simp [step]
  | recordEnd m => exact safe_put (mend _) s
  | tupleBegin m n =>
    simp only [step]
    refine safe_put (f := fun o => _) (Safe.bind (f := writeTupleType w m.label) ?_ (hw _ _)) _
    unfold writeTupleType
    cases m.label with
    | some l => exact hw _ _
    | none => exact Safe.ok
  | tupleValueBegin t i => exact safe_put (seq _) s
  | tupleValueEnd t i => simp [step]
  | tupleEnd m => exact safe_put (hw _ _) s
  | _ => cases hn

theorem safe_call (hw : ∀ k t, Safe (w k t)) (t : Token) (s : St ω) : call w env t s ≠ .panic := by
  have hn : ∀ u ∈ Low.tok fmtCaps t, fmtCaps.native u = true := by
    have := native_lower fmtCaps [t]
    simpa [lower] using this
  unfold call
  revert hn
  generalize Low.tok fmtCaps t = ts
  intro hn
  induction ts generalizing s with
  | nil => simp [run]
  | cons t ts ih =>
    rw [run_cons]
    exact safe_bind (safe_step hw t (hn t (by simp)) s) fun s => ih s fun u hu => hn u (by simp [hu])

theorem toWrite_safe (hw : ∀ k t o, w k t o ≠ .panic) (p : Prog) (o : ω) : toWrite w env p o ≠ .panicked := by
  have := drive_no_panic (call w env) (safe_call hw) p (St.new o)
  simp only [toWrite]
  cases e : drive (call w env) p (St.new o) with
  | done ok s => simp
  | panicked => exact absurd e this

theorem display_safe (hw : ∀ k t o, w k t o ≠ .panic) (p : Prog) (o : ω) : display w env p o ≠ .panicked := by
  have := toWrite_safe (env := env) hw p o
  simp only [display]
  match e : toWrite w env p o with
  | .panicked => exact absurd e this
  | .done true o => simp
  | .done false o =>
    simp only
    have h : ((w .text (t! "<") o).bind fun o =>
        (w .text (t! "an error occurred when formatting an argument") o).bind fun o => w .text (t! ">") o) ≠ .panic :=
      safe_bind (hw _ _ _) fun o => safe_bind (hw _ _ _) fun o => hw _ _ _
    split <;> simp_all

end
end Sval.Fmt
