import Verif.Json.Panic

set_option autoImplicit false

/-!
# Writers that do not fail

How a stream to such a writer ends is the same for all of them, as what has been written is never read. So it is enough to
look at the one that keeps nothing.
-/

namespace Sval.Json

/-- The writer that keeps nothing. -/
def noWriter : Writer Unit := fun _ o => .ok o

section
variable {ω : Type}

/-- The state without what has been written. -/
def outless (s : St ω) : St Unit := ⟨s.tagged, s.empty, s.quoted, s.handler, s.badKey, ()⟩

/-- The same outcome, up to what has been written. -/
def Matches : Res Unit (St ω) → Res Unit (St Unit) → Prop
  | .ok s, r => r = .ok (outless s)
  | .err _ s, r => r = .err () (outless s)
  | .panic, r => r = .panic

theorem Matches.bind {r : Res Unit (St ω)} {q : Res Unit (St Unit)} {f : St ω → Res Unit (St ω)} {g : St Unit → Res Unit (St Unit)}
    (h : Matches r q) (hf : ∀ s, Matches (f s) (g (outless s))) : Matches (r.bind f) (q.bind g) := by
  cases r with
  | ok s => cases h; exact hf s
  | err e s => cases h; rfl
  | panic => cases h; rfl

theorem Matches.ite {c : Prop} [Decidable c] {r r' : Res Unit (St ω)} {q q' : Res Unit (St Unit)} (h : Matches r q) (h' : Matches r' q') :
    Matches (if c then r else r') (if c then q else q') := by
  split
  · exact h
  · exact h'

variable {w : Writer ω} (hw : ∀ t o, ∃ o', w t o = .ok o')
include hw

theorem writes_ok (ts : List Text) (o : ω) : ∃ o', writes w ts o = .ok o' := by
  induction ts generalizing o with
  | nil => exact ⟨o, rfl⟩
  | cons t ts ih =>
    obtain ⟨o', h⟩ := hw t o
    rw [writes, h]
    exact ih o'

theorem escape_ok (v : Text) (o : ω) : ∃ o', escapeStr w v o = .ok o' := by
  rw [escapeStr, escapeLoop_writes]
  exact writes_ok hw _ o

omit hw in
theorem wr_alike {f : ω → Res Unit ω} {g : Unit → Res Unit Unit} (hf : ∀ o, ∃ o', f o = .ok o') (hg : g () = .ok ()) (s : St ω) :
    Matches (wr f s) (wr g (outless s)) := by
  obtain ⟨o', h⟩ := hf s.out
  rw [wr, h, wr]
  show _ = _
  simp only [outless, hg]

theorem w_alike (t : Text) (s : St ω) : Matches (wr (w t) s) (wr (noWriter t) (outless s)) := wr_alike (hw t) rfl s

omit hw in
theorem escape_none (v : Text) : escapeStr noWriter v () = .ok () := by
  obtain ⟨o, h⟩ := escape_ok (w := noWriter) (fun t o => ⟨o, rfl⟩) v ()
  exact h

theorem escape_alike (v : Text) (s : St ω) : Matches (wr (escapeStr w v) s) (wr (escapeStr noWriter v) (outless s)) :=
  wr_alike (escape_ok hw v) (escape_none v) s

theorem scalar_alike (t : Text) (s : St ω) : Matches (scalar w t s) (scalar noWriter t (outless s)) :=
  w_alike hw t { s with empty := false }

theorem textBegin_alike (s : St ω) : Matches (textBegin w s) (textBegin noWriter (outless s)) := by
  unfold textBegin
  exact Matches.ite (w_alike hw _ { s with empty := false }) rfl

theorem textEnd_alike (s : St ω) : Matches (textEnd w s) (textEnd noWriter (outless s)) := by
  unfold textEnd
  exact Matches.ite (w_alike hw _ s) rfl

/-- The loop does not look at what was written. -/
theorem numLoop_alike (v : Text) (r : NumRun ω) :
    ∃ r', numLoop w v r = .ok r' ∧ numLoop noWriter v ⟨r.st, r.start, r.stop, ()⟩ = .ok ⟨r'.st, r'.start, r'.stop, ()⟩ := by
  have hwr : ∀ (t : Text) (r : NumRun ω), ∃ o, NumRun.write w t r = .ok { r with out := o } := by
    intro t r
    obtain ⟨o, h⟩ := hw t r.out
    exact ⟨o, by rw [NumRun.write, h]⟩
  have hn : ∀ (t : Text) (r : NumRun Unit), NumRun.write noWriter t r = .ok r := fun t r => rfl
  induction v generalizing r with
  | nil => exact ⟨r, rfl, rfl⟩
  | cons c v ih =>
    rw [numLoop, numLoop]
    split
    · exact ih _
    · split
      · split
        · obtain ⟨o, h⟩ := hwr ['-'] r
          rw [h, hn]
          exact ih _
        · exact ih _
      · split
        · split
          · split
            · obtain ⟨o, h⟩ := hwr ['-'] r
              rw [h, hn]
              simp only [Res.bind]
              obtain ⟨o, h⟩ := hwr ['0'] { r with out := o }
              rw [h, hn]
              exact ih _
            · simp only [Res.bind]
              obtain ⟨o, h⟩ := hwr ['0'] r
              rw [h, hn]
              exact ih _
          · exact ih _
        · split
          · exact ih _
          · split
            · exact ih _
            · split
              · obtain ⟨o, h⟩ := hwr (t! "null") { r with st := { r.st with nan := true, atStart := false } }
                rw [h, hn]
                exact ⟨_, rfl, rfl⟩
              · exact ih _

theorem numFragment_alike (v : Text) (n : NumSt) (o : ω) :
    (numFragment w v (n, o) = .panic ∧ numFragment noWriter v (n, ()) = .panic) ∨
    ∃ n' o', numFragment w v (n, o) = .ok (n', o') ∧ numFragment noWriter v (n, ()) = .ok (n', ()) := by
  rw [numFragment, numFragment]
  split
  · exact .inr ⟨n, o, rfl, rfl⟩
  · obtain ⟨r', h1, h2⟩ := numLoop_alike hw v { st := n, out := o }
    simp only [h1, h2]
    cases sliceBytes v r'.start r'.stop with
    | none => exact .inl ⟨rfl, rfl⟩
    | some t =>
      obtain ⟨o', h⟩ := hw t r'.out
      simp only [h]
      exact .inr ⟨_, _, rfl, rfl⟩

theorem textFragment_alike (v : Text) (s : St ω) : Matches (textFragment w v s) (textFragment noWriter v (outless s)) := by
  obtain ⟨tg, em, q, h, bk, o⟩ := s
  match h with
  | none => exact escape_alike hw v ⟨tg, em, q, none, bk, o⟩
  | some .native => exact w_alike hw v ⟨tg, em, q, some .native, bk, o⟩
  | some (.number n) =>
    simp only [textFragment, outless]
    rcases numFragment_alike hw v n o with ⟨h1, h2⟩ | ⟨n', o', h1, h2⟩ <;> simp only [h1, h2] <;> rfl

theorem mapBegin_alike (s : St ω) : Matches (mapBegin w s) (mapBegin noWriter (outless s)) := by
  unfold mapBegin
  exact Matches.ite rfl (w_alike hw _ { s with empty := true })

theorem seqBegin_alike (s : St ω) : Matches (seqBegin w s) (seqBegin noWriter (outless s)) := by
  unfold seqBegin
  exact Matches.ite rfl (w_alike hw _ { s with empty := true })

theorem mapKeyBegin_alike (s : St ω) : Matches (mapKeyBegin w s) (mapKeyBegin noWriter (outless s)) := by
  unfold mapKeyBegin
  exact Matches.ite (w_alike hw _ { s with quoted := false, tagged := false }) (w_alike hw _ { s with quoted := false, tagged := false })

theorem mapKeyEnd_alike (s : St ω) : Matches (mapKeyEnd w s) (mapKeyEnd noWriter (outless s)) :=
  (w_alike hw _ s).bind fun _ => rfl

theorem mapEnd_alike (s : St ω) : Matches (mapEnd w s) (mapEnd noWriter (outless s)) := w_alike hw _ { s with empty := false }

theorem seqEnd_alike (s : St ω) : Matches (seqEnd w s) (seqEnd noWriter (outless s)) := w_alike hw _ { s with empty := false }

theorem seqValueBegin_alike (s : St ω) : Matches (seqValueBegin w s) (seqValueBegin noWriter (outless s)) := by
  unfold seqValueBegin
  exact Matches.ite (w_alike hw _ { s with tagged := false }) rfl

theorem tagBegin_alike (m : Meta) (s : St ω) : Matches (tagBegin w m s) (tagBegin noWriter m (outless s)) := by
  unfold tagBegin
  refine Matches.ite ?_ rfl
  show Matches (match m.label with | some l => _ | none => _) (match m.label with | some l => _ | none => _)
  cases m.label with
  | some l =>
    exact (mapBegin_alike hw { s with tagged := false }).bind fun s => (mapKeyBegin_alike hw s).bind fun s =>
      (escape_alike hw _ s).bind fun s => mapKeyEnd_alike hw s
  | none =>
    cases ixI64 m.index with
    | some i =>
      exact (mapBegin_alike hw { s with tagged := false }).bind fun s => (mapKeyBegin_alike hw s).bind fun s =>
        (scalar_alike hw _ s).bind fun s => mapKeyEnd_alike hw s
    | none => rfl

omit hw in
theorem tagEnd_alike (m : Meta) (s : St ω) : Matches (tagEnd m s) (tagEnd m (outless s)) := rfl

theorem tagStep_alike (m : Meta) (s : St ω) : Matches (tagStep w m s) (tagStep noWriter m (outless s)) := by
  unfold tagStep
  refine Matches.ite (scalar_alike hw _ { s with tagged := false, empty := false }) ?_
  cases m.label with
  | some l =>
    exact (textBegin_alike hw { s with tagged := false, empty := false }).bind fun s => (textFragment_alike hw _ s).bind fun s =>
      textEnd_alike hw s
  | none =>
    cases ixI64 m.index with
    | some i => exact scalar_alike hw _ { s with tagged := false, empty := false }
    | none => exact scalar_alike hw _ { s with tagged := false, empty := false }

theorem tagIf_alike (m : Meta) (s : St ω) : Matches (if s.empty then tagStep w m s else .ok s)
    (if (outless s).empty then tagStep noWriter m (outless s) else .ok (outless s)) :=
  Matches.ite (tagStep_alike hw m s) rfl

theorem taggedBegin_alike (m : Meta) (s : St ω) : Matches (taggedBegin w m s) (taggedBegin noWriter m (outless s)) := by
  unfold taggedBegin
  have key : ∀ (s : St ω) (u : St Unit), u = outless s →
      Matches ((tagBegin w m s).bind fun s => .ok { s with empty := true })
        ((tagBegin noWriter m u).bind fun s => .ok { s with empty := true }) := by
    rintro s _ rfl
    exact (tagBegin_alike hw m s).bind fun _ => rfl
  refine key _ _ ?_
  split
  · rfl
  · split
    · rfl
    · split
      · rfl
      · split <;> rfl

theorem numEnd_alike (n : NumSt) (s : St ω) : Matches (wr (numEnd w n) s) (wr (numEnd noWriter n) (outless s)) := by
  refine wr_alike (fun o => ?_) ?_ s
  · unfold numEnd
    split
    · exact hw _ o
    · exact ⟨o, rfl⟩
  · unfold numEnd
    split <;> rfl

theorem taggedEnd_alike (m : Meta) (s : St ω) : Matches (taggedEnd w m s) (taggedEnd noWriter m (outless s)) := by
  unfold taggedEnd
  refine Matches.bind ?_ fun s => (tagIf_alike hw m s).bind fun s => tagEnd_alike m s
  refine Matches.ite rfl (Matches.ite rfl (Matches.ite ?_ (Matches.ite rfl rfl)))
  obtain ⟨tg, em, q, h, bk, o⟩ := s
  match h with
  | none => rfl
  | some .native => rfl
  | some (.number n) => exact numEnd_alike hw n ⟨tg, em, true, none, bk, o⟩

theorem step_alike (env : Env) (t : Token) (s : St ω) : Matches (step w env t s) (step noWriter env t (outless s)) := by
  cases t with
  | null => exact scalar_alike hw _ s
  | bool x => exact scalar_alike hw _ s
  | int t v => exact scalar_alike hw _ s
  | f32 x => exact scalar_alike hw _ s
  | f64 x => exact scalar_alike hw _ s
  | textBegin n => exact textBegin_alike hw s
  | textFragmentComputed v => exact textFragment_alike hw v s
  | textEnd => exact textEnd_alike hw s
  | mapBegin n => exact mapBegin_alike hw s
  | mapKeyBegin => exact mapKeyBegin_alike hw s
  | mapKeyEnd => exact mapKeyEnd_alike hw s
  | mapEnd => exact mapEnd_alike hw s
  | seqBegin n => exact seqBegin_alike hw s
  | seqValueBegin => exact seqValueBegin_alike hw s
  | seqEnd => exact seqEnd_alike hw s
  | enumBegin m => exact (tagBegin_alike hw m s).bind fun _ => rfl
  | enumEnd m => exact (tagIf_alike hw m s).bind fun s => Matches.ite (mapEnd_alike hw s) (tagEnd_alike m s)
  | taggedBegin m => exact taggedBegin_alike hw m s
  | taggedEnd m => exact taggedEnd_alike hw m s
  | tag m => exact tagStep_alike hw m s
  | recordBegin m n => exact (tagBegin_alike hw m s).bind fun s => mapBegin_alike hw s
  | recordValueBegin t l =>
    refine Matches.bind (Matches.ite (w_alike hw _ { s with tagged := false }) (w_alike hw _ { s with tagged := false })) fun s => ?_
    exact (Matches.ite (w_alike hw _ s) (escape_alike hw _ s)).bind fun s => w_alike hw _ s
  | recordEnd m => exact (mapEnd_alike hw s).bind fun s => tagEnd_alike m s
  | tupleBegin m n => exact (tagBegin_alike hw m s).bind fun s => seqBegin_alike hw s
  | tupleValueBegin t i => exact seqValueBegin_alike hw s
  | tupleEnd m => exact (seqEnd_alike hw s).bind fun s => tagEnd_alike m s
  | _ => rfl

theorem run_alike (env : Env) (ts : List Token) (s : St ω) :
    Matches (run (step w env) ts s) (run (step noWriter env) ts (outless s)) := by
  induction ts generalizing s with
  | nil => rfl
  | cons t ts ih =>
    rw [run_cons, run_cons]
    exact (step_alike hw env t s).bind ih

theorem call_alike (env : Env) (t : Token) (s : St ω) : Matches (call w env t s) (call noWriter env t (outless s)) :=
  run_alike hw env _ s

theorem runs_alike (env : Env) (ts : List Token) (s : St ω) :
    Matches (run (call w env) ts s) (run (call noWriter env) ts (outless s)) := by
  induction ts generalizing s with
  | nil => rfl
  | cons t ts ih =>
    rw [run_cons, run_cons]
    exact (call_alike hw env t s).bind ih

end

end Sval.Json
