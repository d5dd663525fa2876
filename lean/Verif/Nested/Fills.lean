import Verif.Nested.Keeps

set_option autoImplicit false

/-! # Buffering a value through `FlatStream` -/

namespace Sval.Nested

open Buf (Appends Replays Part Opener)

section
variable {σ : Type} (C : Cb → σ → Res Unit σ)

theorem bufferOr_value (t : Token) (a : Act σ) (b b' : Buf.St) (m : Mode) (s : σ) (h : Buf.step true t b = .ok b') :
    bufferOr t a ⟨some (.value b), m, s⟩ = .ok ⟨some (.value b'), m, s⟩ := by
  simp [bufferOr, tryCatch, h, buffered]

theorem bufferOrBegin_value (t : Token) (a : Act σ) (a' : List Meta → Act σ) (b b' : Buf.St) (m : Mode) (s : σ)
    (h : Buf.step true t b = .ok b') :
    bufferOrBegin t a a' ⟨some (.value b), m, s⟩ = .ok ⟨some (.value b'), m, s⟩ := by
  simp [bufferOrBegin, tryCatch, h, buffered]

theorem bufferOrEnd_value (t : Token) (a : Act σ) (b b' : Buf.St) (m : Mode) (s : σ)
    (h : Buf.step true t b = .ok b') (hc : Buf.isComplete b' = false) :
    bufferOrEnd C t a ⟨some (.value b), m, s⟩ = .ok ⟨some (.value b'), m, s⟩ := by
  simp [bufferOrEnd, tryCatch, h, hc]

theorem not_complete (b : Buf.St) (h : b.stack ≠ []) : Buf.isComplete b = false := by
  simp [Buf.isComplete, h]

theorem call_begin {b e : Token} {o : Opener} (h : Opens b e o) (buf : Buf.St) (m : Mode) (s : σ) :
    call C b ⟨some (.value buf), m, s⟩ =
      .ok ⟨some (.value { buf with parts := buf.parts ++ [.opened o 0], stack := buf.parts.length :: buf.stack }), m, s⟩ := by
  have hs := (step_opens h).1 buf
  rw [Buf.pushBegin_true] at hs
  cases h <;> first | exact bufferOr_value _ _ _ _ _ _ hs | exact bufferOrBegin_value _ _ _ _ _ _ _ hs

theorem call_end {b e : Token} {o : Opener} (h : Opens b e o) (buf buf' : Buf.St) (m : Mode) (s : σ)
    (he : Buf.pushEnd buf = .ok buf') (hc : buf'.stack ≠ []) :
    call C e ⟨some (.value buf), m, s⟩ = .ok ⟨some (.value buf'), m, s⟩ := by
  have hs := (step_opens h).2 buf
  rw [he] at hs
  cases h <;> first
    | exact bufferOr_value _ _ _ _ _ _ hs
    | exact bufferOrEnd_value _ _ _ _ _ _ _ hs (not_complete _ hc)
end

/-- While a value is buffered, doing `q` adds `B` to the buffer. -/
def Fills (q : List Item) (B : List Part) : Prop :=
  ∀ (σ : Type) (C : Cb → σ → Res Unit σ) (m : Mode) (s : σ) (b : Buf.St), b.inText = false → b.stack ≠ [] →
    exec C (prog q) false ⟨some (.value b), m, s⟩ =
      .done true ⟨some (.value { b with parts := b.parts ++ B }), m, s⟩

theorem Fills.nil : Fills [] [] := by intro σ C m s b _ _; simp [prog, exec]

theorem Fills.append {p q : List Item} {A B : List Part} (h1 : Fills p A) (h2 : Fills q B) : Fills (p ++ q) (A ++ B) := by
  intro σ C m s b hb hs
  rw [exec_append, h1 σ C m s b hb hs, Outcome.andThen, h2 σ C m s { b with parts := b.parts ++ A } hb hs]
  simp

/-- A token that goes to the buffer as `t'`. -/
theorem exec_tok {σ : Type} (C : Cb → σ → Res Unit σ) (t : Token) (st : St σ) :
    exec C (prog [.tok t]) false st = (call C t st).outcome := by simp [exec_one]

theorem Fills.wrap' {q : List Item} {B : List Part} (o : Opener) (b e : Token) (h : Fills q B)
    (hb : ∀ (σ : Type) (C : Cb → σ → Res Unit σ) (m : Mode) (s : σ) (buf : Buf.St),
      call C b ⟨some (.value buf), m, s⟩ =
      .ok ⟨some (.value { buf with parts := buf.parts ++ [.opened o 0], stack := buf.parts.length :: buf.stack }), m, s⟩)
    (he : ∀ (σ : Type) (C : Cb → σ → Res Unit σ) (m : Mode) (s : σ) (buf buf' : Buf.St),
      Buf.pushEnd buf = .ok buf' → buf'.stack ≠ [] →
      call C e ⟨some (.value buf), m, s⟩ = .ok ⟨some (.value buf'), m, s⟩) :
    Fills (.tok b :: (q ++ [.tok e])) (.opened o B.length :: B) := by
  intro σ C m s buf hi hs
  rw [exec_cons_tok]
  simp only [Bool.false_eq_true, if_false, hb, Res.outcome, Outcome.andThen]
  rw [exec_append, h σ C m s
    { buf with parts := buf.parts ++ [.opened o 0], stack := buf.parts.length :: buf.stack } hi (by simp)]
  simp only [Outcome.andThen]
  rw [exec_tok, he σ C m s _ _ (Buf.pushEnd_opened buf.parts B o 0 buf.stack _ (by simp) rfl) hs]
  simp [Res.outcome]

theorem Fills.wrap {q : List Item} {B : List Part} {o : Opener} {b e : Token} (ho : Opens b e o) (h : Fills q B) :
    Fills (.tok b :: (q ++ [.tok e])) (.opened o B.length :: B) :=
  h.wrap' o b e (fun _ C m s buf => call_begin C ho buf m s) fun _ C m s buf buf' => call_end C ho buf buf' m s

theorem Fills.leaf {t : Token} {k : Part} (h : Leaf t k) : Fills [.tok t] [k] := by
  intro σ C m s b hi hs
  have hst : Buf.step true t b = .ok { b with parts := b.parts ++ [k] } := by rw [step_leaf h]; rfl
  rw [exec_tok]
  have : call C t ⟨some (.value b), m, s⟩ = .ok ⟨some (.value { b with parts := b.parts ++ [k] }), m, s⟩ := by
    cases h <;> exact bufferOr_value _ _ _ _ _ _ hst
  rw [this]; rfl

/-- Calls that go to the buffer as they are. -/
def plain : Token → Bool
  | .textBegin _ | .textFragment _ | .textFragmentComputed _ | .textEnd
  | .binaryBegin _ | .binaryFragment _ | .binaryFragmentComputed _ | .binaryEnd => true
  | _ => false

theorem exec_plain {σ : Type} (C : Cb → σ → Res Unit σ) (T : List Token) (hT : ∀ t ∈ T, plain t = true)
    (m : Mode) (s : σ) (b b' : Buf.St) (h : run (Buf.step true) T b = .ok b') :
    exec C (prog (T.map .tok)) false ⟨some (.value b), m, s⟩ = .done true ⟨some (.value b'), m, s⟩ := by
  induction T generalizing b with
  | nil => cases h; rfl
  | cons t T ih =>
    rw [run_cons] at h
    cases e : Buf.step true t b with
    | ok b1 =>
      rw [e, Res.bind_ok] at h
      rw [List.map_cons, exec_cons_tok]
      have : call C t ⟨some (.value b), m, s⟩ = .ok ⟨some (.value b1), m, s⟩ := by
        have := hT t (by simp)
        cases t <;> first | exact Bool.noConfusion this | exact bufferOr_value _ _ _ _ _ _ e
      simp only [Bool.false_eq_true, if_false, this, Res.outcome, Outcome.andThen]
      exact ih (fun t ht => hT t (by simp [ht])) b1 h
    | err _ _ => rw [e] at h; simp [Res.bind] at h
    | panic => rw [e] at h; simp [Res.bind] at h

theorem plain_text (f : Frag Text) : plain (textFragTok f) = true := by cases f <;> rfl
theorem plain_bin (f : Frag Bytes) : plain (binFragTok f) = true := by cases f <;> rfl

theorem sink_fills : Sink true true Fills where
  nil := .nil
  append := .append
  leaf := .leaf
  text n fs := by
    refine ⟨Buf.merged fs, Buf.merged_content fs, ?_⟩
    intro σ C m s b hi hs
    have := exec_plain C (.textBegin n :: (fs.map textFragTok ++ [.textEnd])) (by
      intro t ht
      simp only [List.mem_cons, List.mem_append, List.mem_map, List.not_mem_nil, or_false] at ht
      rcases ht with rfl | ⟨f, _, rfl⟩ | rfl
      · rfl
      · exact plain_text f
      · rfl) m s b _ (appends_text n fs b hi)
    simpa [Function.comp_def] using this
  binary n fs := by
    refine ⟨Buf.merged fs, Buf.merged_content fs, ?_⟩
    intro σ C m s b hi hs
    have := exec_plain C (.binaryBegin n :: (fs.map binFragTok ++ [.binaryEnd])) (by
      intro t ht
      simp only [List.mem_cons, List.mem_append, List.mem_map, List.not_mem_nil, or_false] at ht
      rcases ht with rfl | ⟨f, _, rfl⟩ | rfl
      · rfl
      · exact plain_bin f
      · rfl) m s b _ (appends_binary n fs b hi)
    simpa [Function.comp_def] using this
  wrap := .wrap
  hint t := by intro σ C m s b _ _; simp [exec_tok, call, Res.outcome]
  seqValue {q B} h := by
    intro σ C m s b hi hs
    rw [exec_cons_tok]
    simp only [Bool.false_eq_true, if_false, call, Res.outcome, Outcome.andThen]
    rw [exec_append, h σ C m s b hi hs]
    simp [Outcome.andThen, exec_tok, call, Res.outcome]
  recordTuple {q B} mt n h := by
    refine h.wrap' (.record (own mt) n) _ _ ?_ ?_
    · intro σ C m s buf; exact call_begin C (.record mt n) buf m s
    · intro σ C m s buf buf' he hc; exact call_end C (.record mt n) buf buf' m s he hc
  recordTupleValue {q B} t l i h := by
    refine h.wrap' (.recordValue t l.toOwned) _ _ ?_ ?_
    · intro σ C m s buf; exact call_begin C (.recordValue t l) buf m s
    · intro σ C m s buf buf' he hc; exact call_end C (.recordValue t l) buf buf' m s he hc

theorem fills_delegate {q : List Item} {B : List Part} (c : Bool) (h : Appends (flat q c) B) :
    Fills [if c then .comp q else .val q] B := by
  intro σ C m s b hi hs
  have := bufValue_flat q c b _ (h b hi)
  cases c <;> simp [exec_one, delegate, this]

/-- Any value can be buffered. -/
theorem keeps_fills {q : List Item} {v : V} (h : Shows q v) : Keeps Fills q (Shows · v) := by
  refine sink_fills.keeps h ?_ ?_
  · intro q v h _
    obtain ⟨B, T, I, h1, h2⟩ := keeps_direct h false
    exact ⟨B, T, I, fills_delegate false h1, h2⟩
  · intro q v h _
    obtain ⟨B, T, I, h1, h2⟩ := keeps_direct h true
    exact ⟨B, T, I, fills_delegate true h1, h2⟩

end Sval.Nested
