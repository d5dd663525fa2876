import Verif.Nested.Calm

set_option autoImplicit false

/-!
# Recursive streams and code that goes on after errors

Code that begins no enum, and calls no fragment of a text or of bytes, does not make `FlatStream` panic.
-/

namespace Sval.Nested

open Buf (Shape isFrag)

/-- A call that is not a fragment keeps the shape of a buffer. -/
theorem sound_step {t : Token} (ht : isFrag t = false) {b : Buf.St} (h : Shape b.parts b.stack) :
    match Buf.step true t b with
    | .panic => False
    | .ok b' => Shape b'.parts b'.stack
    | .err _ b' => Shape b'.parts b'.stack := by
  have := Buf.step_shape t b h
  cases e : Buf.step true t b with
  | panic => have := (this.1 e).1; rw [ht] at this; cases this
  | ok b' => exact this.2 b' (.inl e)
  | err x b' => exact this.2 b' (.inr ⟨x, e⟩)

theorem frag_tok (W : Wrapper) (t : Token) : isFrag (W.tok t) = isFrag t := by
  induction W generalizing t with
  | base => rfl
  | computed W ih => rw [Wrapper.tok, ih]; cases t <;> rfl
  | fwd W ih => rw [Wrapper.tok, ih]; cases t <;> rfl
  | dyn W ih => rw [Wrapper.tok, ih]; cases t <;> rfl

/-- Any code that calls no fragments, on a buffer. -/
theorem sound_exec (p : Prog) (W : Wrapper) (b : Buf.St) (hp : p.Only fun t => isFrag t = false) (h : Shape b.parts b.stack) :
    (Sval.exec (guarded (Buf.step true)) p W (b, false)).1.2 = false ∧
      Shape (Sval.exec (guarded (Buf.step true)) p W (b, false)).1.1.parts (Sval.exec (guarded (Buf.step true)) p W (b, false)).1.1.stack := by
  suffices ∀ (p : Prog) (W : Wrapper) (x : Buf.St × Bool), p.Only (fun t => isFrag t = false) → x.2 = false ∧ Shape x.1.parts x.1.stack →
      (Sval.exec (guarded (Buf.step true)) p W x).1.2 = false ∧
      Shape (Sval.exec (guarded (Buf.step true)) p W x).1.1.parts (Sval.exec (guarded (Buf.step true)) p W x).1.1.stack from
    this p W (b, false) hp ⟨rfl, h⟩
  clear hp h b W p
  intro p
  induction p with
  | ret ok => exact fun W x _ h => h
  | call t k ih =>
    rintro W ⟨b, f⟩ ⟨ht, hk⟩ ⟨hf, hb⟩
    dsimp only at hf hb
    subst hf
    refine ih _ _ _ (hk _) ?_
    have := sound_step (t := W.tok t) (by rw [frag_tok]; exact ht) hb
    simp only [guarded, Bool.false_eq_true, if_false]
    cases e : Buf.step true (W.tok t) b with
    | panic => rw [e] at this; exact this.elim
    | ok b' => rw [e] at this; exact ⟨rfl, this⟩
    | err x b' => rw [e] at this; exact ⟨rfl, this⟩
  | value v k ihv ih => exact fun W x hp h => ih _ _ _ (hp.2 _) (ihv _ _ hp.1 h)
  | valueComputed v k ihv ih => exact fun W x hp h => ih _ _ _ (hp.2 _) (ihv _ _ hp.1 h)

variable {σ : Type}

/-- No enum without a variant, and a buffer that may hold nothing. -/
def Sound (st : St σ) : Prop := (∀ q, st.mode ≠ .enum q) ∧ ∀ b, st.buf = some (.value b) → Shape b.parts b.stack

def Steady : Res Unit (St σ) → Prop
  | .panic => False
  | .ok st => Sound st
  | .err _ st => Sound st

theorem Steady.bind {r : Res Unit (St σ)} {f : Act σ} (h : Steady r) (hf : ∀ st, Sound st → Steady (f st)) : Steady (r.bind f) := by
  cases r with
  | panic => exact h
  | ok st => exact hf st h
  | err e st => exact h

theorem steady_mode {m : Mode} (hm : ∀ q, m ≠ .enum q) (st : St σ) (h : Sound st) : Steady (toMode m st) := ⟨hm, h.2⟩

theorem steady_tryCatch {a : Act σ} {st : St σ} (h : Steady (a st)) : Steady (tryCatch a st) := by
  simp only [tryCatch]
  cases e : a st with
  | panic => rw [e] at h; exact h
  | ok s => rw [e] at h; exact h
  | err x s => rw [e] at h; exact ⟨by simp, h.2⟩

variable {C : Cb → σ → Res Unit σ} (hC : ∀ c s, C c s ≠ .panic)
include hC

theorem steady_cb (c : Cb) (st : St σ) (h : Sound st) : Steady (cb C c st) := by
  simp only [cb]
  cases e : C c st.s with
  | panic => exact absurd e (hC _ _)
  | ok s => exact h
  | err x s => trivial

theorem steady_cb_to (c : Cb) {m : Mode} (hm : ∀ q, m ≠ .enum q) (st : St σ) (h : Sound st) :
    Steady ((cb C c st).bind (toMode m)) := (steady_cb hC c st h).bind (steady_mode hm)

theorem steady_nest (q : List Meta) {a : Act σ} (ha : ∀ st, Sound st → Steady (a st)) (st : St σ) (h : Sound st) :
    Steady (nest C q a st) := by
  induction q generalizing st with
  | nil => exact ha st h
  | cons m q ih => exact ((steady_cb hC _ st h).bind ih).bind (steady_cb hC _)

theorem steady_put (any : Cb) (a : Arg) (st : St σ) (h : Sound st) : Steady (put C any a st) := by
  have into : ∀ (m : Mode) (c : Cb), (∀ q, m ≠ .enum q) → Steady (cb C c { st with mode := m }) := fun m c hm =>
    steady_cb hC c _ ⟨hm, h.2⟩
  rw [put]
  split
  · exact steady_cb_to hC _ (by simp) st h
  · exact steady_cb_to hC _ (by simp) st h
  · exact steady_cb hC _ st h
  · exact steady_cb hC _ st h
  · exact steady_cb hC _ st h
  · exact into _ _ (by simp)
  · exact into _ _ (by simp)
  · exact into _ _ (by simp)
  · exact into _ _ (by simp)
  · exact (steady_nest hC _ (steady_cb hC _) st h).bind (steady_mode (by simp))
  all_goals trivial

omit hC in
theorem steady_buffered (t : Token) (ht : isFrag t = false) (st : St σ) (b : Buf.St) (h : Sound st) (hb : st.buf = some (.value b)) :
    Steady (buffered st (Buf.step true t b)) := by
  have := sound_step ht (h.2 b hb)
  cases e : Buf.step true t b with
  | panic => rw [e] at this; exact this
  | ok b' => rw [e] at this; exact ⟨h.1, fun b'' h' => by cases h'; exact this⟩
  | err x b' => exact ⟨h.1, fun b'' h' => by cases h'; exact .base .nil⟩

omit hC in
theorem steady_bufferOr (t : Token) (ht : isFrag t = false) {a : Act σ} (ha : ∀ st, Sound st → Steady (a st)) (st : St σ) (h : Sound st) :
    Steady (bufferOr t a st) := by
  refine steady_tryCatch ?_
  split
  · rename_i b hb; exact steady_buffered t ht st b h hb
  · exact ha st h

omit hC in
/-- A call that begins something fills an empty buffer. -/
theorem steady_bufferOrBegin (t : Token) (ht : isFrag t = false) {any : Act σ} {enum : List Meta → Act σ}
    (ha : ∀ st, Sound st → Steady (any st)) (st : St σ) (h : Sound st) : Steady (bufferOrBegin t any enum st) := by
  refine steady_tryCatch ?_
  split
  · rename_i b hb; exact steady_buffered t ht st b h hb
  · exact ha st h
  · rename_i q _ hm; exact absurd hm (h.1 q)
  · have hb := sound_step ht (b := {}) (.base .nil)
    cases e : Buf.step true t {} with
    | panic => rw [e] at hb; exact hb
    | ok b => rw [e] at hb; exact ⟨h.1, fun b' h' => by cases h'; exact hb⟩
    | err x b => exact h
  · trivial

theorem steady_bufferOrEnd (t : Token) (ht : isFrag t = false) {a : Act σ} (ha : ∀ st, Sound st → Steady (a st)) (st : St σ) (h : Sound st) :
    Steady (bufferOrEnd C t a st) := by
  refine steady_tryCatch ?_
  split
  · exact (ha st h).bind (steady_mode (by simp))
  · rename_i b hb
    have := sound_step ht (h.2 b hb)
    cases e : Buf.step true t b with
    | panic => rw [e] at this; exact this
    | err x b' => exact ⟨h.1, fun b'' h' => by cases h'; exact .base .nil⟩
    | ok b' =>
      rw [e] at this
      simp only
      split
      · exact steady_put hC _ _ _ ⟨h.1, fun b h' => by cases h'⟩
      · exact ⟨h.1, fun b'' h' => by cases h'; exact this⟩
  · trivial

omit hC in
theorem steady_putBuffer (b : Buffered) (hb : ∀ x, b ≠ .value x) (st : St σ) (h : Sound st) : Steady (putBuffer b st) := by
  rw [putBuffer]
  split
  · exact ⟨h.1, fun b' h' => by cases h'; exact absurd rfl (hb b')⟩
  · trivial

omit hC in
theorem steady_finish (st : St σ) (h : Sound st) : Steady (finish st) := by
  rw [finish]
  split
  · exact h
  · trivial

theorem steady_call (t : Token) (ht : opensEnum t = false) (hf : isFrag t = false) (st : St σ) (h : Sound st) : Steady (call C t st) := by
  have good : ∀ st : St σ, Sound st → Steady (Res.ok st) := fun _ h => h
  have empty : ∀ st : St σ, Sound st → Sound { st with buf := none } := fun _ h => ⟨h.1, fun b h' => by cases h'⟩
  cases t with
  | null | bool _ | int _ _ | f32 _ | f64 _ => exact steady_bufferOr _ rfl (steady_put hC _ _) st h
  | textBegin n => exact steady_bufferOr _ rfl (steady_putBuffer _ (by simp)) st h
  | binaryBegin n => exact steady_bufferOr _ rfl (steady_putBuffer _ (by simp)) st h
  | textFragment _ | textFragmentComputed _ | binaryFragment _ | binaryFragmentComputed _ => cases hf
  | textEnd | binaryEnd =>
    refine steady_bufferOr _ rfl (fun st h => ?_) st h
    split
    · split <;> exact steady_put hC _ _ _ (empty st h)
    · trivial
  | tag m =>
    refine steady_bufferOr _ rfl (fun st h => ?_) st h
    split
    · rename_i q hm; exact absurd hm (h.1 q)
    · exact steady_put hC _ _ st h
  | enumBegin m => cases ht
  | seqBegin n => exact steady_bufferOrBegin _ rfl (steady_cb_to hC _ (by simp)) st h
  | mapBegin n => exact steady_bufferOrBegin _ rfl (steady_cb_to hC _ (by simp)) st h
  | tupleBegin m n => exact steady_bufferOrBegin _ rfl (steady_cb_to hC _ (by simp)) st h
  | recordBegin m n => exact steady_bufferOrBegin _ rfl (steady_cb_to hC _ (by simp)) st h
  | recordTupleBegin m n => exact steady_bufferOrBegin _ rfl (steady_cb_to hC _ (by simp)) st h
  | taggedBegin m => exact steady_bufferOrBegin (any := fun st => .ok { st with mode := .tagged (ownMeta m) }) _ rfl (fun st h => ⟨by simp, h.2⟩) st h
  | seqValueBegin | seqValueEnd | tagHint _ => exact h
  | mapKeyEnd | mapValueEnd | recordValueEnd _ _ | tupleValueEnd _ _ | recordTupleValueEnd _ _ _ =>
    exact steady_bufferOr _ rfl good st h
  | mapKeyBegin | mapValueBegin | recordValueBegin _ _ | tupleValueBegin _ _ | recordTupleValueBegin _ _ _ =>
    refine steady_bufferOr _ rfl (fun st h => ?_) st h
    split <;> first | trivial | exact ⟨by simp, h.2⟩
  | seqEnd =>
    refine steady_bufferOrEnd hC _ rfl (fun st h => ?_) st h
    split
    · exact steady_cb hC _ st h
    · trivial
  | mapEnd | recordEnd _ | tupleEnd _ | recordTupleEnd _ =>
    refine steady_bufferOrEnd hC _ rfl (fun st h => ?_) st h
    split <;> first | trivial | exact steady_cb hC _ st h
  | enumEnd m =>
    refine steady_bufferOrEnd hC _ rfl (fun st h => ?_) st h
    split
    · rename_i q hm; exact absurd hm (h.1 q)
    · exact steady_finish st h
    · trivial
  | taggedEnd m => exact steady_bufferOrEnd hC _ rfl steady_finish st h

theorem steady_delegate (v : Prog) (hv : v.Only fun t => isFrag t = false) (c : Bool) (go : St σ → Outcome (St σ)) (st : St σ) (h : Sound st) :
    ∃ ok st', delegate C v c go st = .done ok st' ∧ Sound st' := by
  simp only [delegate]
  split
  · rename_i b hb
    have hf := sound_exec v (if c then .computed .base else .base) b hv (h.2 b hb)
    simp only [bufValue, hf.1, Bool.false_eq_true, if_false]
    cases e : (Sval.exec (guarded (Buf.step true)) v (if c then .computed .base else .base) (b, false)).2 with
    | true => exact ⟨true, _, rfl, h.1, fun b' h' => by cases h'; exact hf.2⟩
    | false => exact ⟨false, _, rfl, by simp, fun b' h' => by cases h'; exact .base .nil⟩
  · split
    · rename_i q hm; exact absurd hm (h.1 q)
    · have := steady_tryCatch (steady_put hC (.value ⟨!c, v⟩) ⟨!c, v⟩ st h)
      cases e : tryCatch (put C (.value ⟨!c, v⟩) ⟨!c, v⟩) st with
      | panic => rw [e] at this; exact this.elim
      | ok s => rw [e] at this; exact ⟨_, _, rfl, this⟩
      | err x s => rw [e] at this; exact ⟨_, _, rfl, this⟩

theorem steady_exec (p : Prog) : ∀ (c : Bool) (st : St σ), p.Only (fun t => opensEnum t = false) → p.Only (fun t => isFrag t = false) → Sound st →
    ∃ ok st', exec C p c st = .done ok st' ∧ Sound st' := by
  induction p with
  | ret ok => exact fun c st _ _ h => ⟨ok, st, rfl, h⟩
  | call t k ih =>
    rintro c st ⟨ht, hk⟩ ⟨hf, hl⟩ h
    have ht' : opensEnum (if c then computedTok t else t) = false := by
      cases c with
      | false => exact ht
      | true => cases t <;> first | rfl | exact ht
    have hf' : isFrag (if c then computedTok t else t) = false := by
      cases c with
      | false => exact hf
      | true => cases t <;> first | rfl | exact hf
    have hcall := steady_call hC _ ht' hf' st h
    simp only [exec]
    cases e : call C (if c then computedTok t else t) st with
    | panic => rw [e] at hcall; exact hcall.elim
    | ok st1 => rw [e] at hcall; exact ih true c st1 (hk true) (hl true) hcall
    | err x st1 => rw [e] at hcall; exact ih false c st1 (hk false) (hl false) hcall
  | value v k ihv ih =>
    rintro c st ⟨hv, hk⟩ ⟨hw, hl⟩ h
    have : ∃ ok st', (if c then exec C v true st else delegate C v false (exec C v false) st) = .done ok st' ∧ Sound st' := by
      split
      · exact ihv true st hv hw h
      · exact steady_delegate hC v hw false _ st h
    obtain ⟨ok, st1, h1, h2⟩ := this
    simp only [exec, h1]
    exact ih ok c st1 (hk ok) (hl ok) h2
  | valueComputed v k ihv ih =>
    rintro c st ⟨hv, hk⟩ ⟨hw, hl⟩ h
    obtain ⟨ok, st1, h1, h2⟩ := steady_delegate hC v hw true (exec C v true) st h
    simp only [exec, h1]
    exact ih ok c st1 (hk ok) (hl ok) h2

theorem steady_stream (p : Prog) (c : Bool) (s : σ) (ho : p.Only fun t => opensEnum t = false) (hf : p.Only fun t => isFrag t = false) :
    stream C c p s ≠ .panicked := by
  obtain ⟨ok, st, h, _⟩ := steady_exec hC p c { s } ho hf ⟨by simp, fun b h => by cases h⟩
  simp [stream, h]

end Sval.Nested
