import Verif.Nested.Run

set_option autoImplicit false

/-!
# Values streamed to two recursive streams, one of which may fail where the other does not

`C'` does what `C` does, or fails. So does a `FlatStream` on it.
-/

namespace Sval.Nested

/-- The value that a method is given returns the errors of the stream. -/
def Cb.Propagates : Cb → Prop
  | .value a | .tagged _ a | .seqValue a | .mapKey a | .mapValue a | .tupleValue _ _ a | .recordValue _ _ a
  | .variantTagged _ a => a.prog.Propagates
  | _ => True

/-- A result that is as good as another one, or a failure; `panics`: or a panic. If the other one is a panic, anything. -/
def Less {α : Type} (panics : Prop) (Q : α → α → Prop) (E : α → Prop) (r' r : Res Unit α) : Prop :=
  r = .panic ∨ (panics ∧ r' = .panic) ∨ (∃ x, r' = .err () x ∧ E x) ∨ ∃ a b, r' = .ok a ∧ r = .ok b ∧ Q a b

section
variable {σ : Type} {C' C : Cb → σ → Res Unit σ} {R : σ → σ → Prop} {P : Prop}

/-- `FlatStream`s in the same state, on recursive streams in related states. -/
def Rel (R : σ → σ → Prop) (a b : St σ) : Prop := a.buf = b.buf ∧ a.mode = b.mode ∧ R a.s b.s

def Sim (P : Prop) (R : σ → σ → Prop) (a' a : Act σ) : Prop :=
  ∀ buf mode s' s, R s' s → Less P (Rel R) (fun _ => True) (a' ⟨buf, mode, s'⟩) (a ⟨buf, mode, s⟩)

/-- The same; and after a failure the stream is not used any more. -/
def SimC (P : Prop) (R : σ → σ → Prop) (a' a : Act σ) : Prop :=
  ∀ buf mode s' s, R s' s → Less P (Rel R) (fun x => x.mode = .done false) (a' ⟨buf, mode, s'⟩) (a ⟨buf, mode, s⟩)

theorem Less.err {α : Type} {Q : α → α → Prop} {E : α → Prop} {x : α} {r : Res Unit α} (h : E x) : Less P Q E (.err () x) r :=
  .inr (.inr (.inl ⟨x, rfl, h⟩))
theorem Less.panic {α : Type} {Q : α → α → Prop} {E : α → Prop} {r : Res Unit α} : Less P Q E r .panic := .inl rfl
theorem Less.ok {α : Type} {Q : α → α → Prop} {E : α → Prop} {a b : α} (h : Q a b) : Less P Q E (.ok a) (.ok b) :=
  .inr (.inr (.inr ⟨a, b, rfl, rfl, h⟩))

theorem sim_tryCatch {a' a : Act σ} (h : Sim P R a' a) : SimC P R (tryCatch a') (tryCatch a) := by
  intro buf mode s' s hs
  unfold tryCatch
  rcases h buf mode s' s hs with h | ⟨hp, h⟩ | ⟨x, h, _⟩ | ⟨x, y, h1, h2, h⟩
  · rw [h]; exact .panic
  · rw [h]; exact .inr (.inl ⟨hp, rfl⟩)
  · rw [h]; exact .err rfl
  · rw [h1, h2]; exact .ok h

theorem sim_bind {a' a f' f : Act σ} (h : Sim P R a' a) (hf : Sim P R f' f) :
    Sim P R (fun st => (a' st).bind f') (fun st => (a st).bind f) := by
  intro buf mode s' s hs
  dsimp only
  rcases h buf mode s' s hs with h | ⟨hp, h⟩ | ⟨x, h, _⟩ | ⟨⟨b1, m1, s1⟩, ⟨b2, m2, s2⟩, h1, h2, rfl, rfl, h⟩
  · rw [h]; exact .panic
  · rw [h]; exact .inr (.inl ⟨hp, rfl⟩)
  · rw [h]; exact .err trivial
  · rw [h1, h2]; exact hf _ _ _ _ h

theorem sim_toMode (m : Mode) : Sim P R (toMode m) (toMode m) := fun _ _ _ _ hs => .ok ⟨rfl, rfl, hs⟩

variable (hC : ∀ c, c.Propagates → ∀ s' s, R s' s → Less P R (fun _ => True) (C' c s') (C c s))
include hC

theorem sim_cb {c : Cb} (hc : c.Propagates) : Sim P R (cb C' c) (cb C c) := by
  intro buf mode s' s hs
  unfold cb
  simp only []
  rcases hC c hc s' s hs with h | ⟨hp, h⟩ | ⟨x, h, _⟩ | ⟨x, y, h1, h2, h⟩
  · rw [h]; exact .panic
  · rw [h]; exact .inr (.inl ⟨hp, rfl⟩)
  · rw [h]; exact .err trivial
  · rw [h1, h2]; exact .ok ⟨rfl, rfl, h⟩

theorem sim_cb_to {c : Cb} (hc : c.Propagates) (m : Mode) :
    Sim P R (fun st => (cb C' c st).bind (toMode m)) (fun st => (cb C c st).bind (toMode m)) :=
  sim_bind (sim_cb hC hc) (sim_toMode m)

theorem sim_nest (q : List Meta) {a' a : Act σ} (h : Sim P R a' a) : Sim P R (nest C' q a') (nest C q a) := by
  induction q with
  | nil => exact h
  | cons m q ih => exact sim_bind (sim_bind (sim_cb hC trivial) ih) (sim_cb hC trivial)

theorem sim_put {any : Cb} {a : Arg} (hany : any.Propagates) (ha : a.prog.Propagates) : Sim P R (put C' any a) (put C any a) := by
  intro buf mode s' s hs
  unfold put
  cases mode with
  | any => exact sim_cb_to hC hany _ _ _ _ _ hs
  | tagged m => exact sim_cb_to hC (c := .tagged m a) ha _ _ _ _ _ hs
  | seq => exact sim_cb hC (c := .seqValue a) ha _ _ _ _ hs
  | map k => cases k
             · exact sim_cb hC (c := .mapValue a) ha _ _ _ _ hs
             · exact sim_cb hC (c := .mapKey a) ha _ _ _ _ hs
  | tuple f => cases f with
    | none => exact .err trivial
    | some f => exact sim_cb hC (c := .tupleValue _ _ a) ha _ _ _ _ hs
  | record f => cases f with
    | none => exact .err trivial
    | some f => exact sim_cb hC (c := .recordValue _ _ a) ha _ _ _ _ hs
  | vtuple f => cases f with
    | none => exact .err trivial
    | some f => exact sim_cb hC (c := .tupleValue _ _ a) ha _ _ _ _ hs
  | vrecord f => cases f with
    | none => exact .err trivial
    | some f => exact sim_cb hC (c := .recordValue _ _ a) ha _ _ _ _ hs
  | vtagged m q => exact sim_bind (sim_nest hC q (sim_cb hC (c := .variantTagged m a) ha)) (sim_toMode _) _ _ _ _ hs
  | enum q => exact .err trivial
  | done ok => exact .err trivial

omit hC

theorem sim_buffered {buf : Option Buffered} {mode : Mode} {s' s : σ} (hs : R s' s) (r : Res Buf.Err Buf.St) :
    Less P (Rel R) (fun _ => True) (buffered ⟨buf, mode, s'⟩ r) (buffered ⟨buf, mode, s⟩ r) := by
  cases r with
  | ok b => exact .ok ⟨rfl, rfl, hs⟩
  | err e b => exact .err trivial
  | panic => exact .panic

theorem sim_bufferOr (t : Token) {a' a : Act σ} (h : Sim P R a' a) : SimC P R (bufferOr t a') (bufferOr t a) := by
  refine sim_tryCatch ?_
  intro buf mode s' s hs
  cases buf with
  | none => exact h _ _ _ _ hs
  | some x => cases x with
    | value b => exact sim_buffered hs _
    | _ => exact h _ _ _ _ hs

theorem sim_bufferOrBegin (t : Token) {a' a : Act σ} {f' f : List Meta → Act σ} (h : Sim P R a' a) (hf : ∀ q, Sim P R (f' q) (f q)) :
    SimC P R (bufferOrBegin t a' f') (bufferOrBegin t a f) := by
  refine sim_tryCatch ?_
  intro buf mode s' s hs
  cases buf with
  | some x => cases x with
    | value b => exact sim_buffered hs _
    | _ => exact .err trivial
  | none => cases mode with
    | any => exact h _ _ _ _ hs
    | enum q => exact hf q _ _ _ _ hs
    | _ =>
      cases Buf.step true t {} with
      | ok b => exact .ok ⟨rfl, rfl, hs⟩
      | err e b => exact .err trivial
      | panic => exact .panic

theorem item_propagates : ∀ q : List Item, (prog q).Propagates := by
  suffices h : ∀ n (q : List Item), size q ≤ n → (prog q).Propagates from fun q => h _ q (Nat.le_refl _)
  intro n
  induction n with
  | zero => intro q hq; cases q with
    | nil => trivial
    | cons i q => cases i <;> simp [size, Item.size] at hq
  | succ n ih =>
    intro q hq
    cases q with
    | nil => trivial
    | cons i q =>
      cases i with
      | tok t => exact ⟨rfl, ih q (by simp [size, Item.size] at hq; omega)⟩
      | val v => exact ⟨ih v (by simp [size, Item.size] at hq; omega), rfl, ih q (by simp [size, Item.size] at hq; omega)⟩
      | comp v => exact ⟨ih v (by simp [size, Item.size] at hq; omega), rfl, ih q (by simp [size, Item.size] at hq; omega)⟩

include hC

theorem sim_bufferOrEnd (t : Token) {a' a : Act σ} (h : Sim P R a' a) : SimC P R (bufferOrEnd C' t a') (bufferOrEnd C t a) := by
  refine sim_tryCatch ?_
  intro buf mode s' s hs
  cases buf with
  | none => exact sim_bind h (sim_toMode _) _ _ _ _ hs
  | some x => cases x with
    | value b =>
      simp only []
      cases Buf.step true t b with
      | ok b =>
        simp only []
        split
        · exact sim_put hC (any := .value (bufferArg b)) (item_propagates _) (item_propagates _) _ _ _ _ hs
        · exact .ok ⟨rfl, rfl, hs⟩
      | err e b => exact .err trivial
      | panic => exact .panic
    | _ => exact .err trivial

theorem sim_call (t : Token) : SimC P R (call C' t) (call C t) := by
  have ok : Sim P R .ok .ok := fun _ _ _ _ hs => .ok ⟨rfl, rfl, hs⟩
  have okC : SimC P R .ok .ok := fun _ _ _ _ hs => .ok ⟨rfl, rfl, hs⟩
  have err : ∀ a : Act σ, Sim P R (fun st => .err () st) a := fun _ _ _ _ _ _ => .err trivial
  have one : ∀ t : Token, (Prog.ofToks [t]).Propagates := fun t => ofToks_propagates [t]
  have fin : Sim P R finish finish := by
    intro buf mode s' s hs
    unfold finish
    simp only []
    split
    · exact .ok ⟨rfl, rfl, hs⟩
    · exact .err trivial
  cases t with
  | null => exact sim_bufferOr _ (sim_put hC trivial (one _))
  | bool b => exact sim_bufferOr _ (sim_put hC trivial (one _))
  | int t v => exact sim_bufferOr _ (sim_put hC trivial (one _))
  | f32 b => exact sim_bufferOr _ (sim_put hC trivial (one _))
  | f64 b => exact sim_bufferOr _ (sim_put hC trivial (one _))
  | textBegin n =>
    refine sim_bufferOr _ fun buf mode s' s hs => ?_
    unfold putBuffer
    cases buf with
    | none => exact .ok ⟨rfl, rfl, hs⟩
    | some b => exact .err trivial
  | binaryBegin n =>
    refine sim_bufferOr _ fun buf mode s' s hs => ?_
    unfold putBuffer
    cases buf with
    | none => exact .ok ⟨rfl, rfl, hs⟩
    | some b => exact .err trivial
  | textFragment f | textFragmentComputed f =>
    refine sim_bufferOr _ fun buf mode s' s hs => ?_
    unfold withText
    simp only []
    split
    · split
      · exact .ok ⟨rfl, rfl, hs⟩
      · exact .err trivial
    · exact .err trivial
  | binaryFragment f | binaryFragmentComputed f =>
    refine sim_bufferOr _ fun buf mode s' s hs => ?_
    unfold withBinary
    simp only []
    split
    · split
      · exact .ok ⟨rfl, rfl, hs⟩
      · exact .err trivial
    · exact .err trivial
  | textEnd =>
    refine sim_bufferOr _ fun buf mode s' s hs => ?_
    simp only []
    split
    · split <;> exact sim_put hC (any := .text _ _) trivial (ofToks_propagates _) _ _ _ _ hs
    · exact .err trivial
  | binaryEnd =>
    refine sim_bufferOr _ fun buf mode s' s hs => ?_
    simp only []
    split
    · split <;> exact sim_put hC (any := .binary _ _) trivial (ofToks_propagates _) _ _ _ _ hs
    · exact .err trivial
  | tag m =>
    refine sim_bufferOr _ fun buf mode s' s hs => ?_
    cases mode with
    | enum q => exact sim_bind (sim_nest hC q (sim_cb hC (c := .variantTag (cloneMeta m)) trivial)) (sim_toMode _) _ _ _ _ hs
    | _ => exact sim_put hC (any := .tag (cloneMeta m)) trivial (one _) _ _ _ _ hs
  | seqBegin n => exact sim_bufferOrBegin _ (sim_cb_to hC (c := .seqBegin n) trivial _) fun _ => err _
  | seqValueBegin => exact okC
  | seqValueEnd => exact okC
  | seqEnd =>
    refine sim_bufferOrEnd hC _ fun buf mode s' s hs => ?_
    simp only []
    split
    · exact sim_cb hC (c := .seqEnd) trivial _ _ _ _ hs
    · exact .err trivial
  | mapBegin n => exact sim_bufferOrBegin _ (sim_cb_to hC (c := .mapBegin n) trivial _) fun _ => err _
  | mapKeyBegin | mapValueBegin =>
    refine sim_bufferOr _ fun buf mode s' s hs => ?_
    simp only []
    split
    · exact .ok ⟨rfl, rfl, hs⟩
    · exact .err trivial
  | mapKeyEnd => exact sim_bufferOr _ ok
  | mapValueEnd => exact sim_bufferOr _ ok
  | mapEnd =>
    refine sim_bufferOrEnd hC _ fun buf mode s' s hs => ?_
    simp only []
    split
    · exact sim_cb hC (c := .mapEnd) trivial _ _ _ _ hs
    · exact .err trivial
  | enumBegin m =>
    exact sim_bufferOrBegin _ (sim_cb_to hC (c := .enumBegin (cloneMeta m)) trivial _) fun _ _ _ _ _ hs => .ok ⟨rfl, rfl, hs⟩
  | enumEnd m =>
    refine sim_bufferOrEnd hC _ fun buf mode s' s hs => ?_
    cases mode with
    | enum q => exact sim_nest hC q (fun _ _ _ _ _ => .panic) _ _ _ _ hs
    | done b => exact fin _ _ _ _ hs
    | _ => exact .err trivial
  | taggedBegin m =>
    exact sim_bufferOrBegin _ (fun _ _ _ _ hs => .ok ⟨rfl, rfl, hs⟩) fun _ _ _ _ _ hs => .ok ⟨rfl, rfl, hs⟩
  | taggedEnd m => exact sim_bufferOrEnd hC _ fin
  | recordBegin m n | recordTupleBegin m n =>
    refine sim_bufferOrBegin _ (sim_cb_to hC (c := .recordBegin (cloneMeta m) n) trivial _) fun q buf mode s' s hs => ?_
    split
    · exact sim_cb_to hC (c := .variantRecordBegin (cloneMeta m) n) trivial _ _ _ _ _ hs
    · exact .panic
  | recordValueBegin | recordTupleValueBegin =>
    refine sim_bufferOr _ fun buf mode s' s hs => ?_
    simp only []
    split
    · exact .ok ⟨rfl, rfl, hs⟩
    · exact .ok ⟨rfl, rfl, hs⟩
    · exact .err trivial
  | recordValueEnd => exact sim_bufferOr _ ok
  | recordTupleValueEnd => exact sim_bufferOr _ ok
  | recordEnd | recordTupleEnd =>
    refine sim_bufferOrEnd hC _ fun buf mode s' s hs => ?_
    simp only []
    split
    · exact sim_cb hC (c := .recordEnd) trivial _ _ _ _ hs
    · exact sim_cb hC (c := .recordEnd) trivial _ _ _ _ hs
    · exact .err trivial
  | tupleBegin m n =>
    refine sim_bufferOrBegin _ (sim_cb_to hC (c := .tupleBegin (cloneMeta m) n) trivial _) fun q buf mode s' s hs => ?_
    split
    · exact sim_cb_to hC (c := .variantTupleBegin (cloneMeta m) n) trivial _ _ _ _ _ hs
    · exact .panic
  | tupleValueBegin =>
    refine sim_bufferOr _ fun buf mode s' s hs => ?_
    simp only []
    split
    · exact .ok ⟨rfl, rfl, hs⟩
    · exact .ok ⟨rfl, rfl, hs⟩
    · exact .err trivial
  | tupleValueEnd => exact sim_bufferOr _ ok
  | tupleEnd =>
    refine sim_bufferOrEnd hC _ fun buf mode s' s hs => ?_
    simp only []
    split
    · exact sim_cb hC (c := .tupleEnd) trivial _ _ _ _ hs
    · exact sim_cb hC (c := .tupleEnd) trivial _ _ _ _ hs
    · exact .err trivial
  | tagHint t => exact okC

omit hC

/-- Two runs of the same code. -/
def LessR (P : Prop) (R : σ → σ → Prop) (o' o : Outcome (St σ)) : Prop :=
  o = .panicked ∨ (P ∧ o' = .panicked) ∨ (∃ x, o' = .done false x ∧ x.mode = .done false) ∨
    ∃ ok a b, o' = .done ok a ∧ o = .done ok b ∧ Rel R a b

theorem lessR_outcome {a' a : Act σ} (h : SimC P R a' a) {buf : Option Buffered} {mode : Mode} {s' s : σ} (hs : R s' s) :
    LessR P R (a' ⟨buf, mode, s'⟩).outcome (a ⟨buf, mode, s⟩).outcome := by
  rcases h buf mode s' s hs with h | ⟨hp, h⟩ | ⟨x, h, hx⟩ | ⟨x, y, h1, h2, h⟩
  · rw [h]; exact .inl rfl
  · rw [h]; exact .inr (.inl ⟨hp, rfl⟩)
  · rw [h]; exact .inr (.inr (.inl ⟨x, rfl, hx⟩))
  · rw [h1, h2]; exact .inr (.inr (.inr ⟨true, x, y, rfl, rfl, h⟩))

include hC

theorem sim_delegate (v : Prog) (hv : v.Propagates) (c : Bool) {go' go : St σ → Outcome (St σ)}
    (hg : ∀ buf mode s' s, R s' s → LessR P R (go' ⟨buf, mode, s'⟩) (go ⟨buf, mode, s⟩))
    {buf : Option Buffered} {mode : Mode} {s' s : σ} (hs : R s' s) :
    LessR P R (delegate C' v c go' ⟨buf, mode, s'⟩) (delegate C v c go ⟨buf, mode, s⟩) := by
  have byMode : LessR P R
      (match mode with
        | .enum _ => (match go' ⟨buf, mode, s'⟩ with
          | .done true st => .done true st
          | .done false st => .done false { st with mode := .done false }
          | .panicked => .panicked)
        | _ => (tryCatch (put C' (.value ⟨!c, v⟩) ⟨!c, v⟩) ⟨buf, mode, s'⟩).outcome)
      (match mode with
        | .enum _ => (match go ⟨buf, mode, s⟩ with
          | .done true st => .done true st
          | .done false st => .done false { st with mode := .done false }
          | .panicked => .panicked)
        | _ => (tryCatch (put C (.value ⟨!c, v⟩) ⟨!c, v⟩) ⟨buf, mode, s⟩).outcome) := by
    have hput := lessR_outcome (sim_tryCatch (sim_put hC (any := .value ⟨!c, v⟩) (a := ⟨!c, v⟩) hv hv)) (buf := buf) (mode := mode) hs
    cases mode with
    | enum q =>
      simp only []
      rcases hg buf (.enum q) s' s hs with h | ⟨hp, h⟩ | ⟨x, h, hx⟩ | ⟨ok, x, y, h1, h2, h⟩
      · rw [h]; exact .inl rfl
      · rw [h]; exact .inr (.inl ⟨hp, rfl⟩)
      · rw [h]; exact .inr (.inr (.inl ⟨_, rfl, rfl⟩))
      · rw [h1, h2]
        cases ok with
        | true => exact .inr (.inr (.inr ⟨true, x, y, rfl, rfl, h⟩))
        | false => exact .inr (.inr (.inl ⟨_, rfl, rfl⟩))
    | _ => exact hput
  unfold delegate
  simp only []
  cases buf with
  | none => exact byMode
  | some x => cases x with
    | value b =>
      simp only []
      cases bufValue v c b with
      | panicked => exact .inl rfl
      | done ok b =>
        cases ok with
        | true => exact .inr (.inr (.inr ⟨true, _, _, rfl, rfl, rfl, rfl, hs⟩))
        | false => exact .inr (.inr (.inl ⟨_, rfl, rfl⟩))
    | _ => exact byMode

theorem sim_exec (p : Prog) : ∀ (c : Bool) (buf : Option Buffered) (mode : Mode) (s' s : σ), p.Propagates → R s' s →
    LessR P R (exec C' p c ⟨buf, mode, s'⟩) (exec C p c ⟨buf, mode, s⟩) := by
  have next : ∀ (k : Bool → Prog) (c : Bool) (o' o : Outcome (St σ)), LessR P R o' o → k false = .ret false →
      (∀ buf mode s' s, R s' s → LessR P R (exec C' (k true) c ⟨buf, mode, s'⟩) (exec C (k true) c ⟨buf, mode, s⟩)) →
      LessR P R (match o' with | .done ok st => exec C' (k ok) c st | .panicked => .panicked)
        (match o with | .done ok st => exec C (k ok) c st | .panicked => .panicked) := by
    intro k c o' o h hk hn
    rcases h with h | ⟨hp, h⟩ | ⟨x, h, hx⟩ | ⟨ok, ⟨b1, m1, s1⟩, ⟨b2, m2, s2⟩, h1, h2, h⟩
    · rw [h]; exact .inl rfl
    · rw [h]; exact .inr (.inl ⟨hp, rfl⟩)
    · rw [h]; simp only [hk, exec]; exact .inr (.inr (.inl ⟨x, rfl, hx⟩))
    · rw [h1, h2]
      cases ok with
      | false => simp only [hk, exec]; exact .inr (.inr (.inr ⟨false, _, _, rfl, rfl, h⟩))
      | true =>
        obtain ⟨h3, h4, h⟩ := h
        simp only at h3 h4 h
        subst h3 h4
        exact hn _ _ _ _ h
  induction p with
  | ret b =>
    intro c buf mode s' s _ hs
    exact .inr (.inr (.inr ⟨b, _, _, rfl, rfl, rfl, rfl, hs⟩))
  | call t k ih =>
    intro c buf mode s' s hp hs
    have := next k c _ _ (lessR_outcome (sim_call hC (if c then computedTok t else t)) (buf := buf) (mode := mode) hs) hp.1
      fun buf mode s' s hs => ih true c buf mode s' s hp.2 hs
    simp only [exec]
    revert this
    cases call C' (if c then computedTok t else t) ⟨buf, mode, s'⟩ <;>
      cases call C (if c then computedTok t else t) ⟨buf, mode, s⟩ <;> exact id
  | value v k ihv ih =>
    intro c buf mode s' s hp hs
    simp only [exec]
    refine next k c _ _ ?_ hp.2.1 fun buf mode s' s hs => ih true c buf mode s' s hp.2.2 hs
    cases c with
    | true => exact ihv true _ _ _ _ hp.1 hs
    | false => exact sim_delegate hC v hp.1 false (fun _ _ _ _ hs => ihv false _ _ _ _ hp.1 hs) hs
  | valueComputed v k ihv ih =>
    intro c buf mode s' s hp hs
    simp only [exec]
    exact next k c _ _ (sim_delegate hC v hp.1 true (fun _ _ _ _ hs => ihv true _ _ _ _ hp.1 hs) hs) hp.2.1
      fun buf mode s' s hs => ih true c buf mode s' s hp.2.2 hs

theorem sim_stream (c : Bool) (p : Prog) (hp : p.Propagates) {s' s : σ} (hs : R s' s) :
    stream C c p s = .panicked ∨ (P ∧ stream C' c p s' = .panicked) ∨ (∃ x, stream C' c p s' = .done false x) ∨
    ∃ ok a b, stream C' c p s' = .done ok a ∧ stream C c p s = .done ok b ∧ R a b := by
  unfold stream
  rcases sim_exec hC p c none .any s' s hp hs with h | ⟨hp, h⟩ | ⟨x, h, hx⟩ | ⟨ok, x, y, h1, h2, h3, h4, h⟩
  · rw [h]; exact .inl rfl
  · rw [h]; exact .inr (.inl ⟨hp, rfl⟩)
  · rw [h]; exact .inr (.inr (.inl ⟨_, by simp [hx]; rfl⟩))
  · rw [h1, h2]; exact .inr (.inr (.inr ⟨_, _, _, rfl, by rw [h4], h⟩))

end

end Sval.Nested
