import Verif.Nested.NoAlloc
import Verif.Props.BufferDebug

set_option autoImplicit false

/-!
# Recursive streams without an allocator: C71
-/

namespace Sval.Nested

section
variable {σ : Type} (C : Cb → σ → Res Unit σ)

/-! ## With `alloc` it is the model of `Verif.Nested.Model` -/

variable {B : Build}

theorem withMeta_true (hB : B.alloc = true) (m : Meta) (st : St σ) (k : Meta → Res Unit (St σ)) :
    withMeta B m st k = k (ownMeta m) := by
  unfold withMeta ownMeta
  cases h : m.label with
  | none => cases m; simp_all
  | some l => simp [withLabel, hB]

theorem withLabel_true (hB : B.alloc = true) (l : Label) (st : St σ) (k : Label → Res Unit (St σ)) :
    withLabel B l st k = k l.toOwned := by simp [withLabel, hB]

theorem pushBack_true (hB : B.alloc = true) (q : List Meta) (m : Meta) (st : St σ) :
    pushBack B q m st = .ok { st with mode := .enum (q ++ [m]) } := by simp [pushBack, hB]

theorem nestA_true (hB : B.alloc = true) (q : List Meta) (a : Act σ) : nestA C B q a = nest C q a := by simp [nestA, hB]

theorem withTextA_true (f : Buf.Cow Char → Except Buf.Err (Buf.Cow Char))
    (hf : ∀ c, ∃ c', f c = .ok c') : (withTextA B f : Act σ) = withText f := by
  funext st
  unfold withTextA withText
  cases st.buf with
  | none => rfl
  | some x => cases x with
    | text b => obtain ⟨c', h⟩ := hf b; simp only [h]
    | _ => rfl

theorem withBinaryA_true (f : Buf.Cow UInt8 → Except Buf.Err (Buf.Cow UInt8))
    (hf : ∀ c, ∃ c', f c = .ok c') : (withBinaryA B f : Act σ) = withBinary f := by
  funext st
  unfold withBinaryA withBinary
  cases st.buf with
  | none => rfl
  | some x => cases x with
    | binary b => obtain ⟨c', h⟩ := hf b; simp only [h]
    | _ => rfl

theorem cow_push_true {α : Type} (f : List α) (c : Buf.Cow α) : ∃ c', c.push true f = .ok c' := by
  unfold Buf.Cow.push
  split
  · exact ⟨_, rfl⟩
  · exact ⟨_, rfl⟩

theorem cow_pushComputed_true {α : Type} (f : List α) (c : Buf.Cow α) : ∃ c', c.pushComputed true f = .ok c' := ⟨_, rfl⟩

theorem putA_true (hB : B.alloc = true) (any : Cb) (a : Arg) : putA C B any a = put C any a := by
  funext st; unfold putA put; simp only [nestA_true C hB]; rfl

theorem bufferOrA_true (hB : B.alloc = true) (t : Token) (a : Act σ) : bufferOrA B t a = bufferOr t a := by
  unfold bufferOrA bufferOr; rw [hB]; simp only [Buf.stepD_true]; rfl

theorem bufferOrBeginA_true (hB : B.alloc = true) (t : Token) (a : Act σ) (f : List Meta → Act σ) :
    bufferOrBeginA B t a f = bufferOrBegin t a f := by
  unfold bufferOrBeginA bufferOrBegin; rw [hB]; simp only [Buf.stepD_true]; rfl

theorem bufferOrEndA_true (hB : B.alloc = true) (t : Token) (a : Act σ) : bufferOrEndA C B t a = bufferOrEnd C t a := by
  unfold bufferOrEndA bufferOrEnd; rw [hB]; simp only [Buf.stepD_true, putA_true C hB]; rfl

theorem emptyA_true (hB : B.alloc = true) (q : List Meta) : (emptyA B q = true) = (q = []) := by simp [emptyA, hB]

theorem callA_true (hB : B.alloc = true) (t : Token) : callA C B t = call C t := by
  cases t with
  | textFragment f => simp only [callA, call, bufferOrA_true hB, hB, withTextA_true _ (cow_push_true f)]
  | textFragmentComputed f => simp only [callA, call, bufferOrA_true hB, hB, withTextA_true _ (cow_pushComputed_true f)]
  | binaryFragment f => simp only [callA, call, bufferOrA_true hB, hB, withBinaryA_true _ (cow_push_true f)]
  | binaryFragmentComputed f => simp only [callA, call, bufferOrA_true hB, hB, withBinaryA_true _ (cow_pushComputed_true f)]
  | _ =>
    unfold callA call
    simp only [putA_true C hB, bufferOrA_true hB, bufferOrBeginA_true hB, bufferOrEndA_true C hB, withMeta_true hB, emptyA_true hB,
      nestA_true C hB, pushBack_true hB, withLabel_true hB, endlessA, endless]
    try rfl

theorem delegateA_true (hB : B.alloc = true) (v : Prog) (c : Bool) (go : St σ → Outcome (St σ)) (st : St σ) :
    delegateA C B v c go st = delegate C v c go st := by
  unfold delegateA delegate bufValueA bufValue
  rw [hB, show Buf.stepD true B.bufferPanics = Buf.step true from by funext t s; exact Buf.stepD_true _ t s]
  simp only [putA_true C hB]; rfl

theorem execA_true (hB : B.alloc = true) (p : Prog) : ∀ (c : Bool) (st : St σ), execA C B p c st = exec C p c st := by
  induction p with
  | ret ok => intro c st; rfl
  | call t k ih => intro c st; simp only [execA, exec, callA_true C hB, ih]; rfl
  | value v k ihv ih =>
    intro c st
    simp only [execA, exec, delegateA_true C hB, ih, ihv, show execA C B v false = exec C v false from funext (ihv false)]; rfl
  | valueComputed v k ihv ih =>
    intro c st
    simp only [execA, exec, delegateA_true C hB, ih, show execA C B v true = exec C v true from funext (ihv true)]; rfl

theorem streamA_true (hB : B.alloc = true) (c : Bool) (p : Prog) (s : σ) : streamA C B c p s = stream C c p s := by
  unfold streamA stream; rw [execA_true C hB]; rfl

/-! ## Without it -/

/-- Without `alloc` and without debug assertions. -/
abbrev rel : Build := { alloc := false }

theorem stepD_rel : Buf.stepD rel.alloc rel.bufferPanics = Buf.step false := by
  funext t s; exact Buf.stepD_quiet false t s

/-- No variants are queued. -/
def NoQ : Mode → Prop
  | .enum q => q = []
  | .vtagged _ q => q = []
  | _ => True

/-- What an action does to states in which no variants are queued: the same as another one, with no variants queued
then, or it fails. -/
def Same (a b : Act σ) : Prop := ∀ st, NoQ st.mode →
  (a st = b st ∧ (∀ st', a st = .ok st' → NoQ st'.mode)) ∨ ∃ st', a st = .err () st'

/-- The same, and if it fails for lack of `alloc` the stream is not used any more. -/
def SameC (a b : Act σ) : Prop := ∀ st, NoQ st.mode →
  (a st = b st ∧ (∀ st', (a st = .ok st' ∨ a st = .err () st') → NoQ st'.mode)) ∨
    ∃ st', a st = .err () st' ∧ st'.mode = .done false

theorem same_tryCatch {a b : Act σ} (h : Same a b) : SameC (tryCatch a) (tryCatch b) := by
  intro st hst
  unfold tryCatch
  rcases h st hst with ⟨h1, h2⟩ | ⟨st', h1⟩
  · left
    rw [← h1]
    refine ⟨rfl, ?_⟩
    cases ha : a st with
    | ok s => rintro st' (h | h) <;> cases h; exact h2 _ ha
    | err e s => rintro st' (h | h) <;> cases h; trivial
    | panic => rintro st' (h | h) <;> cases h
  · right; rw [h1]; exact ⟨_, rfl, rfl⟩

theorem same_err {a b : Act σ} (h : ∀ st, ∃ st', a st = .err () st') : Same a b := fun st _ => .inr (h st)

theorem cb_keeps {c : Cb} {st st' : St σ} (h : cb C c st = .ok st') (hst : NoQ st.mode) : NoQ st'.mode := by
  unfold cb at h
  cases hc : C c st.s with
  | ok s => rw [hc] at h; cases h; exact hst
  | err e s => rw [hc] at h; cases h
  | panic => rw [hc] at h; cases h

theorem same_cb (c : Cb) : Same (cb C c) (cb C c) := by
  intro st hst
  left
  refine ⟨rfl, ?_⟩
  intro st' h
  unfold cb at h
  cases hc : C c st.s with
  | ok s => rw [hc] at h; cases h; exact hst
  | err e s => rw [hc] at h; cases h
  | panic => rw [hc] at h; cases h

theorem same_bind {a b : Act σ} {f g : Act σ} (h : Same a b) (hf : Same f g) :
    Same (fun st => (a st).bind f) (fun st => (b st).bind g) := by
  intro st hst
  beta_reduce
  rcases h st hst with ⟨h1, h2⟩ | ⟨st', h1⟩
  · rw [← h1]
    cases ha : a st with
    | ok s =>
      rcases hf s (h2 _ ha) with ⟨h3, h4⟩ | ⟨s', h3⟩
      · exact .inl ⟨h3, h4⟩
      · exact .inr ⟨s', h3⟩
    | err e s => exact .inr ⟨s, rfl⟩
    | panic => exact .inl ⟨rfl, fun _ h => by cases h⟩
  · right; exact ⟨st', by rw [h1]; rfl⟩

theorem same_toMode (m : Mode) (hm : NoQ m) : Same (toMode m : Act σ) (toMode m) := by
  intro st _; left; refine ⟨rfl, ?_⟩; intro st' h; cases h; exact hm

theorem same_cb_to (c : Cb) (m : Mode) (hm : NoQ m) :
    Same (fun st => (cb C c st).bind (toMode m)) (fun st => (cb C c st).bind (toMode m)) :=
  same_bind (same_cb C c) (same_toMode m hm)

theorem same_put (any : Cb) (a : Arg) : Same (putA C rel any a) (put C any a) := by
  intro st hst
  unfold putA put
  cases hm : st.mode with
  | any => exact same_cb_to C _ (.done true) trivial st hst
  | tagged m => exact same_cb_to C _ (.done true) trivial st hst
  | seq => exact same_cb C _ st hst
  | map k => cases k <;> exact same_cb C _ st hst
  | tuple f => cases f with
    | none => exact .inr ⟨_, rfl⟩
    | some f => exact same_cb C _ _ trivial
  | record f => cases f with
    | none => exact .inr ⟨_, rfl⟩
    | some f => exact same_cb C _ _ trivial
  | vtuple f => cases f with
    | none => exact .inr ⟨_, rfl⟩
    | some f => exact same_cb C _ _ trivial
  | vrecord f => cases f with
    | none => exact .inr ⟨_, rfl⟩
    | some f => exact same_cb C _ _ trivial
  | vtagged m q =>
    have hq : q = [] := by rw [hm] at hst; exact hst
    subst hq
    exact same_cb_to C _ (.done true) trivial st hst
  | enum q => exact .inr ⟨_, rfl⟩
  | done ok => exact .inr ⟨_, rfl⟩

theorem same_buffered (t : Token) (b : Buf.St) (st : St σ) (hst : NoQ st.mode) :
    (buffered st (Buf.step false t b) = buffered st (Buf.step true t b) ∧
      ∀ st', buffered st (Buf.step false t b) = .ok st' → NoQ st'.mode) ∨
    ∃ st', buffered st (Buf.step false t b) = .err () st' := by
  rcases Buf.step_same t b with h | ⟨s, h, _⟩
  · rw [h]
    cases Buf.step true t b with
    | ok b' => left; refine ⟨rfl, ?_⟩; intro st' h; cases h; exact hst
    | err e b' => right; exact ⟨_, rfl⟩
    | panic => left; exact ⟨rfl, fun _ h => by cases h⟩
  · right; rw [h]; exact ⟨_, rfl⟩

theorem same_bufferOr (t : Token) {a b : Act σ} (h : Same a b) : SameC (bufferOrA rel t a) (bufferOr t b) := by
  unfold bufferOrA
  rw [stepD_rel]
  refine same_tryCatch ?_
  intro st hst
  obtain ⟨buf, mode, s⟩ := st
  cases buf with
  | none => exact h _ hst
  | some x => cases x with
    | value b => exact same_buffered t b _ hst
    | _ => exact h _ hst

theorem same_bufferOrBegin (t : Token) {a b : Act σ} {f g : List Meta → Act σ} (h : Same a b) (hf : Same (f []) (g [])) :
    SameC (bufferOrBeginA rel t a f) (bufferOrBegin t b g) := by
  unfold bufferOrBeginA
  rw [stepD_rel]
  refine same_tryCatch ?_
  intro st hst
  have hfb : ∀ m : Mode, NoQ m →
    ((match Buf.step false t {} with
      | .ok b => .ok { st with buf := some (.value b), mode := m }
      | .err _ _ => .err () st
      | .panic => .panic : Res Unit (St σ)) =
     (match Buf.step true t {} with
      | .ok b => .ok { st with buf := some (.value b), mode := m }
      | .err _ _ => .err () st
      | .panic => .panic : Res Unit (St σ)) ∧
      ∀ st', (match Buf.step false t {} with
      | .ok b => .ok { st with buf := some (.value b), mode := m }
      | .err _ _ => .err () st
      | .panic => .panic : Res Unit (St σ)) = .ok st' → NoQ st'.mode) ∨
    ∃ st', (match Buf.step false t {} with
      | .ok b => .ok { st with buf := some (.value b), mode := m }
      | .err _ _ => .err () st
      | .panic => .panic : Res Unit (St σ)) = .err () st' := by
    intro m hm
    rcases Buf.step_same t {} with h | ⟨s, h, _⟩
    · rw [h]
      cases Buf.step true t {} with
      | ok b' => left; refine ⟨rfl, ?_⟩; intro st' h; cases h; exact hm
      | err e b' => right; exact ⟨_, rfl⟩
      | panic => left; exact ⟨rfl, fun _ h => by cases h⟩
    · right; rw [h]; exact ⟨_, rfl⟩
  obtain ⟨buf, mode, s⟩ := st
  cases buf with
  | some x => cases x with
    | value b => exact same_buffered t b _ hst
    | _ => exact .inr ⟨_, rfl⟩
  | none => cases mode with
    | any => exact h _ hst
    | enum q =>
      have hq : q = [] := hst
      subst hq
      exact hf _ hst
    | _ => exact hfb _ hst

theorem same_bufferOrEnd (t : Token) {a b : Act σ} (h : Same a b) : SameC (bufferOrEndA C rel t a) (bufferOrEnd C t b) := by
  unfold bufferOrEndA
  rw [stepD_rel]
  refine same_tryCatch ?_
  intro st hst
  obtain ⟨buf, mode, s⟩ := st
  cases buf with
  | none => exact same_bind h (same_toMode (.done true) trivial) _ hst
  | some x => cases x with
    | value b =>
      simp only []
      rcases Buf.step_same t b with h | ⟨s, h, _⟩
      · rw [h]
        cases Buf.step true t b with
        | ok b' =>
          simp only []
          split
          · exact same_put C _ _ _ hst
          · left; refine ⟨rfl, ?_⟩; intro st' h; cases h; exact hst
        | err e b' => right; exact ⟨_, rfl⟩
        | panic => left; exact ⟨rfl, fun _ h => by cases h⟩
      · right; rw [h]; exact ⟨_, rfl⟩
    | _ => exact .inr ⟨_, rfl⟩

theorem same_ok : Same (.ok : Act σ) .ok := by
  intro st hst; left; refine ⟨rfl, ?_⟩; intro st' h; cases h; exact hst

theorem sameC_ok : SameC (.ok : Act σ) .ok := by
  intro st hst; left; refine ⟨rfl, ?_⟩; rintro st' (h | h) <;> cases h; exact hst

/-- An action that is the same with `alloc` and without, and queues no variants. -/
theorem same_self {a : Act σ} (h : ∀ st st', a st = .ok st' → NoQ st.mode → NoQ st'.mode) : Same a a :=
  fun st hst => .inl ⟨rfl, fun st' h' => h st st' h' hst⟩

theorem withLabel_same (l : Label) (st : St σ) (k : Label → Res Unit (St σ)) :
    withLabel rel l st k = k l.toOwned ∨ ∃ st', withLabel rel l st k = .err () st' := by
  unfold withLabel Label.asStaticStr Label.toOwned
  by_cases h : l.backing = .static
  · left; simp [h]
  · right; exact ⟨st, by simp [h]; rfl⟩

theorem withMeta_same (m : Meta) (st : St σ) (k : Meta → Res Unit (St σ)) :
    withMeta rel m st k = k (ownMeta m) ∨ ∃ st', withMeta rel m st k = .err () st' := by
  rw [← withMeta_true (B := { alloc := true }) rfl m st k]
  unfold withMeta
  cases m.label with
  | none => exact .inl rfl
  | some l => exact withLabel_same l st _

theorem same_cow {α : Type} (f : List α) (c : Buf.Cow α) :
    (∀ c', c.push false f = .ok c' → c.push true f = .ok c') := by
  intro c' h
  rcases Buf.push_same f c with h' | h'
  · rw [← h', h]
  · rw [h'] at h; cases h

theorem same_withText (f g : Buf.Cow Char → Except Buf.Err (Buf.Cow Char)) (h : ∀ c c', f c = .ok c' → g c = .ok c') :
    Same (withTextA rel f : Act σ) (withText g) := by
  intro st hst
  unfold withTextA withText
  obtain ⟨buf, mode, s⟩ := st
  cases buf with
  | none => exact .inr ⟨_, rfl⟩
  | some x => cases x with
    | text b =>
      simp only []
      cases hf : f b with
      | ok b' => rw [h _ _ hf]; left; refine ⟨rfl, ?_⟩; intro st' h; cases h; exact hst
      | error e => exact .inr ⟨_, rfl⟩
    | _ => exact .inr ⟨_, rfl⟩

theorem same_withBinary (f g : Buf.Cow UInt8 → Except Buf.Err (Buf.Cow UInt8)) (h : ∀ c c', f c = .ok c' → g c = .ok c') :
    Same (withBinaryA rel f : Act σ) (withBinary g) := by
  intro st hst
  unfold withBinaryA withBinary
  obtain ⟨buf, mode, s⟩ := st
  cases buf with
  | none => exact .inr ⟨_, rfl⟩
  | some x => cases x with
    | binary b =>
      simp only []
      cases hf : f b with
      | ok b' => rw [h _ _ hf]; left; refine ⟨rfl, ?_⟩; intro st' h; cases h; exact hst
      | error e => exact .inr ⟨_, rfl⟩
    | _ => exact .inr ⟨_, rfl⟩

theorem same_putBuffer (b : Buffered) : Same (putBuffer b : Act σ) (putBuffer b) := by
  refine same_self ?_
  intro st st' h hst
  unfold putBuffer at h
  split at h
  · cases h; exact hst
  · cases h

theorem same_finish : Same (finish : Act σ) finish := by
  refine same_self ?_
  intro st st' h hst
  unfold finish at h
  split at h
  · cases h; exact hst
  · cases h

theorem same_recordField (tg : Option Tag) (l : Label) : Same
    (fun st : St σ => match st.buf, st.mode with
      | none, .record _ => withLabel rel l st fun l => .ok { st with mode := .record (some (tg, l)) }
      | none, .vrecord _ => withLabel rel l st fun l => .ok { st with mode := .vrecord (some (tg, l)) }
      | _, _ => .err () st)
    (fun st => match st.buf, st.mode with
      | none, .record _ => .ok { st with mode := .record (some (tg, l.toOwned)) }
      | none, .vrecord _ => .ok { st with mode := .vrecord (some (tg, l.toOwned)) }
      | _, _ => .err () st) := by
  intro st hst
  obtain ⟨buf, mode, s⟩ := st
  have hk : ∀ (m : Label → Mode), NoQ (m l.toOwned) → ∀ st : St σ,
      (withLabel rel l st (fun l => .ok { st with mode := m l }) = .ok { st with mode := m l.toOwned } ∧
        ∀ st', withLabel rel l st (fun l => .ok { st with mode := m l }) = .ok st' → NoQ st'.mode) ∨
      ∃ st', withLabel rel l st (fun l => .ok { st with mode := m l }) = .err () st' := by
    intro m hm st
    rcases withLabel_same l st (fun l => .ok { st with mode := m l }) with h | h
    · left; rw [h]; refine ⟨rfl, ?_⟩; intro st' h'; cases h'; exact hm
    · exact .inr h
  cases buf with
  | some b => exact .inr ⟨_, rfl⟩
  | none => cases mode with
    | record f => exact hk (fun l => .record (some (tg, l))) trivial _
    | vrecord f => exact hk (fun l => .vrecord (some (tg, l))) trivial _
    | _ => exact .inr ⟨_, rfl⟩

theorem same_textEnd : Same
    (fun st : St σ => match st.buf with
      | some (.text b) =>
        match b.asBorrowed with
        | some s => putA C rel (.text true s) (textArg true s) { st with buf := none }
        | none => putA C rel (.text false b.content) (textArg false b.content) { st with buf := none }
      | _ => .err () st)
    (fun st => match st.buf with
      | some (.text b) =>
        match b.asBorrowed with
        | some s => put C (.text true s) (textArg true s) { st with buf := none }
        | none => put C (.text false b.content) (textArg false b.content) { st with buf := none }
      | _ => .err () st) := by
  intro st hst
  obtain ⟨buf, mode, s⟩ := st
  cases buf with
  | none => exact .inr ⟨_, rfl⟩
  | some x => cases x with
    | text b =>
      simp only []
      cases b.asBorrowed with
      | some s => exact same_put C _ _ _ hst
      | none => exact same_put C _ _ _ hst
    | _ => exact .inr ⟨_, rfl⟩

theorem same_binaryEnd : Same
    (fun st : St σ => match st.buf with
      | some (.binary b) =>
        match b.asBorrowed with
        | some s => putA C rel (.binary true s) (binaryArg true s) { st with buf := none }
        | none => putA C rel (.binary false b.content) (binaryArg false b.content) { st with buf := none }
      | _ => .err () st)
    (fun st => match st.buf with
      | some (.binary b) =>
        match b.asBorrowed with
        | some s => put C (.binary true s) (binaryArg true s) { st with buf := none }
        | none => put C (.binary false b.content) (binaryArg false b.content) { st with buf := none }
      | _ => .err () st) := by
  intro st hst
  obtain ⟨buf, mode, s⟩ := st
  cases buf with
  | none => exact .inr ⟨_, rfl⟩
  | some x => cases x with
    | binary b =>
      simp only []
      cases b.asBorrowed with
      | some s => exact same_put C _ _ _ hst
      | none => exact same_put C _ _ _ hst
    | _ => exact .inr ⟨_, rfl⟩

theorem same_tag (m : Meta) : Same
    (fun st : St σ => match st.mode with
      | .enum q => (nestA C rel q (cb C (.variantTag (cloneMeta m))) st).bind (toMode (.done true))
      | _ => putA C rel (.tag (cloneMeta m)) { borrowed := false, prog := .ofToks [.tag m] } st)
    (fun st => match st.mode with
      | .enum q => (nest C q (cb C (.variantTag (cloneMeta m))) st).bind (toMode (.done true))
      | _ => put C (.tag (cloneMeta m)) { borrowed := false, prog := .ofToks [.tag m] } st) := by
  intro st hst
  obtain ⟨buf, mode, s⟩ := st
  cases mode with
  | enum q =>
    have hq : q = [] := hst
    subst hq
    exact same_cb_to C _ (.done true) trivial _ hst
  | _ => exact same_put C _ _ _ hst

theorem same_fun {a b : Act σ} (h : ∀ st, NoQ st.mode → (a st = b st ∧ (∀ st', a st = .ok st' → NoQ st'.mode)) ∨
    ∃ st', a st = .err () st') : Same a b := h

theorem same_call (t : Token) : SameC (callA C rel t) (call C t) := by
  cases t with
  | null => exact same_bufferOr _ (same_put C _ _)
  | bool b => exact same_bufferOr _ (same_put C _ _)
  | int t v => exact same_bufferOr _ (same_put C _ _)
  | f32 b => exact same_bufferOr _ (same_put C _ _)
  | f64 b => exact same_bufferOr _ (same_put C _ _)
  | textBegin n => exact same_bufferOr _ (same_putBuffer _)
  | textFragment f => exact same_bufferOr _ (same_withText _ _ (same_cow f))
  | textFragmentComputed f =>
    exact same_bufferOr _ (same_withText _ _ fun c c' h => by cases h)
  | textEnd => exact same_bufferOr _ (same_textEnd C)
  | binaryBegin n => exact same_bufferOr _ (same_putBuffer _)
  | binaryFragment f => exact same_bufferOr _ (same_withBinary _ _ (same_cow f))
  | binaryFragmentComputed f =>
    exact same_bufferOr _ (same_withBinary _ _ fun c c' h => by cases h)
  | binaryEnd => exact same_bufferOr _ (same_binaryEnd C)
  | tag m => exact same_bufferOr _ (same_tag C m)
  | seqBegin n => exact same_bufferOrBegin _ (same_cb_to C _ _ trivial) (same_err fun st => ⟨st, rfl⟩)
  | seqValueBegin => exact sameC_ok
  | seqValueEnd => exact sameC_ok
  | seqEnd =>
    refine same_bufferOrEnd C _ (same_self ?_)
    intro st st' h hst
    split at h
    · exact cb_keeps C h hst
    · cases h
  | mapBegin n => exact same_bufferOrBegin _ (same_cb_to C _ _ trivial) (same_err fun st => ⟨st, rfl⟩)
  | mapKeyBegin =>
    refine same_bufferOr _ (same_self ?_)
    intro st st' h hst
    split at h
    · cases h; trivial
    · cases h
  | mapKeyEnd => exact same_bufferOr _ same_ok
  | mapValueBegin =>
    refine same_bufferOr _ (same_self ?_)
    intro st st' h hst
    split at h
    · cases h; trivial
    · cases h
  | mapValueEnd => exact same_bufferOr _ same_ok
  | mapEnd =>
    refine same_bufferOrEnd C _ (same_self ?_)
    intro st st' h hst
    split at h
    · exact cb_keeps C h hst
    · cases h
  | enumBegin m =>
    refine same_bufferOrBegin _ (same_cb_to C _ _ rfl) (same_err fun st => ?_)
    rcases withMeta_same m st (fun m => pushBack rel [] m st) with h | h
    · exact ⟨_, h⟩
    · exact h
  | enumEnd m =>
    refine same_bufferOrEnd C _ (same_fun ?_)
    intro st hst
    obtain ⟨buf, mode, s⟩ := st
    cases mode with
    | enum q =>
      have hq : q = [] := hst
      subst hq
      exact .inl ⟨rfl, fun st' h => by cases h⟩
    | done ok => exact same_finish _ hst
    | _ => exact .inr ⟨_, rfl⟩
  | taggedBegin m =>
    refine same_bufferOrBegin _ (same_fun ?_) (same_fun ?_)
    · intro st hst
      rcases withMeta_same m st (fun m => .ok { st with mode := .tagged m }) with h | h
      · left; rw [h]; refine ⟨rfl, ?_⟩; intro st' h'; cases h'; trivial
      · exact .inr h
    · intro st hst
      rcases withMeta_same m st (fun m => .ok { st with mode := .vtagged m [] }) with h | h
      · left; rw [h]; refine ⟨rfl, ?_⟩; intro st' h'; cases h'; rfl
      · exact .inr h
  | taggedEnd m => exact same_bufferOrEnd C _ same_finish
  | recordBegin m n => exact same_bufferOrBegin _ (same_cb_to C _ _ trivial) (same_cb_to C _ _ trivial)
  | recordValueBegin tg l => exact same_bufferOr _ (same_recordField tg l)
  | recordValueEnd tg l => exact same_bufferOr _ same_ok
  | recordEnd m =>
    refine same_bufferOrEnd C _ (same_self ?_)
    intro st st' h hst
    split at h
    · exact cb_keeps C h hst
    · exact cb_keeps C h hst
    · cases h
  | tupleBegin m n => exact same_bufferOrBegin _ (same_cb_to C _ _ trivial) (same_cb_to C _ _ trivial)
  | tupleValueBegin tg i =>
    refine same_bufferOr _ (same_self ?_)
    intro st st' h hst
    split at h
    · cases h; trivial
    · cases h; trivial
    · cases h
  | tupleValueEnd tg i => exact same_bufferOr _ same_ok
  | tupleEnd m =>
    refine same_bufferOrEnd C _ (same_self ?_)
    intro st st' h hst
    split at h
    · exact cb_keeps C h hst
    · exact cb_keeps C h hst
    · cases h
  | tagHint t => exact sameC_ok
  | recordTupleBegin m n => exact same_bufferOrBegin _ (same_cb_to C _ _ trivial) (same_cb_to C _ _ trivial)
  | recordTupleValueBegin tg l i => exact same_bufferOr _ (same_recordField tg l)
  | recordTupleValueEnd tg l i => exact same_bufferOr _ same_ok
  | recordTupleEnd m =>
    refine same_bufferOrEnd C _ (same_self ?_)
    intro st st' h hst
    split at h
    · exact cb_keeps C h hst
    · exact cb_keeps C h hst
    · cases h

/-- A run without `alloc`: what happens with it, or it fails and the stream is not used any more. -/
def SameR (a b : Outcome (St σ)) : Prop :=
  (a = b ∧ ∀ ok st', a = .done ok st' → NoQ st'.mode) ∨ ∃ st', a = .done false st' ∧ st'.mode = .done false

theorem same_byMode (v : Prog) (c : Bool) {go go' : St σ → Outcome (St σ)}
    (hg : ∀ st, NoQ st.mode → SameR (go st) (go' st)) : ∀ (st : St σ), NoQ st.mode → SameR
      (match st.mode with
        | .enum _ => (match go st with
          | .done true st => .done true st
          | .done false st => .done false { st with mode := .done false }
          | .panicked => .panicked)
        | _ => (tryCatch (putA C rel (.value ⟨!c, v⟩) ⟨!c, v⟩) st).outcome)
      (match st.mode with
        | .enum _ => (match go' st with
          | .done true st => .done true st
          | .done false st => .done false { st with mode := .done false }
          | .panicked => .panicked)
        | _ => (tryCatch (put C (.value ⟨!c, v⟩) ⟨!c, v⟩) st).outcome) := by
  intro st hst
  have hput : SameR ((tryCatch (putA C rel (.value ⟨!c, v⟩) ⟨!c, v⟩) st).outcome)
      ((tryCatch (put C (.value ⟨!c, v⟩) ⟨!c, v⟩) st).outcome) := by
    rcases same_tryCatch (same_put C (.value ⟨!c, v⟩) ⟨!c, v⟩) st hst with ⟨h1, h2⟩ | ⟨st', h1, h2⟩
    · left
      rw [← h1]
      refine ⟨rfl, ?_⟩
      cases ht : tryCatch (putA C rel (.value ⟨!c, v⟩) ⟨!c, v⟩) st with
      | ok s => intro ok st' h; cases h; exact h2 _ (.inl ht)
      | err e s => intro ok st' h; cases h; exact h2 _ (.inr ht)
      | panic => intro ok st' h; cases h
    · right; rw [h1]; exact ⟨st', rfl, h2⟩
  obtain ⟨buf, mode, s⟩ := st
  cases mode with
  | enum q =>
    rcases hg { buf, mode := .enum q, s } hst with ⟨h1, h2⟩ | ⟨st', h1, h2⟩
    · left
      simp only []
      rw [← h1]
      cases hgo : go { buf, mode := .enum q, s } with
      | done ok st' => cases ok with
        | true => refine ⟨rfl, ?_⟩; intro ok st'' h; cases h; exact h2 _ _ hgo
        | false => refine ⟨rfl, ?_⟩; intro ok st'' h; cases h; trivial
      | panicked => exact ⟨rfl, fun _ _ h => by cases h⟩
    · right; simp only []; rw [h1]; exact ⟨_, rfl, rfl⟩
  | _ => exact hput

theorem stepB_guarded (alloc : Bool) : Buf.stepB alloc = guarded (Buf.step alloc) := by
  funext t x; unfold Buf.stepB guarded; split <;> cases Buf.step alloc t x.1 <;> rfl

theorem same_delegate (v : Prog) (hv : v.Propagates) (c : Bool) {go go' : St σ → Outcome (St σ)}
    (hg : ∀ st, NoQ st.mode → SameR (go st) (go' st)) (st : St σ) (hst : NoQ st.mode) :
    SameR (delegateA C rel v c go st) (delegate C v c go' st) := by
  have hmode := same_byMode C v c hg st hst
  unfold delegateA delegate
  obtain ⟨buf, mode, s⟩ := st
  cases buf with
  | none => exact hmode
  | some x => cases x with
    | value b =>
      simp only []
      have hb : bufValueA rel v c b = bufValue v c b ∨ ∃ b', bufValueA rel v c b = .done false b' := by
        unfold bufValueA bufValue
        rw [stepD_rel]
        rcases Buf.exec_same v (if c then .computed .base else .base) (b, false) hv with h | ⟨s, h, _⟩
        · left
          rw [show Buf.stepB false = guarded (Buf.step false) from stepB_guarded false,
            show Buf.stepB true = guarded (Buf.step true) from stepB_guarded true] at h
          rw [h]
        · right
          rw [show Buf.stepB false = guarded (Buf.step false) from stepB_guarded false] at h
          exact ⟨s, by rw [h]; rfl⟩
      rcases hb with h | ⟨b', h⟩
      · rw [h]
        cases bufValue v c b with
        | done ok b' => cases ok with
          | true => left; refine ⟨rfl, ?_⟩; intro ok st'' h; cases h; exact hst
          | false => right; exact ⟨_, rfl, rfl⟩
        | panicked => left; exact ⟨rfl, fun _ _ h => by cases h⟩
      · right; rw [h]; exact ⟨_, rfl, rfl⟩
    | _ => exact hmode

theorem same_exec (p : Prog) : ∀ (c : Bool) (st : St σ), p.Propagates → NoQ st.mode →
    SameR (execA C rel p c st) (exec C p c st) := by
  induction p with
  | ret ok => intro c st _ hst; left; refine ⟨rfl, ?_⟩; intro ok st' h; cases h; exact hst
  | call t k ih =>
    rintro c st ⟨h0, h1⟩ hst
    simp only [execA, exec]
    rcases same_call C (if c then computedTok t else t) st hst with ⟨h2, h3⟩ | ⟨st', h2, h3⟩
    · rw [← h2]
      cases hc : callA C rel (if c then computedTok t else t) st with
      | ok s => exact ih true c s h1 (h3 _ (.inl hc))
      | err e s => simp only [h0]; left; refine ⟨rfl, ?_⟩; intro ok st' h; cases h; exact h3 _ (.inr hc)
      | panic => left; exact ⟨rfl, fun _ _ h => by cases h⟩
    · right; rw [h2]; simp only [h0]; exact ⟨st', rfl, h3⟩
  | value v k ihv ih =>
    rintro c st ⟨hv, h0, h1⟩ hst
    simp only [execA, exec]
    have key : SameR (if c then execA C rel v true st else delegateA C rel v false (execA C rel v false) st)
        (if c then exec C v true st else delegate C v false (exec C v false) st) := by
      cases c with
      | true => exact ihv true st hv hst
      | false => exact same_delegate C v hv false (fun st hst => ihv false st hv hst) st hst
    rcases key with ⟨h2, h3⟩ | ⟨st', h2, h3⟩
    · rw [← h2]
      revert h3
      generalize (if c then execA C rel v true st else delegateA C rel v false (execA C rel v false) st) = r
      intro h3
      cases r with
      | done ok st' => cases ok with
        | true => exact ih true c st' h1 (h3 _ _ rfl)
        | false => simp only [h0]; left; refine ⟨rfl, ?_⟩; intro ok st'' h; cases h; exact h3 _ _ rfl
      | panicked => left; exact ⟨rfl, fun _ _ h => by cases h⟩
    · right; rw [h2]; simp only [h0]; exact ⟨st', rfl, h3⟩
  | valueComputed v k ihv ih =>
    rintro c st ⟨hv, h0, h1⟩ hst
    simp only [execA, exec]
    have key := same_delegate C v hv true (fun st hst => ihv true st hv hst) st hst
    rcases key with ⟨h2, h3⟩ | ⟨st', h2, h3⟩
    · rw [← h2]
      revert h3
      generalize delegateA C rel v true (execA C rel v true) st = r
      intro h3
      cases r with
      | done ok st' => cases ok with
        | true => exact ih true c st' h1 (h3 _ _ rfl)
        | false => simp only [h0]; left; refine ⟨rfl, ?_⟩; intro ok st'' h; cases h; exact h3 _ _ rfl
      | panicked => left; exact ⟨rfl, fun _ _ h => by cases h⟩
    · right; rw [h2]; simp only [h0]; exact ⟨st', rfl, h3⟩

end

end Sval.Nested

namespace Sval
open Nested

theorem Nested.C71_rel {σ : Type} (C : Cb → σ → Res Unit σ) (computed : Bool) (p : Prog) (hp : p.Propagates) (s : σ) :
    streamA C rel computed p s = stream C computed p s ∨ ∃ s', streamA C rel computed p s = .done false s' := by
  unfold streamA stream
  rcases same_exec C p computed { s } hp trivial with ⟨h, _⟩ | ⟨st', h, hm⟩
  · left; rw [h]; rfl
  · right; rw [h]; exact ⟨st'.s, by simp [hm]⟩

end Sval
