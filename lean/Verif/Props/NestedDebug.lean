import Verif.Props.NestedNoAlloc

set_option autoImplicit false

/-!
# Recursive streams without an allocator, in every build: C71, C72
-/

namespace Sval.Nested

/-- Does anything panic for lack of an allocator? -/
def Build.panics (B : Build) : Bool := B.bufferPanics || B.nestedPanics

section
variable {σ : Type} (C : Cb → σ → Res Unit σ) {B : Build}

/-- What an action does: the same as another one, or it panics where that one fails. -/
def Pan (B : Build) (a b : Act σ) : Prop := ∀ st, a st = b st ∨ (B.panics = true ∧ a st = .panic ∧ ∃ st', b st = .err () st')

/-- The same, and after that failure the stream is not used any more. -/
def PanC (B : Build) (a b : Act σ) : Prop :=
  ∀ st, a st = b st ∨ (B.panics = true ∧ a st = .panic ∧ ∃ st', b st = .err () st' ∧ st'.mode = .done false)

theorem Pan.refl (a : Act σ) : Pan B a a := fun _ => .inl rfl

theorem Pan.of_eq {a b : Act σ} (h : a = b) : Pan B a b := h ▸ Pan.refl a

theorem Pan.tryCatch {a b : Act σ} (h : Pan B a b) : PanC B (tryCatch a) (tryCatch b) := by
  intro st
  unfold Nested.tryCatch
  rcases h st with h | ⟨hp, h1, st', h2⟩
  · left; rw [h]
  · right; rw [h1, h2]; exact ⟨hp, rfl, _, rfl, rfl⟩

theorem Pan.bind {a b : Act σ} (h : Pan B a b) (f : Act σ) : Pan B (fun st => (a st).bind f) (fun st => (b st).bind f) := by
  intro st
  beta_reduce
  rcases h st with h | ⟨hp, h1, st', h2⟩
  · left; rw [h]
  · right; rw [h1, h2]; exact ⟨hp, rfl, _, rfl⟩

theorem lack_cases (st : St σ) : B.lack st = .err () st ∨ (B.panics = true ∧ B.lack st = .panic) := by
  unfold Build.lack Build.panics
  cases B.nestedPanics with
  | true => right; simp
  | false => left; simp

theorem lackBuf_cases (st : St σ) : B.lackBuf st = .err () st ∨ (B.panics = true ∧ B.lackBuf st = .panic) := by
  unfold Build.lackBuf Build.panics
  cases B.bufferPanics with
  | true => right; simp
  | false => left; simp

theorem stepD_cases (hB : B.alloc = false) (t : Token) (b : Buf.St) :
    Buf.stepD B.alloc B.bufferPanics t b = Buf.step false t b ∨
    (B.panics = true ∧ Buf.stepD B.alloc B.bufferPanics t b = .panic ∧ ∃ b', Buf.step false t b = .err .noAlloc b') := by
  rw [hB]
  unfold Build.panics
  cases B.bufferPanics with
  | false => left; exact Buf.stepD_quiet false t b
  | true =>
    rcases Buf.stepD_panics false t b with ⟨h, _⟩ | ⟨h, h'⟩
    · exact .inl h
    · exact .inr ⟨rfl, h, h'⟩

theorem stepD_rel' : Buf.stepD false rel.bufferPanics = Buf.step false := stepD_rel

theorem nestA_false (hB : B.alloc = false) (q : List Meta) (a : Act σ) : nestA C B q a = nestA C rel q a := by
  simp [nestA, hB]

theorem putA_false (hB : B.alloc = false) (any : Cb) (a : Arg) : putA C B any a = putA C rel any a := by
  funext st; unfold putA; simp only [nestA_false C hB]

theorem emptyA_false (hB : B.alloc = false) (q : List Meta) : emptyA B q = emptyA rel q := by simp [emptyA, hB]

theorem pan_buffered (hB : B.alloc = false) (t : Token) (b : Buf.St) (st : St σ) :
    buffered st (Buf.stepD B.alloc B.bufferPanics t b) = buffered st (Buf.stepD rel.alloc rel.bufferPanics t b) ∨
    (B.panics = true ∧ buffered st (Buf.stepD B.alloc B.bufferPanics t b) = .panic ∧
      ∃ st', buffered st (Buf.stepD rel.alloc rel.bufferPanics t b) = .err () st') := by
  rw [stepD_rel]
  rcases stepD_cases hB t b with h | ⟨hp, h1, b', h2⟩
  · left; rw [h]
  · right; rw [h1, h2]; exact ⟨hp, rfl, _, rfl⟩

theorem pan_bufferOr (hB : B.alloc = false) (t : Token) {a b : Act σ} (h : Pan B a b) :
    PanC B (bufferOrA B t a) (bufferOrA rel t b) := by
  refine Pan.tryCatch ?_
  intro st
  obtain ⟨buf, mode, s⟩ := st
  cases buf with
  | none => exact h _
  | some x => cases x with
    | value b => exact pan_buffered hB t b _
    | _ => exact h _

theorem pan_bufferOrBegin (hB : B.alloc = false) (t : Token) {a b : Act σ} {f g : List Meta → Act σ} (h : Pan B a b)
    (hf : ∀ q, Pan B (f q) (g q)) : PanC B (bufferOrBeginA B t a f) (bufferOrBeginA rel t b g) := by
  refine Pan.tryCatch ?_
  intro st
  obtain ⟨buf, mode, s⟩ := st
  cases buf with
  | some x => cases x with
    | value b => exact pan_buffered hB t b _
    | _ => exact .inl rfl
  | none =>
    cases mode with
    | any => exact h _
    | enum q => exact hf q _
    | _ =>
      beta_reduce
      simp only [stepD_rel']
      rcases stepD_cases hB t {} with h | ⟨hp, h1, b', h2⟩
      · left; simp only [h]
      · right; simp only [h1, h2]; exact ⟨hp, trivial, _, rfl⟩

theorem pan_bufferOrEnd (hB : B.alloc = false) (t : Token) (a : Act σ) {b : Act σ} (h : a = b) :
    PanC B (bufferOrEndA C B t a) (bufferOrEndA C rel t b) := by
  subst h
  refine Pan.tryCatch ?_
  intro st
  obtain ⟨buf, mode, s⟩ := st
  cases buf with
  | none => exact .inl rfl
  | some x => cases x with
    | value b =>
      beta_reduce
      simp only [stepD_rel', putA_false C hB]
      rcases stepD_cases hB t b with h | ⟨hp, h1, b', h2⟩
      · left; simp only [h]
      · right; simp only [h1, h2]; exact ⟨hp, trivial, _, rfl⟩
    | _ => exact .inl rfl

theorem pan_withLabel (hB : B.alloc = false) (l : Label) (st : St σ) (k k' : Label → Res Unit (St σ)) (hk : ∀ l,
      k l = k' l ∨ (B.panics = true ∧ k l = .panic ∧ ∃ st', k' l = .err () st')) :
    withLabel B l st k = withLabel rel l st k' ∨
    (B.panics = true ∧ withLabel B l st k = .panic ∧ ∃ st', withLabel rel l st k' = .err () st') := by
  unfold withLabel
  simp only [hB, Bool.false_eq_true, if_false]
  cases l.asStaticStr with
  | some s => exact hk _
  | none =>
    rcases lack_cases (B := B) st with h | ⟨hp, h⟩
    · left; exact h
    · right; exact ⟨hp, h, st, rfl⟩

theorem pan_withMeta (hB : B.alloc = false) (m : Meta) (st : St σ) (k k' : Meta → Res Unit (St σ)) (hk : ∀ l,
      k l = k' l ∨ (B.panics = true ∧ k l = .panic ∧ ∃ st', k' l = .err () st')) :
    withMeta B m st k = withMeta rel m st k' ∨
    (B.panics = true ∧ withMeta B m st k = .panic ∧ ∃ st', withMeta rel m st k' = .err () st') := by
  unfold withMeta
  cases m.label with
  | none => exact hk _
  | some l => exact pan_withLabel hB l st _ _ fun l => hk _

theorem pan_pushBack (hB : B.alloc = false) (q : List Meta) (m : Meta) (st : St σ) :
    pushBack B q m st = pushBack rel q m st ∨
    (B.panics = true ∧ pushBack B q m st = .panic ∧ ∃ st', pushBack rel q m st = .err () st') := by
  unfold pushBack
  simp only [hB, Bool.false_eq_true, if_false]
  rcases lack_cases (B := B) st with h | ⟨hp, h⟩
  · left; exact h
  · right; exact ⟨hp, h, st, rfl⟩

theorem pan_withText (f : Buf.Cow Char → Except Buf.Err (Buf.Cow Char)) :
    Pan B (withTextA B f : Act σ) (withTextA rel f) := by
  intro st
  unfold withTextA
  cases hb : st.buf with
  | none => exact .inl rfl
  | some x => cases x with
    | text b =>
      simp only []
      cases f b with
      | ok b' => exact .inl rfl
      | error e =>
        rcases lackBuf_cases (B := B) st with h | ⟨hp, h⟩
        · left; exact h
        · right; exact ⟨hp, h, st, rfl⟩
    | _ => exact .inl rfl

theorem pan_withBinary (f : Buf.Cow UInt8 → Except Buf.Err (Buf.Cow UInt8)) :
    Pan B (withBinaryA B f : Act σ) (withBinaryA rel f) := by
  intro st
  unfold withBinaryA
  cases hb : st.buf with
  | none => exact .inl rfl
  | some x => cases x with
    | binary b =>
      simp only []
      cases f b with
      | ok b' => exact .inl rfl
      | error e =>
        rcases lackBuf_cases (B := B) st with h | ⟨hp, h⟩
        · left; exact h
        · right; exact ⟨hp, h, st, rfl⟩
    | _ => exact .inl rfl

theorem pan_recordField (hB : B.alloc = false) (tg : Option Tag) (l : Label) : Pan B
    (fun st : St σ => match st.buf, st.mode with
      | none, .record _ => withLabel B l st fun l => .ok { st with mode := .record (some (tg, l)) }
      | none, .vrecord _ => withLabel B l st fun l => .ok { st with mode := .vrecord (some (tg, l)) }
      | _, _ => .err () st)
    (fun st => match st.buf, st.mode with
      | none, .record _ => withLabel rel l st fun l => .ok { st with mode := .record (some (tg, l)) }
      | none, .vrecord _ => withLabel rel l st fun l => .ok { st with mode := .vrecord (some (tg, l)) }
      | _, _ => .err () st) := by
  intro st
  obtain ⟨buf, mode, s⟩ := st
  cases buf with
  | some b => exact .inl rfl
  | none => cases mode with
    | record f => exact pan_withLabel hB l _ _ _ fun _ => .inl rfl
    | vrecord f => exact pan_withLabel hB l _ _ _ fun _ => .inl rfl
    | _ => exact .inl rfl

theorem PanC.refl (a : Act σ) : PanC B a a := fun _ => .inl rfl

theorem pan_call (hB : B.alloc = false) (t : Token) : PanC B (callA C B t) (callA C rel t) := by
  cases t with
  | textFragment f => simp only [callA, hB]; exact pan_bufferOr hB _ (pan_withText _)
  | textFragmentComputed f => simp only [callA, hB]; exact pan_bufferOr hB _ (pan_withText _)
  | binaryFragment f => simp only [callA, hB]; exact pan_bufferOr hB _ (pan_withBinary _)
  | binaryFragmentComputed f => simp only [callA, hB]; exact pan_bufferOr hB _ (pan_withBinary _)
  | seqValueBegin => exact .refl _
  | seqValueEnd => exact .refl _
  | tagHint t => exact .refl _
  | recordValueBegin tg l => exact pan_bufferOr hB _ (pan_recordField hB tg l)
  | recordTupleValueBegin tg l i => exact pan_bufferOr hB _ (pan_recordField hB tg l)
  | enumBegin m =>
    refine pan_bufferOrBegin hB _ (.refl _) ?_
    intro q st
    exact pan_withMeta hB m st _ _ fun m => pan_pushBack hB q m st
  | taggedBegin m =>
    refine pan_bufferOrBegin hB _ ?_ ?_
    · intro st; exact pan_withMeta hB m st _ _ fun m => .inl rfl
    · intro q st; exact pan_withMeta hB m st _ _ fun m => .inl rfl
  | _ =>
    simp only [callA, putA_false C hB, nestA_false C hB, emptyA_false hB, endlessA]
    first
      | exact pan_bufferOr hB _ (.refl _)
      | exact pan_bufferOrBegin hB _ (.refl _) fun _ => .refl _
      | exact pan_bufferOrEnd C hB _ _ rfl

/-- Runs, likewise. -/
def PanR (B : Build) (a b : Outcome (St σ)) : Prop :=
  a = b ∨ (B.panics = true ∧ a = .panicked ∧ ∃ st', b = .done false st' ∧ st'.mode = .done false)

theorem pan_bufValue (hB : B.alloc = false) (v : Prog) (hv : v.Propagates) (c : Bool) (b : Buf.St) :
    bufValueA B v c b = bufValueA rel v c b ∨
    (B.panics = true ∧ bufValueA B v c b = .panicked ∧ ∃ b', bufValueA rel v c b = .done false b') := by
  unfold bufValueA
  rw [stepD_rel, hB]
  unfold Build.panics
  cases B.bufferPanics with
  | false => left; rw [show Buf.stepD false false = Buf.step false from by funext t s; exact Buf.stepD_quiet _ t s]
  | true =>
    rcases Buf.execD_panics false v (if c then .computed .base else .base) (b, false) hv with ⟨h, _⟩ | ⟨h, _, s, hs, _⟩
    · left; rw [h, stepB_guarded]
    · right; rw [stepB_guarded] at hs; exact ⟨rfl, by simp [h], s, by simp [hs]⟩

theorem panC_outcome {a b : Act σ} (h : PanC B a b) (st : St σ) : PanR B (a st).outcome (b st).outcome := by
  rcases h st with h | ⟨hp, h1, st', h2, h3⟩
  · left; rw [h]
  · right; rw [h1, h2]; exact ⟨hp, rfl, st', rfl, h3⟩

theorem pan_delegate (hB : B.alloc = false) (v : Prog) (hv : v.Propagates) (c : Bool) {go go' : St σ → Outcome (St σ)}
    (hg : ∀ st, PanR B (go st) (go' st)) (st : St σ) : PanR B (delegateA C B v c go st) (delegateA C rel v c go' st) := by
  unfold delegateA
  have hmode : PanR B
      (match st.mode with
        | .enum _ => (match go st with
          | .done true st => .done true st
          | .done false st => .done false { st with mode := .done false }
          | .panicked => .panicked)
        | _ => (tryCatch (putA C B (.value ⟨!c, v⟩) ⟨!c, v⟩) st).outcome)
      (match st.mode with
        | .enum _ => (match go' st with
          | .done true st => .done true st
          | .done false st => .done false { st with mode := .done false }
          | .panicked => .panicked)
        | _ => (tryCatch (putA C rel (.value ⟨!c, v⟩) ⟨!c, v⟩) st).outcome) := by
    rw [putA_false C hB]
    cases st.mode with
    | enum q =>
      rcases hg st with h | ⟨hp, h1, st', h2, h3⟩
      · left; simp only [h]
      · right; simp only [h1, h2]; exact ⟨hp, trivial, _, rfl, rfl⟩
    | _ => exact .inl rfl
  cases hb : st.buf with
  | none => exact hmode
  | some x => cases x with
    | value b =>
      simp only []
      rcases pan_bufValue hB v hv c b with h | ⟨hp, h1, b', h2⟩
      · left; rw [h]
      · right; rw [h1, h2]; exact ⟨hp, rfl, _, rfl, rfl⟩
    | _ => exact hmode

theorem pan_exec (hB : B.alloc = false) (p : Prog) : ∀ (c : Bool) (st : St σ), p.Propagates →
    PanR B (execA C B p c st) (execA C rel p c st) := by
  induction p with
  | ret ok => intro c st _; exact .inl rfl
  | call t k ih =>
    rintro c st ⟨h0, h1⟩
    simp only [execA]
    rcases pan_call C hB (if c then computedTok t else t) st with h | ⟨hp, h2, st', h3, h4⟩
    · rw [h]
      cases callA C rel (if c then computedTok t else t) st with
      | ok s => exact ih true c s h1
      | err e s => simp only [h0]; exact .inl rfl
      | panic => exact .inl rfl
    · right; rw [h2, h3]; simp only [h0]; exact ⟨hp, trivial, st', rfl, h4⟩
  | value v k ihv ih =>
    rintro c st ⟨hv, h0, h1⟩
    simp only [execA]
    have key : PanR B (if c then execA C B v true st else delegateA C B v false (execA C B v false) st)
        (if c then execA C rel v true st else delegateA C rel v false (execA C rel v false) st) := by
      cases c with
      | true => exact ihv true st hv
      | false => exact pan_delegate C hB v hv false (fun st => ihv false st hv) st
    rcases key with h | ⟨hp, h2, st', h3, h4⟩
    · rw [h]
      generalize (if c then execA C rel v true st else delegateA C rel v false (execA C rel v false) st) = r
      cases r with
      | done ok st' => cases ok with
        | true => exact ih true c st' h1
        | false => simp only [h0]; exact .inl rfl
      | panicked => exact .inl rfl
    · right; rw [h2, h3]; simp only [h0]; exact ⟨hp, trivial, st', rfl, h4⟩
  | valueComputed v k ihv ih =>
    rintro c st ⟨hv, h0, h1⟩
    simp only [execA]
    rcases pan_delegate C hB v hv true (fun st => ihv true st hv) st with h | ⟨hp, h2, st', h3, h4⟩
    · rw [h]
      generalize delegateA C rel v true (execA C rel v true) st = r
      cases r with
      | done ok st' => cases ok with
        | true => exact ih true c st' h1
        | false => simp only [h0]; exact .inl rfl
      | panicked => exact .inl rfl
    · right; rw [h2, h3]; simp only [h0]; exact ⟨hp, trivial, st', rfl, h4⟩

end

end Sval.Nested

namespace Sval
open Nested

/-- C71, for any code that uses `?` and any recursive stream, in any build where a lack of allocator is an error: without an
allocator the stream is given exactly what it is given with one, or the value fails. -/
theorem C71 {σ : Type} (C : Cb → σ → Res Unit σ) (B B' : Build) (hB : B.alloc = false) (hp : B.panics = false) (hB' : B'.alloc = true)
    (computed : Bool) (p : Prog) (h : p.Propagates) (s : σ) :
    streamA C B computed p s = streamA C B' computed p s ∨ ∃ s', streamA C B computed p s = .done false s' := by
  have e : streamA C B computed p s = streamA C rel computed p s := by
    unfold streamA
    rcases pan_exec C hB p computed { s } h with h | ⟨hq, _⟩
    · rw [h]
    · rw [hp] at hq; cases hq
  rw [e, streamA_true C hB']
  exact C71_rel C computed p h s

/-- C71, in any other build: that, or it panics; and where it panics a build without debug assertions fails. -/
theorem C71_debug {σ : Type} (C : Cb → σ → Res Unit σ) (B B' : Build) (hB : B.alloc = false) (hB' : B'.alloc = true)
    (computed : Bool) (p : Prog) (h : p.Propagates) (s : σ) :
    streamA C B computed p s = streamA C B' computed p s ∨ (∃ s', streamA C B computed p s = .done false s') ∨
    (B.panics = true ∧ streamA C B computed p s = .panicked ∧ ∃ s', streamA C rel computed p s = .done false s') := by
  rw [streamA_true C hB']
  rcases pan_exec C hB p computed { s } h with h1 | ⟨hq, h1, st', h2, h3⟩
  · have e : streamA C B computed p s = streamA C rel computed p s := by unfold streamA; rw [h1]
    rw [e]
    rcases C71_rel C computed p h s with h | h
    · exact .inl h
    · exact .inr (.inl h)
  · right; right
    unfold streamA
    rw [h1, h2]
    exact ⟨hq, rfl, st'.s, by simp [h3]⟩

/-- With an allocator all builds do the same. -/
theorem C71_alloc {σ : Type} (C : Cb → σ → Res Unit σ) (B B' : Build) (hB : B.alloc = true) (hB' : B'.alloc = true)
    (computed : Bool) (p : Prog) (s : σ) : streamA C B computed p s = streamA C B' computed p s := by
  rw [streamA_true C hB, streamA_true C hB']

/-- C72 for `sval_buffer`: with its feature `no_debug_assertions` a lack of allocator is an error in every build. -/
theorem C72_buffer (B : Build) (hf : B.bufferFeature = true) (computed : Bool) (p : Prog) :
    Buf.collectD B.alloc B.bufferPanics computed p = Buf.collect B.alloc computed p := by
  rw [show B.bufferPanics = false from by simp [Build.bufferPanics, hf]]
  exact C70_feature _ _ _

/-- C72 is false for `sval_nested`: with both features, and without an allocator, a build with debug assertions panics. -/
theorem C72_fails : ∃ (σ : Type) (C : Cb → σ → Res Unit σ) (B : Build) (p : Prog) (s : σ),
    B.bufferFeature = true ∧ B.nestedFeature = true ∧ p.Propagates ∧ streamA C B false p s = .panicked ∧
    (∃ s', streamA C { B with debugAssertions := false } false p s = .done false s') ∧
    ∃ s', streamA C { B with alloc := true } false p s = .done true s' :=
  ⟨Unit, fun _ s => .ok s, { alloc := false, debugAssertions := true, bufferFeature := true, nestedFeature := true },
    .ofToks [.taggedBegin { label := some (Label.newComputed (t! "T")) }, .null, .taggedEnd { label := some (Label.newComputed (t! "T")) }],
    (), rfl, rfl, by simp [Prog.ofToks, Prog.Propagates], by decide, ⟨(), by decide⟩, ⟨(), by decide⟩⟩

/-- C72 as far as it goes for `sval_nested`: the `cfg` of that name, with the feature of `sval_buffer`, has the effect. -/
theorem C72_partial {σ : Type} (C : Cb → σ → Res Unit σ) (B : Build) (hf : B.bufferFeature = true) (hc : B.cfgFlag = true)
    (computed : Bool) (p : Prog) (h : p.Propagates) (s : σ) :
    streamA C B computed p s = streamA C { B with debugAssertions := false } computed p s := by
  cases hB : B.alloc with
  | true => exact C71_alloc C B { B with debugAssertions := false, alloc := true } hB rfl _ _ _
  | false =>
    have hp : B.panics = false := by simp [Build.panics, Build.bufferPanics, Build.nestedPanics, hf, hc]
    have key : ∀ B : Build, B.alloc = false → B.panics = false → streamA C B computed p s = streamA C rel computed p s := by
      intro B hB hp
      unfold streamA
      rcases pan_exec C hB p computed { s } h with h | ⟨hq, _⟩
      · rw [h]
      · rw [hp] at hq; cases hq
    rw [key B hB hp]
    exact (key _ rfl rfl).symm

theorem Nested.callA_feature {σ : Type} (C : Cb → σ → Res Unit σ) (B : Build) (b : Bool) (t : Token) :
    callA C { B with nestedFeature := b } t = callA C B t := by
  cases t <;> rfl

theorem Nested.execA_feature {σ : Type} (C : Cb → σ → Res Unit σ) (B : Build) (b : Bool) (p : Prog) : ∀ (c : Bool) (st : Nested.St σ),
    execA C { B with nestedFeature := b } p c st = execA C B p c st := by
  induction p with
  | ret ok => intro c st; rfl
  | call t k ih => intro c st; simp only [execA, Nested.callA_feature, ih]
  | value v k ihv ih =>
    intro c st
    simp only [execA, ih, ihv, show execA C { B with nestedFeature := b } v false = execA C B v false from funext (ihv false)]
    rfl
  | valueComputed v k ihv ih =>
    intro c st
    simp only [execA, ih, show execA C { B with nestedFeature := b } v true = execA C B v true from funext (ihv true)]
    rfl

/-- The feature of `sval_nested` itself has no effect at all. -/
theorem C72_exact {σ : Type} (C : Cb → σ → Res Unit σ) (B : Build) (b : Bool) (computed : Bool) (p : Prog) (s : σ) :
    streamA C { B with nestedFeature := b } computed p s = streamA C B computed p s := by
  unfold streamA; rw [execA_feature]

/-! ## Concrete cases -/

/-- A text in two pieces, in a sequence. -/
def twoPieces : Prog := .ofToks [.seqBegin none, .seqValueBegin, .textBegin none, .textFragment (t! "a"),
  .textFragment (t! "b"), .textEnd, .seqValueEnd, .seqEnd]

theorem twoPieces_propagates : twoPieces.Propagates := by simp [twoPieces, Prog.ofToks, Prog.Propagates]

/-- The cases of C71 and C71_debug: the same with an allocator, an error without, a panic with debug assertions. -/
example : streamA (fun _ n => .ok (n + 1)) { alloc := true } false twoPieces 0 = .done true 3 ∧
    streamA (fun _ n => .ok (n + 1)) { alloc := false } false twoPieces 0 = .done false 1 ∧
    streamA (fun _ n => .ok (n + 1)) { alloc := false, debugAssertions := true } false twoPieces 0 = .panicked ∧
    streamA (fun _ n => .ok (n + 1)) { alloc := false, debugAssertions := true } false (.ofToks [.seqBegin none, .seqEnd]) 0 =
      streamA (fun _ n => .ok (n + 1)) { alloc := true } false (.ofToks [.seqBegin none, .seqEnd]) 0 := by decide +kernel

example := C71 (fun _ n => .ok (n + 1)) { alloc := false } { alloc := true } rfl rfl rfl false twoPieces twoPieces_propagates 0
example := C71_debug (fun _ n => .ok (n + 1)) { alloc := false, debugAssertions := true } { alloc := true } rfl rfl false twoPieces
  twoPieces_propagates 0
example := C71_alloc (fun _ n => .ok (n + 1)) { alloc := true, debugAssertions := true } { alloc := true } rfl rfl false twoPieces 0

/-- C72: the feature of `sval_buffer` makes the panic an error, in a buffer. -/
example : Buf.collectD false true false twoPieces = .panic ∧
    Buf.collectD false (Build.bufferPanics { alloc := false, debugAssertions := true, bufferFeature := true }) false twoPieces =
      .err .noAlloc := by decide +kernel
/-- With the `cfg` as well, in a recursive stream. -/
example : streamA (fun _ n => .ok (n + 1)) { alloc := false, debugAssertions := true, bufferFeature := true, cfgFlag := true } false
    twoPieces 0 = .done false 1 :=
  (C72_partial _ { alloc := false, debugAssertions := true, bufferFeature := true, cfgFlag := true } rfl rfl _ _
    twoPieces_propagates _).trans (by decide +kernel)
/-- The feature of `sval_nested` does not help. -/
example : streamA (fun _ n => .ok (n + 1)) { alloc := false, debugAssertions := true, nestedFeature := true } false twoPieces 0 =
    .panicked := (C72_exact _ { alloc := false, debugAssertions := true } true _ _ _).trans (by decide +kernel)

end Sval
