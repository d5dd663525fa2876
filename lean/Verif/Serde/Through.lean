import Verif.Serde.Back

set_option autoImplicit false

/-!
# `impl serde::Serializer for Stream`

`serde/src/to_value.rs:40-634` once more, now as what it is: a serializer, that anything may be serialized with, not
only the trees that `toValue` is defined for. A `Stream` and what it returns for containers (`StreamTuple` and so on)
are one state: the sval stream, how it is wrapped, and the fields of the structs. Which of the structs it is (they
have different methods) is left to Rust's types.
-/

namespace Sval.Serde

/-- The fields of `StreamTuple`, `StreamTupleVariant`, `StreamRecord` and `StreamRecordVariant`:
`serde/src/to_value.rs:52-76`. -/
structure Frame where
  /-- `label`, or `variant_label` and `variant_index` -/
  label : Meta := {}
  /-- `enum_label` -/
  enum : Meta := {}
  /-- `index` -/
  index : Nat := 0

/-- `Stream`: `serde/src/to_value.rs:48-50`. -/
structure Ser (σ : Type) where
  s : σ
  /-- which of the stream's wrappers it is given -/
  w : Wrapper := .base
  frame : Frame := {}

section
variable {σ : Type} (S : Token → σ → σ × Bool)

/-- A call of the stream, with `?`. -/
def emit (t : Token) (st : Ser σ) : Res Unit (Ser σ) :=
  if (S (st.w.tok t) st.s).2 then .ok { st with s := (S (st.w.tok t) st.s).1 }
  else .err () { st with s := (S (st.w.tok t) st.s).1 }

/-- Calls, with `?` after each of them. -/
def emits : List Token → Ser σ → Res Unit (Ser σ)
  | [], st => .ok st
  | t :: ts, st => (emit S t st).bind (emits ts)

/-- Something else is done with the stream, wrapped in `w`. -/
def within (w : Wrapper) (a : Ser σ → Res Unit (Ser σ)) (st : Ser σ) : Res Unit (Ser σ) :=
  match a { s := st.s, w } with
  | .ok st' => .ok { st with s := st'.s }
  | .err e st' => .err e { st with s := st'.s }
  | .panic => .panic

/-- `stream.value_computed(&ToValue(value))?`: `ToValue::stream`, `serde/src/to_value.rs:40-46`, makes a `Stream` of
the stream that it gets. -/
def computed (a : Ser σ → Res Unit (Ser σ)) (st : Ser σ) : Res Unit (Ser σ) :=
  within st.w.computedTarget a st

/-- `stream.value(&ToValue(value))?` -/
def plainly (a : Ser σ → Res Unit (Ser σ)) (st : Ser σ) : Res Unit (Ser σ) :=
  within st.w.valueTarget a st

/-- A call, an element and a call. -/
def around (b : Token) (a : Ser σ → Res Unit (Ser σ)) (e : Token) (st : Ser σ) : Res Unit (Ser σ) :=
  ((emit S b st).bind (computed a)).bind (emit S e)

/-- `serialize_element` and `serialize_field` of tuples: `serde/src/to_value.rs:443-460, 473-490, 503-520` -/
def tupleField (a : Ser σ → Res Unit (Ser σ)) (st : Ser σ) : Res Unit (Ser σ) :=
  (around S (.tupleValueBegin none (idx st.frame.index)) a (.tupleValueEnd none (idx st.frame.index)) st).bind fun st =>
    .ok { st with frame := { st.frame with index := st.frame.index + 1 } }

/-- `serialize_field` of structs: `serde/src/to_value.rs:577-594, 607-624` -/
def recordField (key : Text) (a : Ser σ → Res Unit (Ser σ)) : Ser σ → Res Unit (Ser σ) :=
  around S (.recordValueBegin none (.new key)) a (.recordValueEnd none (.new key))

/-- A container is returned, after these calls. -/
def opening (ts : List Token) (fr : Frame) (st : Ser σ) : Res Unit (Ser σ) :=
  (emits S ts st).bind fun st => .ok { st with frame := fr }

/-- `end(self)`: the container is gone after it. -/
def closing (ts : List Token) (st : Ser σ) : Res Unit (Ser σ) :=
  (emits S ts st).bind fun st => .ok { st with frame := {} }

/-- `impl Serializer for Stream`, `impl SerializeSeq for Stream` and so on: `serde/src/to_value.rs:107-634` -/
def stream : SCall Unit (Ser σ) → Ser σ → Res Unit (Ser σ)
  -- 107-113, 127-188: `stream_value`
  | .bool b => computed (emits S [.bool b])
  | .int t v => computed (emits S [.int t v])
  | .f32 b => computed (emits S [.f32 b])
  | .f64 b => computed (emits S [.f64 b])
  -- `impl Value for char`, `src/data/text.rs:92-101`
  | .char c => computed (emits S [.textBegin (some (utf8Len [c])), .textFragmentComputed [c], .textEnd])
  -- `impl Value for str`, `src/data/text.rs:103-109`
  | .str s => computed (emits S [.textBegin (some (utf8Len s)), .textFragment s, .textEnd])
  -- 190-196: `stream_display`, `src/data/text.rs:45-82`
  | .collectStr s => computed (emits S (.textBegin none :: (s.map .textFragmentComputed ++ [.textEnd])))
  -- 198-200: `BinarySlice`
  | .bytes s => computed (emits S [.binaryBegin (some s.length), .binaryFragment s, .binaryEnd])
  -- 202-204: `None::<()>`
  | .none => computed (emits S [.tag noneMeta])
  -- 206-211: `Some(ToValue(value))`, that streams the value in it with `value`
  | .some a => computed fun st => ((emit S (.taggedBegin someMeta) st).bind (plainly a)).bind (emit S (.taggedEnd someMeta))
  -- 213-215
  | .unit => computed (emits S [.tag unitMeta])
  -- 217-221
  | .unitStruct name => emits S [.tag (named name)]
  -- 223-242
  | .unitVariant name i variant => emits S [.enumBegin (named name), .tag (variantMeta i variant), .enumEnd (named name)]
  -- 244-261
  | .newtypeStruct name a => around S (.taggedBegin (named name)) a (.taggedEnd (named name))
  -- 263-296
  | .newtypeVariant name i variant a => fun st =>
    ((emit S (.enumBegin (named name)) st).bind
      (around S (.taggedBegin (variantMeta i variant)) a (.taggedEnd (variantMeta i variant)))).bind
      (emit S (.enumEnd (named name)))
  -- 298-304, 413-437
  | .seq len => opening S [.seqBegin len] {}
  | .seqElement a => around S .seqValueBegin a .seqValueEnd
  | .seqEnd => closing S [.seqEnd]
  -- 306-316, 439-467
  | .tuple len => opening S [.tupleBegin {} (some len)] {}
  | .tupleElement a => tupleField S a
  | .tupleEnd => fun st => closing S [.tupleEnd st.frame.label] st
  -- 318-332, 469-497
  | .tupleStruct name len => opening S [.tupleBegin (named name) (some len)] { label := named name }
  | .tupleStructField a => tupleField S a
  | .tupleStructEnd => fun st => closing S [.tupleEnd st.frame.label] st
  -- 334-360, 499-530
  | .tupleVariant name i variant len =>
    opening S [.enumBegin (named name), .tupleBegin (variantMeta i variant) (some len)]
      { label := variantMeta i variant, enum := named name }
  | .tupleVariantField a => tupleField S a
  | .tupleVariantEnd => fun st => closing S [.tupleEnd st.frame.label, .enumEnd st.frame.enum] st
  -- 362-368, 532-571
  | .map len => opening S [.mapBegin len] {}
  | .mapKey a => around S .mapKeyBegin a .mapKeyEnd
  | .mapValue a => around S .mapValueBegin a .mapValueEnd
  | .mapEnd => closing S [.mapEnd]
  -- 370-383, 573-601
  | .struct name len => opening S [.recordBegin (named name) (some len)] { label := named name }
  | .structField key a => recordField S key a
  | .structEnd => fun st => closing S [.recordEnd st.frame.label] st
  -- 385-410, 603-634
  | .structVariant name i variant len =>
    opening S [.enumBegin (named name), .recordBegin (variantMeta i variant) (some len)]
      { label := variantMeta i variant, enum := named name }
  | .structVariantField key a => recordField S key a
  | .structVariantEnd => fun st => closing S [.recordEnd st.frame.label, .enumEnd st.frame.enum] st

/-- The result of `ToValue::stream`: the stream's state, and whether it succeeded. `none` if it panicked. -/
def outcome : Res Unit (Ser σ) → Option (σ × Bool)
  | .ok st => some (st.s, true)
  | .err _ st => some (st.s, false)
  | .panic => none

/-- `ToValue::new(ToSerialize::new(v)).stream(stream)`: `serde/src/to_value.rs:40-46`,
`serde/src/to_serialize.rs:42-48`. -/
def through (d : Nat) (v : Prog) (w : Wrapper) (s : σ) : Option (σ × Bool) :=
  outcome (serialize () (stream S) d v { s, w })

/-! ## It makes the calls of a value -/

/-- It makes calls until one fails. -/
def Does (f : Ser σ → Res Unit (Ser σ)) (st : Ser σ) (ts : List Token) (fr : Frame) : Prop :=
  if (calls S ts st.s).2 then f st = .ok { st with s := (calls S ts st.s).1, frame := fr }
  else ∃ fr', f st = .err () { st with s := (calls S ts st.s).1, frame := fr' }

variable {S}

theorem Does.bind {f g : Ser σ → Res Unit (Ser σ)} {st : Ser σ} {ts us : List Token} {fr fr' : Frame}
    (h : Does S f st ts fr) (h' : ∀ s, Does S g { s, w := st.w, frame := fr } us fr') :
    Does S (fun st => (f st).bind g) st (ts ++ us) fr' := by
  unfold Does at h ⊢
  rw [calls_append]
  cases hc : (calls S ts st.s).2
  · simp only [hc, Bool.false_eq_true, if_false] at h ⊢
    obtain ⟨fr', h⟩ := h
    exact ⟨fr', by rw [h]; rfl⟩
  · simp only [hc, if_true] at h ⊢
    have := h' (calls S ts st.s).1
    unfold Does at this
    simp only at this
    rw [h]
    exact this

theorem Does.emit (t : Token) (s : σ) (w : Wrapper) (fr : Frame) : Does S (emit S t) ⟨s, w, fr⟩ [w.tok t] fr := by
  unfold Does Serde.emit
  simp only [calls]
  by_cases h : (S (w.tok t) s).2 = true
  · simp [h]
  · simp only [if_neg h]
    exact ⟨fr, rfl⟩

theorem Does.emits (ts : List Token) (s : σ) (w : Wrapper) (fr : Frame) : Does S (emits S ts) ⟨s, w, fr⟩ (ts.map w.tok) fr := by
  induction ts generalizing s with
  | nil => rfl
  | cons t ts ih => exact (Does.emit t s w fr).bind fun s => ih s

theorem Does.within {a : Ser σ → Res Unit (Ser σ)} {s : σ} {w : Wrapper} {fr : Frame} {ts : List Token} {fr' : Frame} {w' : Wrapper}
    (h : Does S a { s, w := w' } ts fr') : Does S (within w' a) ⟨s, w, fr⟩ ts fr := by
  unfold Does at h ⊢
  unfold Serde.within
  simp only at h
  split at h
  · rw [if_pos ‹_›, h]
  · obtain ⟨fr', h⟩ := h
    rw [if_neg ‹_›, h]
    exact ⟨fr, rfl⟩

theorem Does.computed {a : Ser σ → Res Unit (Ser σ)} {s : σ} {w : Wrapper} {fr : Frame} {ts : List Token} {fr' : Frame}
    (h : Does S a { s, w := w.computedTarget } ts fr') : Does S (computed a) ⟨s, w, fr⟩ ts fr := Does.within h

theorem Does.around {a : Ser σ → Res Unit (Ser σ)} {s : σ} {w : Wrapper} {fr : Frame} {ts : List Token} {fr' : Frame} (b e : Token)
    (h : ∀ s, Does S a { s, w := w.computedTarget } ts fr') :
    Does S (around S b a e) ⟨s, w, fr⟩ (w.tok b :: (ts ++ [w.tok e])) fr := by
  have := ((Does.emit (S := S) b s w fr).bind (g := Serde.computed a) (us := ts) (fr' := fr) fun s => Does.within (h s)).bind
    (g := Serde.emit S e) fun s => Does.emit e s w fr
  exact this

theorem Does.set {f : Ser σ → Res Unit (Ser σ)} {st : Ser σ} {ts : List Token} {fr : Frame} (g : Frame → Frame)
    (h : Does S f st ts fr) : Does S (fun st => (f st).bind fun st => .ok { st with frame := g st.frame }) st ts (g fr) := by
  unfold Does at h ⊢
  split at h
  · rw [if_pos ‹_›]; simp only [h, Res.bind_ok]
  · obtain ⟨fr', h⟩ := h
    rw [if_neg ‹_›]
    exact ⟨fr', by simp only [h, Res.bind_err]⟩

theorem Does.tupleField {a : Ser σ → Res Unit (Ser σ)} {s : σ} {w : Wrapper} {fr : Frame} {ts : List Token} {fr' : Frame}
    (h : ∀ s, Does S a { s, w := w.computedTarget } ts fr') :
    Does S (tupleField S a) ⟨s, w, fr⟩
      (w.tok (.tupleValueBegin none (idx fr.index)) :: (ts ++ [w.tok (.tupleValueEnd none (idx fr.index))]))
      { fr with index := fr.index + 1 } :=
  (Does.around _ _ h).set fun fr => { fr with index := fr.index + 1 }

theorem Does.opening (ts : List Token) (s : σ) (w : Wrapper) (fr fr' : Frame) :
    Does S (opening S ts fr') ⟨s, w, fr⟩ (ts.map w.tok) fr' :=
  (Does.emits ts s w fr).set fun _ => fr'

theorem Does.closing (ts : List Token) (s : σ) (w : Wrapper) (fr : Frame) : Does S (closing S ts) ⟨s, w, fr⟩ (ts.map w.tok) {} :=
  (Does.emits ts s w fr).set fun _ => {}

theorem Does.ending (g : Frame → List Token) (s : σ) (w : Wrapper) (fr : Frame) :
    Does S (fun st => Serde.closing S (g st.frame) st) ⟨s, w, fr⟩ ((g fr).map w.tok) {} := Does.closing (g fr) s w fr

theorem Does.seqM {l : List (Ser σ → Res Unit (Ser σ))} {st : Ser σ} {ts : List Token} {f : Ser σ → Res Unit (Ser σ)} {us : List Token}
    {fr fr' : Frame} (h : Does S f st ts fr) (h' : ∀ s, Does S (seqM l) { s, w := st.w, frame := fr } us fr') :
    Does S (Serde.seqM (f :: l)) st (ts ++ us) fr' := by
  have := h.bind h'
  have e : ∀ (l : List (Ser σ → Res Unit (Ser σ))) (r : Res Unit (Ser σ)), l.foldl Res.bind r = r.bind (Serde.seqM l) := by
    intro l
    induction l with
    | nil => intro r; cases r <;> rfl
    | cons g l ih =>
      intro r
      rw [List.foldl_cons, ih]
      cases r with
      | ok s => exact (ih (g s)).symm
      | _ => rfl
  have e' : Serde.seqM (f :: l) = fun st => (f st).bind (Serde.seqM l) := funext fun st => e l (f st)
  rw [e']
  exact this

theorem Does.nil (st : Ser σ) : Does S (Serde.seqM []) st [] st.frame := rfl

/-- What is serialized makes the calls of the value. -/
def Makes (S : Token → σ → σ × Bool) (x : SV) : Prop :=
  ∀ (c : Bool) (s : σ), Does S (ser (stream S) x) { s, w := Nested.wrapper c } (toks (tree x)) {}

theorem computed_wrapper (c : Bool) : (Nested.wrapper c).computedTarget = Nested.wrapper true := by cases c <;> rfl
theorem value_wrapper (c : Bool) : (Nested.wrapper c).valueTarget = Nested.wrapper c := by cases c <;> rfl

theorem Does.cast {f : Ser σ → Res Unit (Ser σ)} {st : Ser σ} {ts us : List Token} {fr fr' : Frame} (h : Does S f st ts fr) (e : ts = us)
    (e' : fr = fr') : Does S f st us fr' := by subst e e'; exact h

theorem Makes.arg {x : SV} (h : Makes S x) (c : Bool) (s : σ) :
    Does S (ser (stream S) x) { s, w := (Nested.wrapper c).computedTarget } (toks (tree x)) {} := by
  rw [computed_wrapper]; exact h true s

theorem Does.elems (xs : List SV) (h : ∀ x ∈ xs, Makes S x) (c : Bool) (s : σ) (fr : Frame) :
    Does S (Serde.seqM (serElems (stream S) .seqElement xs)) { s, w := Nested.wrapper c, frame := fr } (toksSeq (trees xs)) fr := by
  induction xs generalizing s with
  | nil => exact Does.nil _
  | cons x xs ih =>
    rw [serElems, trees]
    refine (Does.seqM (Does.around (fr' := {}) .seqValueBegin .seqValueEnd fun s => (h x (.head _)).arg c s)
      fun s => ih (fun y hy => h y (.tail _ hy)) s).cast ?_ rfl
    cases c <;> simp [toksSeq, Nested.wrapper, Wrapper.tok, computedTok]

theorem Does.tup (k : (Ser σ → Res Unit (Ser σ)) → SCall Unit (Ser σ)) (hk : ∀ a, stream S (k a) = Serde.tupleField S a) (xs : List SV)
    (h : ∀ x ∈ xs, Makes S x) (c : Bool) (s : σ) (fr : Frame) :
    Does S (Serde.seqM (serElems (stream S) k xs)) { s, w := Nested.wrapper c, frame := fr } (toksTup (treeTup fr.index xs))
      { fr with index := fr.index + xs.length } := by
  induction xs generalizing s fr with
  | nil => exact Does.nil _
  | cons x xs ih =>
    rw [serElems, treeTup, hk]
    refine (Does.seqM (Does.tupleField (fr' := {}) fun s => (h x (.head _)).arg c s)
      fun s => ih (fun y hy => h y (.tail _ hy)) s { fr with index := fr.index + 1 }).cast ?_ ?_
    · cases c <;> simp [toksTup, Nested.wrapper, Wrapper.tok, computedTok, idx]
    · simp; omega

theorem Does.entries (xs : List (SV × SV)) (h : ∀ x ∈ xs, Makes S x.1 ∧ Makes S x.2) (c : Bool) (s : σ) (fr : Frame) :
    Does S (Serde.seqM (serEntries (stream S) xs)) { s, w := Nested.wrapper c, frame := fr } (toksMap (treeMap xs)) fr := by
  induction xs generalizing s with
  | nil => exact Does.nil _
  | cons x xs ih =>
    have hk := (h x (.head _)).1
    have hv := (h x (.head _)).2
    obtain ⟨k, v⟩ := x
    rw [serEntries, treeMap]
    refine (Does.seqM (Does.around (fr' := {}) .mapKeyBegin .mapKeyEnd fun s => hk.arg c s)
      fun s => Does.seqM (Does.around (fr' := {}) .mapValueBegin .mapValueEnd fun s => hv.arg c s)
      fun s => ih (fun y hy => h y (.tail _ hy)) s).cast ?_ rfl
    cases c <;> simp [toksMap, Nested.wrapper, Wrapper.tok, computedTok]

theorem Does.fields (k : Text → (Ser σ → Res Unit (Ser σ)) → SCall Unit (Ser σ)) (hk : ∀ l a, stream S (k l a) = recordField S l a)
    (xs : List (Text × SV)) (h : ∀ x ∈ xs, Makes S x.2) (c : Bool) (s : σ) (fr : Frame) :
    Does S (Serde.seqM (serFields (stream S) k xs)) { s, w := Nested.wrapper c, frame := fr } (toksRec (treeRec xs)) fr := by
  induction xs generalizing s with
  | nil => exact Does.nil _
  | cons x xs ih =>
    have hv := h x (.head _)
    obtain ⟨l, v⟩ := x
    rw [serFields, treeRec, hk]
    refine (Does.seqM (Does.around (fr' := {}) _ _ fun s => hv.arg c s)
      fun s => ih (fun y hy => h y (.tail _ hy)) s).cast ?_ rfl
    cases c <;> simp [toksRec, Nested.wrapper, Wrapper.tok, computedTok]

theorem Does.container {b e : SCall Unit (Ser σ)} {l : List (Ser σ → Res Unit (Ser σ))} {st : Ser σ} {t1 t2 t3 : List Token} {f1 f2 f3 : Frame}
    (h1 : Does S (stream S b) st t1 f1) (h2 : ∀ s, Does S (Serde.seqM l) { s, w := st.w, frame := f1 } t2 f2)
    (h3 : ∀ s, Does S (stream S e) { s, w := st.w, frame := f2 } t3 f3) :
    Does S (container (stream S) b l e) st (t1 ++ t2 ++ t3) f3 := (h1.bind h2).bind h3

theorem Does.leaf (ts : List Token) (c : Bool) (s : σ) :
    Does S (Serde.computed (Serde.emits S ts)) { s, w := Nested.wrapper c } (ts.map computedTok) {} := by
  refine Does.within (fr' := {}) ?_
  rw [computed_wrapper]
  exact Does.emits ts s (Nested.wrapper true) {}

theorem makes (x : SV) : Makes S x := by
  induction x using SV.ind with | h x ih => ?_
  intro c s
  cases x with
  | collectStr t =>
    refine (Does.leaf _ c s).cast ?_ rfl
    simp [tree, toks, computedTok, Function.comp_def, textFragTok]
  | some v =>
    rw [ser, Serde.stream]
    refine Does.computed (fr' := {}) ?_
    rw [computed_wrapper]
    have := ((Does.emit (S := S) (.taggedBegin someMeta) s (Nested.wrapper true) {}).bind (g := plainly (ser (stream S) v))
      (us := toks (tree v)) (fr' := {}) fun s => Does.within (fr' := {})
        (by rw [value_wrapper]; exact ih v (by simp [parts]) true s)).bind
      (g := Serde.emit S (.taggedEnd someMeta)) fun s => Does.emit (.taggedEnd someMeta) s (Nested.wrapper true) {}
    refine this.cast ?_ rfl
    simp [tree, toks, Nested.wrapper, Wrapper.tok, computedTok]
    rfl
  | unitStruct name =>
    refine (Does.emits _ s (Nested.wrapper c) {}).cast ?_ rfl
    cases c <;> rfl
  | unitVariant name i variant =>
    refine (Does.emits _ s (Nested.wrapper c) {}).cast ?_ rfl
    cases c <;> rfl
  | newtypeStruct name v =>
    refine (Does.around (fr' := {}) _ _ fun s => (ih v (by simp [parts])).arg c s).cast ?_ rfl
    cases c <;> simp [tree, toks, Nested.wrapper, Wrapper.tok, computedTok]
  | newtypeVariant name i variant v =>
    refine (((Does.emit (.enumBegin (named name)) s (Nested.wrapper c) {}).bind fun s =>
      Does.around (fr' := {}) (.taggedBegin (variantMeta i variant)) (.taggedEnd (variantMeta i variant))
        fun s => (ih v (by simp [parts])).arg c s).bind
      fun s => Does.emit (.enumEnd (named name)) s (Nested.wrapper c) {}).cast ?_ rfl
    cases c <;> simp [tree, toks, Nested.wrapper, Wrapper.tok, computedTok]
  | seq n xs =>
    refine (Does.container (Does.opening _ _ _ _ _) (fun s => Does.elems xs ih c s _) fun s => Does.closing _ _ _ _).cast ?_ rfl
    cases c <;> simp [tree, toks, Nested.wrapper, Wrapper.tok, computedTok]
  | tuple n xs =>
    refine (Does.container (Does.opening _ _ _ _ _) (fun s => Does.tup _ (fun _ => rfl) xs ih c s _) fun s => Does.ending (fun fr => [.tupleEnd fr.label]) _ _ _).cast ?_ rfl
    cases c <;> simp [tree, toks, Nested.wrapper, Wrapper.tok, computedTok]
  | tupleStruct name n xs =>
    refine (Does.container (Does.opening _ _ _ _ _) (fun s => Does.tup _ (fun _ => rfl) xs ih c s _) fun s => Does.ending (fun fr => [.tupleEnd fr.label]) _ _ _).cast ?_ rfl
    cases c <;> simp [tree, toks, Nested.wrapper, Wrapper.tok, computedTok]
  | tupleVariant name i variant n xs =>
    refine (Does.container (Does.opening _ _ _ _ _) (fun s => Does.tup _ (fun _ => rfl) xs ih c s _) fun s => Does.ending (fun fr => [.tupleEnd fr.label, .enumEnd fr.enum]) _ _ _).cast ?_ rfl
    cases c <;> simp [tree, toks, Nested.wrapper, Wrapper.tok, computedTok]
  | map n xs =>
    refine (Does.container (Does.opening _ _ _ _ _) (fun s => Does.entries xs (fun x hx =>
      ⟨ih _ (List.mem_flatMap.2 ⟨x, hx, by simp⟩), ih _ (List.mem_flatMap.2 ⟨x, hx, by simp⟩)⟩) c s _) fun s => Does.closing _ _ _ _).cast ?_ rfl
    cases c <;> simp [tree, toks, Nested.wrapper, Wrapper.tok, computedTok]
  | struct name n xs =>
    refine (Does.container (Does.opening _ _ _ _ _) (fun s => Does.fields _ (fun _ _ => rfl) xs (fun x hx => ih _ (List.mem_map.2 ⟨x, hx, rfl⟩)) c s _)
      fun s => Does.ending (fun fr => [.recordEnd fr.label]) _ _ _).cast ?_ rfl
    cases c <;> simp [tree, toks, Nested.wrapper, Wrapper.tok, computedTok]
  | structVariant name i variant n xs =>
    refine (Does.container (Does.opening _ _ _ _ _) (fun s => Does.fields _ (fun _ _ => rfl) xs (fun x hx => ih _ (List.mem_map.2 ⟨x, hx, rfl⟩)) c s _)
      fun s => Does.ending (fun fr => [.recordEnd fr.label, .enumEnd fr.enum]) _ _ _).cast ?_ rfl
    cases c <;> simp [tree, toks, Nested.wrapper, Wrapper.tok, computedTok]
  | _ => exact Does.leaf _ c s

/-- Whatever is serialized with `stream`, it streams the value that it stands for. -/
theorem outcome_ser (x : SV) (c : Bool) (s : σ) :
    outcome (ser (stream S) x { s, w := Nested.wrapper c }) = some (calls S (toks (tree x)) s) := by
  have := makes (S := S) x c s
  unfold Does at this
  rcases h : calls S (toks (tree x)) s with ⟨s', _ | _⟩
  · simp only [h, Bool.false_eq_true, if_false] at this
    obtain ⟨fr, this⟩ := this
    rw [this]; rfl
  · simp only [h, if_true] at this
    rw [this]; rfl

end

end Sval.Serde
