import Verif.Nested.NoAlloc
import Verif.Nested.Run

set_option autoImplicit false

/-!
# What code does with a recursive stream does not depend on the stream

It makes the same calls whatever the stream does, until one fails; after that, none.
-/

namespace Sval.Nested

/-- Something that is done to any recursive stream. -/
abbrev Fam := ∀ σ : Type, (Cb → σ → Res Unit σ) → Act σ

/-- A result, with the state of the recursive stream added. -/
def at' {σ : Type} (o : Res Unit (Option Buffered × Mode)) (s : σ) : Res Unit (St σ) :=
  match o with
  | .ok x => .ok ⟨x.1, x.2, s⟩
  | .err _ x => .err () ⟨x.1, x.2, s⟩
  | .panic => .panic

/-- It makes the calls `X`; then the result is `o`. If one fails it fails, in a mode with `E`. -/
def Runs (E : Mode → Prop) (a : Fam) (buf : Option Buffered) (mode : Mode) (X : List Cb) (o : Res Unit (Option Buffered × Mode)) : Prop :=
  (∀ e x, o = .err e x → E x.2) ∧ ∀ (σ : Type) (C : Cb → σ → Res Unit σ) (s : σ),
    match runCb C X s with
    | .ok s' => a σ C ⟨buf, mode, s⟩ = at' o s'
    | .err _ s' => ∃ b m, E m ∧ a σ C ⟨buf, mode, s⟩ = .err () ⟨b, m, s'⟩
    | .panic => a σ C ⟨buf, mode, s⟩ = .panic

def Lin (E : Mode → Prop) (a : Fam) (buf : Option Buffered) (mode : Mode) : Prop := ∃ X o, Runs E a buf mode X o

abbrev anyMode : Mode → Prop := fun _ => True
abbrev dead : Mode → Prop := fun m => m = .done false

section
variable {buf : Option Buffered} {mode : Mode}

theorem lin_pure {E : Mode → Prop} {a : Fam} (o : Res Unit (Option Buffered × Mode)) (ho : ∀ e x, o = .err e x → E x.2)
    (h : ∀ σ C s, a σ C ⟨buf, mode, s⟩ = at' o s) : Lin E a buf mode := ⟨[], o, ho, fun σ C s => h σ C s⟩

theorem lin_ok {a : Fam} {E : Mode → Prop} (b : Option Buffered) (m : Mode) (h : ∀ σ C s, a σ C ⟨buf, mode, s⟩ = .ok ⟨b, m, s⟩) :
    Lin E a buf mode := lin_pure (.ok (b, m)) (by simp) h

theorem lin_err {a : Fam} (b : Option Buffered) (m : Mode) (h : ∀ σ C s, a σ C ⟨buf, mode, s⟩ = .err () ⟨b, m, s⟩) :
    Lin anyMode a buf mode := lin_pure (.err () (b, m)) (by simp) h

theorem lin_panic {a : Fam} {E : Mode → Prop} (h : ∀ σ C s, a σ C ⟨buf, mode, s⟩ = .panic) : Lin E a buf mode :=
  lin_pure .panic (by simp) h

theorem lin_congr {a a' : Fam} {E : Mode → Prop} {buf' : Option Buffered} {mode' : Mode} (h : Lin E a buf' mode')
    (he : ∀ σ C s, a' σ C ⟨buf, mode, s⟩ = a σ C ⟨buf', mode', s⟩) : Lin E a' buf mode := by
  obtain ⟨X, o, ho, h⟩ := h
  exact ⟨X, o, ho, fun σ C s => by rw [he σ C s]; exact h σ C s⟩

theorem lin_cb (c : Cb) : Lin anyMode (fun _ C => cb C c) buf mode := by
  refine ⟨[c], .ok (buf, mode), by simp, fun σ C s => ?_⟩
  simp only [runCb, cb]
  cases C c s with
  | ok s' => rfl
  | err e s' => exact ⟨buf, mode, trivial, rfl⟩
  | panic => rfl

theorem lin_bind {a f : Fam} (h : Lin anyMode a buf mode) (hf : ∀ b m, Lin anyMode f b m) :
    Lin anyMode (fun σ C st => (a σ C st).bind (f σ C)) buf mode := by
  obtain ⟨X, o, _, h⟩ := h
  have stop : (∀ σ C s, (at' o s).bind (f σ C) = at' o s) → Lin anyMode (fun σ C st => (a σ C st).bind (f σ C)) buf mode := by
    intro ho
    refine ⟨X, o, by simp, fun σ C s => ?_⟩
    have h := h σ C s
    revert h
    cases runCb C X s with
    | ok s' => exact fun h => by dsimp only at h ⊢; rw [h, ho]
    | err e s' => exact fun ⟨b, m, _, h⟩ => ⟨b, m, trivial, by dsimp only; rw [h]; rfl⟩
    | panic => exact fun h => by dsimp only at h ⊢; rw [h]; rfl
  cases o with
  | panic => exact stop fun _ _ _ => rfl
  | err e x => exact stop fun _ _ _ => rfl
  | ok x =>
    obtain ⟨Y, o', _, h'⟩ := hf x.1 x.2
    refine ⟨X ++ Y, o', by simp, fun σ C s => ?_⟩
    have h := h σ C s
    rw [runCb_append]
    revert h
    cases runCb C X s with
    | ok s' =>
      intro h
      dsimp only at h ⊢
      rw [h]
      exact h' σ C s'
    | err e s' => exact fun ⟨b, m, _, h⟩ => ⟨b, m, trivial, by dsimp only; rw [h]; rfl⟩
    | panic => exact fun h => by dsimp only [Res.bind] at h ⊢; rw [h]

theorem lin_to {a : Fam} (m : Mode) (h : Lin anyMode a buf mode) :
    Lin anyMode (fun σ C st => (a σ C st).bind (toMode m)) buf mode :=
  lin_bind (f := fun _ _ => toMode m) h fun b _ => lin_ok b m fun _ _ _ => rfl

theorem lin_tryCatch {a : Fam} (h : Lin anyMode a buf mode) : Lin dead (fun σ C => tryCatch (a σ C)) buf mode := by
  obtain ⟨X, o, _, h⟩ := h
  refine ⟨X, match o with | .err e x => .err e (x.1, .done false) | o => o, ?_, fun σ C s => ?_⟩
  · intro e x
    cases o with
    | ok y => simp
    | panic => simp
    | err e y => intro h; cases h; rfl
  have h := h σ C s
  revert h
  cases runCb C X s with
  | ok s' =>
    intro h
    dsimp only at h
    simp only [tryCatch, h]
    cases o <;> rfl
  | err e s' => exact fun ⟨b, m, _, h⟩ => ⟨b, .done false, rfl, by simp only [tryCatch, h]⟩
  | panic => exact fun h => by dsimp only at h ⊢; simp only [tryCatch, h]

theorem lin_nest (q : List Meta) {a : Fam} (h : ∀ b m, Lin anyMode a b m) : ∀ b m, Lin anyMode (fun σ C => nest C q (a σ C)) b m := by
  induction q with
  | nil => exact h
  | cons m q ih =>
    intro b mode
    exact lin_bind (lin_bind (lin_cb _) ih) fun b m => lin_cb _

variable (B : Build)

theorem lin_nestA (q : List Meta) {a : Fam} (h : ∀ b m, Lin anyMode a b m) : ∀ b m, Lin anyMode (fun σ C => nestA C B q (a σ C)) b m := by
  unfold nestA
  split
  · exact lin_nest q h
  · exact h

theorem lin_put (any : Cb) (x : Arg) : Lin anyMode (fun _ C => putA C B any x) buf mode := by
  cases mode with
  | any => exact lin_to _ (lin_cb any)
  | tagged m => exact lin_to _ (lin_cb (.tagged m x))
  | seq => exact lin_congr (lin_cb (.seqValue x)) fun _ _ _ => rfl
  | map k => cases k
             · exact lin_congr (lin_cb (.mapValue x)) fun _ _ _ => rfl
             · exact lin_congr (lin_cb (.mapKey x)) fun _ _ _ => rfl
  | tuple f => cases f with
    | none => exact lin_err _ _ fun _ _ _ => rfl
    | some f => exact lin_congr (lin_cb (.tupleValue f.1 f.2 x)) fun _ _ _ => rfl
  | record f => cases f with
    | none => exact lin_err _ _ fun _ _ _ => rfl
    | some f => exact lin_congr (lin_cb (.recordValue f.1 f.2 x)) fun _ _ _ => rfl
  | vtuple f => cases f with
    | none => exact lin_err _ _ fun _ _ _ => rfl
    | some f => exact lin_congr (lin_cb (.tupleValue f.1 f.2 x)) fun _ _ _ => rfl
  | vrecord f => cases f with
    | none => exact lin_err _ _ fun _ _ _ => rfl
    | some f => exact lin_congr (lin_cb (.recordValue f.1 f.2 x)) fun _ _ _ => rfl
  | vtagged m q => exact lin_to _ (lin_nestA B q (fun _ _ => lin_cb (.variantTagged m x)) _ _)
  | enum q => exact lin_err _ _ fun _ _ _ => rfl
  | done ok => exact lin_err _ _ fun _ _ _ => rfl

theorem lin_buffered (r : Res Buf.Err Buf.St) : Lin anyMode (fun _ _ st => buffered st r) buf mode := by
  cases r with
  | ok b => exact lin_ok _ _ fun _ _ _ => rfl
  | err e b => exact lin_err _ _ fun _ _ _ => rfl
  | panic => exact lin_panic fun _ _ _ => rfl

theorem lin_lack : Lin anyMode (fun _ _ st => B.lack st) buf mode := by
  unfold Build.lack
  split
  · exact lin_panic fun _ _ _ => rfl
  · exact lin_err _ _ fun _ _ _ => rfl

theorem lin_lackBuf : Lin anyMode (fun _ _ st => B.lackBuf st) buf mode := by
  unfold Build.lackBuf
  split
  · exact lin_panic fun _ _ _ => rfl
  · exact lin_err _ _ fun _ _ _ => rfl

theorem lin_bufferOr (t : Token) {a : Fam} (h : ∀ b m, Lin anyMode a b m) : Lin dead (fun σ C => bufferOrA B t (a σ C)) buf mode := by
  refine lin_tryCatch (a := fun σ C st => _) ?_
  cases buf with
  | none => exact lin_congr (h none mode) fun _ _ _ => rfl
  | some x => cases x with
    | value b => exact lin_congr (lin_buffered _) fun _ _ _ => rfl
    | _ => exact lin_congr (h _ mode) fun _ _ _ => rfl

theorem lin_bufferOrBegin (t : Token) {a : Fam} {f : List Meta → Fam} (h : ∀ b m, Lin anyMode a b m)
    (hf : ∀ q b m, Lin anyMode (f q) b m) : Lin dead (fun σ C => bufferOrBeginA B t (a σ C) fun q => f q σ C) buf mode := by
  refine lin_tryCatch (a := fun σ C st => _) ?_
  cases buf with
  | some x => cases x with
    | value b => exact lin_congr (lin_buffered _) fun _ _ _ => rfl
    | _ => exact lin_err _ _ fun _ _ _ => rfl
  | none => cases mode with
    | any => exact lin_congr (h none .any) fun _ _ _ => rfl
    | enum q => exact lin_congr (hf q none (.enum q)) fun _ _ _ => rfl
    | _ =>
      dsimp only
      cases Buf.stepD B.alloc B.bufferPanics t {} with
      | ok b => exact lin_ok _ _ fun _ _ _ => rfl
      | err e b => exact lin_err _ _ fun _ _ _ => rfl
      | panic => exact lin_panic fun _ _ _ => rfl

theorem lin_bufferOrEnd (t : Token) {a : Fam} (h : ∀ b m, Lin anyMode a b m) : Lin dead (fun σ C => bufferOrEndA C B t (a σ C)) buf mode := by
  refine lin_tryCatch (a := fun σ C st => _) ?_
  cases buf with
  | none => exact lin_congr (lin_to (.done true) (h none mode)) fun _ _ _ => rfl
  | some x => cases x with
    | value b =>
      cases hs : Buf.stepD B.alloc B.bufferPanics t b with
      | ok b' =>
        cases hb : Buf.isComplete b' with
        | true => exact lin_congr (lin_put B (.value (bufferArg b')) (bufferArg b') (buf := none) (mode := mode)) fun _ _ _ => by simp only [hs, hb, if_true]
        | false => exact lin_ok _ _ fun _ _ _ => by simp only [hs, hb, Bool.false_eq_true, if_false]; rfl
      | err e b' => exact lin_err _ _ fun _ _ _ => by simp only [hs]; rfl
      | panic => exact lin_panic fun _ _ _ => by simp only [hs]
    | _ => exact lin_err _ _ fun _ _ _ => rfl

theorem lin_withLabel (l : Label) {k : Label → Fam} (hk : ∀ l, Lin anyMode (k l) buf mode) :
    Lin anyMode (fun σ C st => withLabel B l st fun l => k l σ C st) buf mode := by
  unfold withLabel
  split
  · exact hk _
  · split
    · exact hk _
    · exact lin_lack B

theorem lin_withMeta (m : Meta) {k : Meta → Fam} (hk : ∀ m, Lin anyMode (k m) buf mode) :
    Lin anyMode (fun σ C st => withMeta B m st fun m => k m σ C st) buf mode := by
  unfold withMeta
  split
  · exact hk _
  · exact lin_withLabel B _ (k := fun l => k { m with label := some l }) fun _ => hk _

theorem lin_pushBack (q : List Meta) (m : Meta) : Lin anyMode (fun _ _ => pushBack B q m) buf mode := by
  unfold pushBack
  split
  · exact lin_ok _ _ fun _ _ _ => rfl
  · exact lin_lack B

theorem lin_withText (f : Buf.Cow Char → Except Buf.Err (Buf.Cow Char)) : Lin anyMode (fun _ _ => withTextA B f) buf mode := by
  cases buf with
  | none => exact lin_err _ _ fun _ _ _ => rfl
  | some x => cases x with
    | text b =>
      cases h : f b with
      | ok b' => exact lin_ok _ _ fun _ _ _ => by simp only [withTextA, h]; rfl
      | error e => exact lin_congr (lin_lackBuf B) fun _ _ _ => by simp only [withTextA, h]; rfl
    | _ => exact lin_err _ _ fun _ _ _ => rfl

theorem lin_withBinary (f : Buf.Cow UInt8 → Except Buf.Err (Buf.Cow UInt8)) : Lin anyMode (fun _ _ => withBinaryA B f) buf mode := by
  cases buf with
  | none => exact lin_err _ _ fun _ _ _ => rfl
  | some x => cases x with
    | binary b =>
      cases h : f b with
      | ok b' => exact lin_ok _ _ fun _ _ _ => by simp only [withBinaryA, h]; rfl
      | error e => exact lin_congr (lin_lackBuf B) fun _ _ _ => by simp only [withBinaryA, h]; rfl
    | _ => exact lin_err _ _ fun _ _ _ => rfl

theorem lin_putBuffer (x : Buffered) : Lin anyMode (fun _ _ => putBuffer x) buf mode := by
  cases buf with
  | none => exact lin_ok _ _ fun _ _ _ => rfl
  | some y => exact lin_err _ _ fun _ _ _ => rfl

theorem lin_finish : Lin anyMode (fun _ _ => finish) buf mode := by
  by_cases h : mode = .done true
  · exact lin_ok _ _ fun _ _ _ => by simp only [finish, h, if_true]; rfl
  · exact lin_err _ _ fun _ _ _ => by simp only [finish, h, if_false]; rfl

theorem lin_begin (t : Token) (c : Cb) (m : Mode) {f : List Meta → Fam} (hf : ∀ q b m, Lin anyMode (f q) b m) :
    Lin dead (fun σ C => bufferOrBeginA B t (fun st => (cb C c st).bind (toMode m)) fun q => f q σ C) buf mode :=
  lin_bufferOrBegin B t (a := fun _ C st => (cb C c st).bind (toMode m)) (fun _ _ => lin_to _ (lin_cb c)) hf

theorem lin_begin_either (t : Token) (c c' : Cb) (m m' : Mode) :
    Lin dead (fun _ C => bufferOrBeginA B t (fun st => (cb C c st).bind (toMode m)) fun q st =>
      if emptyA B q then (cb C c' st).bind (toMode m') else .panic) buf mode := by
  refine lin_begin B t c m (f := fun q _ C st => if emptyA B q then (cb C c' st).bind (toMode m') else .panic) fun q b m => ?_
  split
  · exact lin_to _ (lin_cb c')
  · exact lin_panic fun _ _ _ => rfl

theorem lin_call (t : Token) : Lin dead (fun _ C => callA C B t) buf mode := by
  have scalar : ∀ t x, Lin dead (fun _ C => bufferOrA B t (putA C B (.scalar t) x)) buf mode := fun t x =>
    lin_bufferOr B t fun _ _ => lin_put B _ _
  have skip : ∀ t, Lin dead (fun _ _ => bufferOrA B t .ok) buf mode := fun t =>
    lin_bufferOr B t (a := fun _ _ => .ok) fun b m => lin_ok b m fun _ _ _ => rfl
  have record : ∀ tg l, Lin dead (fun _ _ => bufferOrA B (.recordValueBegin tg l) fun st =>
      match st.buf, st.mode with
      | none, .record _ => withLabel B l st fun l => .ok { st with mode := .record (some (tg, l)) }
      | none, .vrecord _ => withLabel B l st fun l => .ok { st with mode := .vrecord (some (tg, l)) }
      | _, _ => .err () st) buf mode := by
    intro tg l
    refine lin_bufferOr B _ (a := fun _ _ st => _) fun b m => ?_
    cases b with
    | some x => exact lin_err _ _ fun _ _ _ => rfl
    | none => cases m with
      | record f =>
        exact lin_withLabel B l (k := fun l _ _ st => .ok { st with mode := .record (some (tg, l)) }) fun l => lin_ok _ _ fun _ _ _ => rfl
      | vrecord f =>
        exact lin_withLabel B l (k := fun l _ _ st => .ok { st with mode := .vrecord (some (tg, l)) }) fun l => lin_ok _ _ fun _ _ _ => rfl
      | _ => exact lin_err _ _ fun _ _ _ => rfl
  have recordEnd : ∀ t, Lin dead (fun _ C => bufferOrEndA C B t fun st =>
      match st.mode with
      | .record _ | .vrecord _ => cb C .recordEnd st
      | _ => .err () st) buf mode := by
    intro t
    refine lin_bufferOrEnd B _ (a := fun _ C st => _) fun b m => ?_
    cases m with
    | record f => exact lin_congr (lin_cb .recordEnd) fun _ _ _ => rfl
    | vrecord f => exact lin_congr (lin_cb .recordEnd) fun _ _ _ => rfl
    | _ => exact lin_err _ _ fun _ _ _ => rfl
  cases t with
  | null => exact scalar _ _
  | bool => exact scalar _ _
  | int => exact scalar _ _
  | f32 => exact scalar _ _
  | f64 => exact scalar _ _
  | textBegin n => exact lin_bufferOr B _ fun _ _ => lin_putBuffer _
  | textFragment f => exact lin_bufferOr B _ fun _ _ => lin_withText B _
  | textFragmentComputed f => exact lin_bufferOr B _ fun _ _ => lin_withText B _
  | textEnd =>
    refine lin_bufferOr B _ (a := fun _ C st => _) fun b m => ?_
    cases b with
    | none => exact lin_err _ _ fun _ _ _ => rfl
    | some x => cases x with
      | text b =>
        cases h : b.asBorrowed with
        | some s => exact lin_congr (lin_put B (.text true s) (textArg true s) (buf := none) (mode := m)) fun _ _ _ => by simp only [h]
        | none =>
          exact lin_congr (lin_put B (.text false b.content) (textArg false b.content) (buf := none) (mode := m)) fun _ _ _ => by simp only [h]
      | _ => exact lin_err _ _ fun _ _ _ => rfl
  | binaryBegin n => exact lin_bufferOr B _ fun _ _ => lin_putBuffer _
  | binaryFragment f => exact lin_bufferOr B _ fun _ _ => lin_withBinary B _
  | binaryFragmentComputed f => exact lin_bufferOr B _ fun _ _ => lin_withBinary B _
  | binaryEnd =>
    refine lin_bufferOr B _ (a := fun _ C st => _) fun b m => ?_
    cases b with
    | none => exact lin_err _ _ fun _ _ _ => rfl
    | some x => cases x with
      | binary b =>
        cases h : b.asBorrowed with
        | some s => exact lin_congr (lin_put B (.binary true s) (binaryArg true s) (buf := none) (mode := m)) fun _ _ _ => by simp only [h]
        | none =>
          exact lin_congr (lin_put B (.binary false b.content) (binaryArg false b.content) (buf := none) (mode := m)) fun _ _ _ => by simp only [h]
      | _ => exact lin_err _ _ fun _ _ _ => rfl
  | tag x =>
    refine lin_bufferOr B _ (a := fun _ C st => _) fun b m => ?_
    cases m with
    | enum q => exact lin_to _ (lin_nestA B q (fun _ _ => lin_cb (.variantTag (cloneMeta x))) _ _)
    | _ => exact lin_congr (lin_put B (.tag (cloneMeta x)) _) fun _ _ _ => rfl
  | tagHint => exact lin_ok _ _ fun _ _ _ => rfl
  | seqBegin n => exact lin_begin B _ _ _ (f := fun _ _ _ st => .err () st) fun _ _ _ => lin_err _ _ fun _ _ _ => rfl
  | seqValueBegin => exact lin_ok _ _ fun _ _ _ => rfl
  | seqValueEnd => exact lin_ok _ _ fun _ _ _ => rfl
  | seqEnd =>
    refine lin_bufferOrEnd B _ (a := fun _ C st => _) fun b m => ?_
    by_cases h : m = .seq
    · exact lin_congr (lin_cb .seqEnd (buf := b) (mode := m)) fun _ _ _ => by simp only [h, if_true]
    · exact lin_err _ _ fun _ _ _ => by simp only [h, if_false]; rfl
  | mapBegin n => exact lin_begin B _ _ _ (f := fun _ _ _ st => .err () st) fun _ _ _ => lin_err _ _ fun _ _ _ => rfl
  | mapKeyBegin =>
    refine lin_bufferOr B _ (a := fun _ C st => _) fun b m => ?_
    cases b with
    | some x => exact lin_err _ _ fun _ _ _ => rfl
    | none => cases m with
      | map k => exact lin_ok _ _ fun _ _ _ => rfl
      | _ => exact lin_err _ _ fun _ _ _ => rfl
  | mapKeyEnd => exact skip _
  | mapValueBegin =>
    refine lin_bufferOr B _ (a := fun _ C st => _) fun b m => ?_
    cases b with
    | some x => exact lin_err _ _ fun _ _ _ => rfl
    | none => cases m with
      | map k => exact lin_ok _ _ fun _ _ _ => rfl
      | _ => exact lin_err _ _ fun _ _ _ => rfl
  | mapValueEnd => exact skip _
  | mapEnd =>
    refine lin_bufferOrEnd B _ (a := fun _ C st => _) fun b m => ?_
    cases m with
    | map f => exact lin_congr (lin_cb .mapEnd) fun _ _ _ => rfl
    | _ => exact lin_err _ _ fun _ _ _ => rfl
  | enumBegin x =>
    refine lin_begin B _ _ _ (f := fun q σ C st => withMeta B x st fun m => pushBack B q m st) fun q b m => ?_
    exact lin_withMeta B x (k := fun m _ _ => pushBack B q m) fun _ => lin_pushBack B q _
  | enumEnd x =>
    refine lin_bufferOrEnd B _ (a := fun _ C st => _) fun b m => ?_
    cases m with
    | enum q => exact lin_nestA B q (a := fun _ _ _ => .panic) (fun _ _ => lin_panic fun _ _ _ => rfl) _ _
    | done ok => exact lin_congr lin_finish fun _ _ _ => rfl
    | _ => exact lin_err _ _ fun _ _ _ => rfl
  | taggedBegin x =>
    refine lin_bufferOrBegin B _ (a := fun _ _ st => withMeta B x st fun m => .ok { st with mode := .tagged m })
      (f := fun q _ _ st => withMeta B x st fun m => .ok { st with mode := .vtagged m q }) (fun b m => ?_) fun q b m => ?_
    · exact lin_withMeta B x (k := fun m _ _ st => .ok { st with mode := .tagged m }) fun m => lin_ok _ _ fun _ _ _ => rfl
    · exact lin_withMeta B x (k := fun m _ _ st => .ok { st with mode := .vtagged m q }) fun m => lin_ok _ _ fun _ _ _ => rfl
  | taggedEnd x => exact lin_bufferOrEnd B _ fun _ _ => lin_finish
  | recordBegin x n => exact lin_begin_either B _ _ _ _ _
  | recordValueBegin tg l => exact record tg l
  | recordValueEnd tg l => exact skip _
  | recordEnd x => exact recordEnd _
  | tupleBegin x n => exact lin_begin_either B _ _ _ _ _
  | tupleValueBegin tg i =>
    refine lin_bufferOr B _ (a := fun _ _ st => _) fun b m => ?_
    cases b with
    | some x => exact lin_err _ _ fun _ _ _ => rfl
    | none => cases m with
      | tuple f => exact lin_ok _ _ fun _ _ _ => rfl
      | vtuple f => exact lin_ok _ _ fun _ _ _ => rfl
      | _ => exact lin_err _ _ fun _ _ _ => rfl
  | tupleValueEnd tg i => exact skip _
  | tupleEnd x =>
    refine lin_bufferOrEnd B _ (a := fun _ C st => _) fun b m => ?_
    cases m with
    | tuple f => exact lin_congr (lin_cb .tupleEnd) fun _ _ _ => rfl
    | vtuple f => exact lin_congr (lin_cb .tupleEnd) fun _ _ _ => rfl
    | _ => exact lin_err _ _ fun _ _ _ => rfl
  | recordTupleBegin x n => exact lin_begin_either B _ _ _ _ _
  | recordTupleValueBegin tg l i => exact record tg l
  | recordTupleValueEnd tg l i => exact skip _
  | recordTupleEnd x => exact recordEnd _

end

/-! ## After a failure -/

section
variable {σ : Type} (C : Cb → σ → Res Unit σ) (B : Build)

/-- The recursive stream was not called, and is not going to be. -/
def Dead (s : σ) (r : Res Unit (St σ)) : Prop :=
  r = .panic ∨ (∃ b, r = .ok ⟨b, .done false, s⟩) ∨ ∃ b, r = .err () ⟨b, .done false, s⟩

theorem dead_tryCatch {a : Act σ} {st : St σ} {s : σ} (h : Dead s (a st)) : Dead s (tryCatch a st) := by
  unfold tryCatch
  rcases h with h | ⟨b, h⟩ | ⟨b, h⟩ <;> rw [h]
  · exact .inl rfl
  · exact .inr (.inl ⟨b, rfl⟩)
  · exact .inr (.inr ⟨b, rfl⟩)

theorem dead_buffered (buf : Option Buffered) (s : σ) (r : Res Buf.Err Buf.St) : Dead s (buffered ⟨buf, .done false, s⟩ r) := by
  cases r with
  | ok b => exact .inr (.inl ⟨_, rfl⟩)
  | err e b => exact .inr (.inr ⟨_, rfl⟩)
  | panic => exact .inl rfl

theorem dead_bufferOr (t : Token) {a : Act σ} (buf : Option Buffered) (s : σ) (h : ∀ buf, Dead s (a ⟨buf, .done false, s⟩)) :
    Dead s (bufferOrA B t a ⟨buf, .done false, s⟩) := by
  refine dead_tryCatch ?_
  cases buf with
  | none => exact h _
  | some x => cases x with
    | value b => exact dead_buffered _ _ _
    | _ => exact h _

theorem dead_bufferOrBegin (t : Token) {a : Act σ} {f : List Meta → Act σ} (buf : Option Buffered) (s : σ) :
    Dead s (bufferOrBeginA B t a f ⟨buf, .done false, s⟩) := by
  refine dead_tryCatch ?_
  cases buf with
  | some x => cases x with
    | value b => exact dead_buffered _ _ _
    | _ => exact .inr (.inr ⟨_, rfl⟩)
  | none =>
    cases Buf.stepD B.alloc B.bufferPanics t {} with
    | ok b => exact .inr (.inl ⟨_, rfl⟩)
    | err e b => exact .inr (.inr ⟨_, rfl⟩)
    | panic => exact .inl rfl

theorem dead_bufferOrEnd (t : Token) {a : Act σ} (buf : Option Buffered) (s : σ)
    (h : ∀ buf, a ⟨buf, .done false, s⟩ = .err () ⟨buf, .done false, s⟩) :
    Dead s (bufferOrEndA C B t a ⟨buf, .done false, s⟩) := by
  refine dead_tryCatch ?_
  cases buf with
  | none => exact .inr (.inr ⟨none, by dsimp only; rw [h]; rfl⟩)
  | some x => cases x with
    | value b =>
      cases hs : Buf.stepD B.alloc B.bufferPanics t b with
      | ok b' =>
        cases hb : Buf.isComplete b' with
        | true => exact .inr (.inr ⟨none, by simp only [hs, hb, if_true]; rfl⟩)
        | false => exact .inr (.inl ⟨_, by simp only [hs, hb, Bool.false_eq_true, if_false]; rfl⟩)
      | err e b' => exact .inr (.inr ⟨_, by simp only [hs]; rfl⟩)
      | panic => exact .inl (by simp only [hs])
    | _ => exact .inr (.inr ⟨_, rfl⟩)

theorem dead_call (t : Token) (buf : Option Buffered) (s : σ) : Dead s (callA C B t ⟨buf, .done false, s⟩) := by
  have no : ∀ b, Dead s (.err () ⟨b, .done false, s⟩) := fun b => .inr (.inr ⟨b, rfl⟩)
  have yes : ∀ b, Dead s (.ok ⟨b, .done false, s⟩) := fun b => .inr (.inl ⟨b, rfl⟩)
  have lack : ∀ b, Dead s (B.lackBuf ⟨b, .done false, s⟩) := by
    intro b
    unfold Build.lackBuf
    split
    · exact .inl rfl
    · exact no b
  have buffer : ∀ x b, Dead s (putBuffer x ⟨b, .done false, s⟩) := by
    intro x b
    cases b
    · exact yes _
    · exact no _
  have text : ∀ f b, Dead s (withTextA B f ⟨b, .done false, s⟩) := by
    intro f b
    cases b with
    | none => exact no _
    | some x => cases x with
      | text b =>
        unfold withTextA
        dsimp only
        cases f b with
        | ok b => exact yes _
        | error e => exact lack _
      | _ => exact no _
  have binary : ∀ f b, Dead s (withBinaryA B f ⟨b, .done false, s⟩) := by
    intro f b
    cases b with
    | none => exact no _
    | some x => cases x with
      | binary b =>
        unfold withBinaryA
        dsimp only
        cases f b with
        | ok b => exact yes _
        | error e => exact lack _
      | _ => exact no _
  cases t with
  | textBegin n => exact dead_bufferOr B _ _ _ fun b => buffer _ b
  | textFragment f => exact dead_bufferOr B _ _ _ fun b => text _ b
  | textFragmentComputed f => exact dead_bufferOr B _ _ _ fun b => text _ b
  | textEnd =>
    refine dead_bufferOr B _ _ _ fun b => ?_
    cases b with
    | none => exact no _
    | some x => cases x with
      | text b =>
        dsimp only
        cases b.asBorrowed with
        | some t => exact no _
        | none => exact no _
      | _ => exact no _
  | binaryBegin n => exact dead_bufferOr B _ _ _ fun b => buffer _ b
  | binaryFragment f => exact dead_bufferOr B _ _ _ fun b => binary _ b
  | binaryFragmentComputed f => exact dead_bufferOr B _ _ _ fun b => binary _ b
  | binaryEnd =>
    refine dead_bufferOr B _ _ _ fun b => ?_
    cases b with
    | none => exact no _
    | some x => cases x with
      | binary b =>
        dsimp only
        cases b.asBorrowed with
        | some t => exact no _
        | none => exact no _
      | _ => exact no _
  | seqEnd => exact dead_bufferOrEnd C B _ _ _ fun b => rfl
  | mapEnd => exact dead_bufferOrEnd C B _ _ _ fun b => rfl
  | tupleEnd => exact dead_bufferOrEnd C B _ _ _ fun b => rfl
  | recordEnd => exact dead_bufferOrEnd C B _ _ _ fun b => rfl
  | recordTupleEnd => exact dead_bufferOrEnd C B _ _ _ fun b => rfl
  | enumEnd => exact dead_bufferOrEnd C B _ _ _ fun b => rfl
  | taggedEnd => exact dead_bufferOrEnd C B _ _ _ fun b => rfl
  | seqBegin => exact dead_bufferOrBegin B _ _ _
  | mapBegin => exact dead_bufferOrBegin B _ _ _
  | tupleBegin => exact dead_bufferOrBegin B _ _ _
  | recordBegin => exact dead_bufferOrBegin B _ _ _
  | recordTupleBegin => exact dead_bufferOrBegin B _ _ _
  | enumBegin => exact dead_bufferOrBegin B _ _ _
  | taggedBegin => exact dead_bufferOrBegin B _ _ _
  | tagHint => exact yes _
  | seqValueBegin => exact yes _
  | seqValueEnd => exact yes _
  | mapKeyEnd => exact dead_bufferOr B _ _ _ fun b => yes _
  | mapValueEnd => exact dead_bufferOr B _ _ _ fun b => yes _
  | tupleValueEnd => exact dead_bufferOr B _ _ _ fun b => yes _
  | recordValueEnd => exact dead_bufferOr B _ _ _ fun b => yes _
  | recordTupleValueEnd => exact dead_bufferOr B _ _ _ fun b => yes _
  | mapKeyBegin => exact dead_bufferOr B _ _ _ fun b => by cases b <;> exact no _
  | mapValueBegin => exact dead_bufferOr B _ _ _ fun b => by cases b <;> exact no _
  | tupleValueBegin => exact dead_bufferOr B _ _ _ fun b => by cases b <;> exact no _
  | recordValueBegin => exact dead_bufferOr B _ _ _ fun b => by cases b <;> exact no _
  | recordTupleValueBegin => exact dead_bufferOr B _ _ _ fun b => by cases b <;> exact no _
  | tag m => exact dead_bufferOr B _ _ _ fun b => no _
  | _ => exact dead_bufferOr B _ _ _ fun b => no _

/-- The same, for the outcome. -/
def DeadR (s : σ) (o : Outcome (St σ)) : Prop := o = .panicked ∨ ∃ ok b, o = .done ok ⟨b, .done false, s⟩

theorem dead_delegate (v : Prog) (c : Bool) {go : St σ → Outcome (St σ)} (buf : Option Buffered) (s : σ) :
    DeadR s (delegateA C B v c go ⟨buf, .done false, s⟩) := by
  have put : ∀ b, DeadR s ((tryCatch (putA C B (.value ⟨!c, v⟩) ⟨!c, v⟩) ⟨b, .done false, s⟩).outcome) := fun b => .inr ⟨false, b, rfl⟩
  unfold delegateA
  cases buf with
  | none => exact put _
  | some x => cases x with
    | value b =>
      dsimp only
      cases bufValueA B v c b with
      | panicked => exact .inl rfl
      | done ok b => cases ok <;> exact .inr ⟨_, _, rfl⟩
    | _ => exact put _

theorem dead_exec (p : Prog) : ∀ (c : Bool) (buf : Option Buffered) (s : σ), DeadR s (execA C B p c ⟨buf, .done false, s⟩) := by
  induction p with
  | ret b => exact fun c buf s => .inr ⟨b, buf, rfl⟩
  | call t k ih =>
    intro c buf s
    rw [execA]
    rcases dead_call C B (if c then computedTok t else t) buf s with h | ⟨b, h⟩ | ⟨b, h⟩ <;> rw [h]
    · exact .inl rfl
    · exact ih true c b s
    · exact ih false c b s
  | value v k ihv ih =>
    intro c buf s
    rw [execA]
    have h : DeadR s (if c then execA C B v true ⟨buf, .done false, s⟩ else delegateA C B v false (execA C B v false) ⟨buf, .done false, s⟩) := by
      cases c
      · exact dead_delegate C B v false (go := execA C B v false) buf s
      · exact ihv true buf s
    rcases h with h | ⟨ok, b, h⟩ <;> rw [h]
    · exact .inl rfl
    · exact ih ok c b s
  | valueComputed v k ihv ih =>
    intro c buf s
    rw [execA]
    rcases dead_delegate C B v true (go := execA C B v true) buf s with h | ⟨ok, b, h⟩ <;> rw [h]
    · exact .inl rfl
    · exact ih ok c b s

end

/-! ## All of it -/

/-- An outcome, with the state of the recursive stream added. -/
def atR {σ : Type} (o : Option (Bool × Option Buffered × Mode)) (s : σ) : Outcome (St σ) :=
  match o with
  | some (ok, b, m) => .done ok ⟨b, m, s⟩
  | none => .panicked

/-- Code that makes the calls `X`, and ends with `o`. If a call fails it makes no other; it may panic by itself, if it goes on
with the stream nevertheless: not if `P`. -/
def RunsR (P : Prop) (f : ∀ σ : Type, (Cb → σ → Res Unit σ) → St σ → Outcome (St σ)) (buf : Option Buffered) (mode : Mode) (X : List Cb)
    (o : Option (Bool × Option Buffered × Mode)) : Prop :=
  ∀ (σ : Type) (C : Cb → σ → Res Unit σ) (s : σ),
    match runCb C X s with
    | .ok s' => f σ C ⟨buf, mode, s⟩ = atR o s'
    | .err _ s' => (∃ ok b, (P → ok = false) ∧ f σ C ⟨buf, mode, s⟩ = .done ok ⟨b, .done false, s'⟩) ∨ (¬P ∧ f σ C ⟨buf, mode, s⟩ = .panicked)
    | .panic => f σ C ⟨buf, mode, s⟩ = .panicked

def LinR (P : Prop) (f : ∀ σ : Type, (Cb → σ → Res Unit σ) → St σ → Outcome (St σ)) : Prop :=
  ∀ buf mode, ∃ X o, RunsR P f buf mode X o

section
variable {B : Build} {P : Prop}

theorem linR_outcome {a : Fam} (h : ∀ b m, Lin dead a b m) : LinR P fun σ C st => (a σ C st).outcome := by
  intro buf mode
  obtain ⟨X, o, _, h⟩ := h buf mode
  refine ⟨X, match o with | .ok x => some (true, x) | .err _ x => some (false, x) | .panic => none, fun σ C s => ?_⟩
  have h := h σ C s
  revert h
  cases runCb C X s with
  | ok s' =>
    intro h
    dsimp only at h ⊢
    rw [h]
    cases o <;> rfl
  | err e s' => exact fun ⟨b, m, hm, h⟩ => .inl ⟨false, b, fun _ => rfl, by dsimp only; rw [h, hm]; rfl⟩
  | panic => exact fun h => by dsimp only at h ⊢; rw [h]; rfl

theorem linR_bind {f : ∀ σ : Type, (Cb → σ → Res Unit σ) → St σ → Outcome (St σ)} {k : Bool → Prog} {c : Bool} (h : LinR P f)
    (hP : P → k false = .ret false) (hk : ∀ ok, (P → ok = true) → LinR P fun _ C => execA C B (k ok) c) :
    LinR P fun σ C st => match f σ C st with
      | .done ok st => execA C B (k ok) c st
      | .panicked => .panicked := by
  intro buf mode
  obtain ⟨X, o, h⟩ := h buf mode
  have failed : ∀ {σ : Type} {C : Cb → σ → Res Unit σ} {s s' : σ},
      ((∃ ok b, (P → ok = false) ∧ f σ C ⟨buf, mode, s⟩ = .done ok ⟨b, .done false, s'⟩) ∨ (¬P ∧ f σ C ⟨buf, mode, s⟩ = .panicked)) →
      ((∃ ok b, (P → ok = false) ∧ (match f σ C ⟨buf, mode, s⟩ with
        | .done ok st => execA C B (k ok) c st
        | .panicked => .panicked) = .done ok ⟨b, .done false, s'⟩) ∨
      (¬P ∧ (match f σ C ⟨buf, mode, s⟩ with
        | .done ok st => execA C B (k ok) c st
        | .panicked => .panicked) = .panicked)) := by
    intro σ C s s' h
    rcases h with ⟨ok, b, hok, h⟩ | ⟨hP', h⟩ <;> rw [h]
    · by_cases hp : P
      · have hok := hok hp
        subst hok
        dsimp only
        rw [hP hp]
        exact .inl ⟨false, b, fun _ => rfl, rfl⟩
      · rcases dead_exec C B (k ok) c b s' with h | ⟨ok, b, h⟩
        · exact .inr ⟨hp, h⟩
        · exact .inl ⟨ok, b, fun h => absurd h hp, h⟩
    · exact .inr ⟨hP', rfl⟩
  have stop : ∀ (ok' : Option (Bool × Option Buffered × Mode)), (∀ (σ : Type) (C : Cb → σ → Res Unit σ) (s : σ),
      (match (atR o s : Outcome (St σ)) with
        | .done ok st => execA C B (k ok) c st
        | .panicked => .panicked) = atR ok' s) → ∃ X o, RunsR P (fun σ C st => match f σ C st with
      | .done ok st => execA C B (k ok) c st
      | .panicked => .panicked) buf mode X o := by
    intro ok' ho
    refine ⟨X, ok', fun σ C s => ?_⟩
    have h := h σ C s
    revert h
    cases runCb C X s with
    | ok s' => exact fun h => by dsimp only at h ⊢; rw [h]; exact ho σ C s'
    | err e s' => exact failed
    | panic => exact fun h => by dsimp only at h ⊢; rw [h]
  cases o with
  | none => exact stop none fun _ _ _ => rfl
  | some x =>
    obtain ⟨ok, b, m⟩ := x
    by_cases hok : P → ok = true
    · obtain ⟨Y, o', h'⟩ := hk ok hok b m
      refine ⟨X ++ Y, o', fun σ C s => ?_⟩
      have h := h σ C s
      rw [runCb_append]
      revert h
      cases runCb C X s with
      | ok s' =>
        intro h
        dsimp only at h ⊢
        rw [h]
        exact h' σ C s'
      | err e s' => exact failed
      | panic => exact fun h => by dsimp only [Res.bind] at h ⊢; rw [h]
    · have hp : P := by
        refine Classical.byContradiction fun hp => hok fun h => absurd h hp
      have hok : ok = false := by
        cases ok with
        | false => rfl
        | true => exact absurd (fun _ => rfl) hok
      subst hok
      exact stop (some (false, b, m)) fun _ _ _ => by dsimp only [atR]; rw [hP hp]; rfl

theorem linR_delegate (v : Prog) (c : Bool) {go : ∀ σ : Type, (Cb → σ → Res Unit σ) → St σ → Outcome (St σ)} (hg : LinR P go) :
    LinR P fun σ C => delegateA C B v c (go σ C) := by
  intro buf mode
  have byMode : ∀ buf, (∀ b, buf ≠ some (.value b)) → ∃ X o, RunsR P (fun σ C => delegateA C B v c (go σ C)) buf mode X o := by
    intro buf hb
    by_cases hm : ∃ q, mode = .enum q
    · obtain ⟨q, rfl⟩ := hm
      have e : ∀ {σ : Type} (C : Cb → σ → Res Unit σ) (s : σ), delegateA C B v c (go σ C) ⟨buf, .enum q, s⟩ =
          match go σ C ⟨buf, .enum q, s⟩ with
          | .done true st => .done true st
          | .done false st => .done false { st with mode := .done false }
          | .panicked => .panicked := by
        intro σ C s
        cases buf with
        | none => rfl
        | some x => cases x with
          | value b => exact absurd rfl (hb b)
          | _ => rfl
      obtain ⟨X, o, h⟩ := hg buf (.enum q)
      refine ⟨X, o.map fun x => if x.1 then x else (false, x.2.1, .done false), fun σ C s => ?_⟩
      have h := h σ C s
      dsimp only
      rw [e]
      revert h
      cases runCb C X s with
      | ok s' =>
        intro h
        dsimp only at h ⊢
        rw [h]
        rcases o with _ | ⟨ok, x⟩
        · rfl
        · cases ok <;> rfl
      | err e s' =>
        rintro (⟨ok, b, hok, h⟩ | ⟨hP, h⟩)
        · refine .inl ⟨ok, b, hok, ?_⟩
          rw [h]
          cases ok <;> rfl
        · exact .inr ⟨hP, by rw [h]⟩
      | panic => exact fun h => by dsimp only at h ⊢; rw [h]
    · obtain ⟨X, o, h⟩ := linR_outcome (P := P) (a := fun σ C => tryCatch (putA C B (.value ⟨!c, v⟩) ⟨!c, v⟩))
        (fun b m => lin_tryCatch (lin_put B (.value ⟨!c, v⟩) ⟨!c, v⟩)) buf mode
      refine ⟨X, o, fun σ C s => ?_⟩
      have e : delegateA C B v c (go σ C) ⟨buf, mode, s⟩ = (tryCatch (putA C B (.value ⟨!c, v⟩) ⟨!c, v⟩) ⟨buf, mode, s⟩).outcome := by
        unfold delegateA
        cases buf with
        | none => cases mode with
          | enum q => exact absurd ⟨q, rfl⟩ hm
          | _ => rfl
        | some x => cases x with
          | value b => exact absurd rfl (hb b)
          | _ => cases mode with
            | enum q => exact absurd ⟨q, rfl⟩ hm
            | _ => rfl
      dsimp only
      rw [e]
      exact h σ C s
  cases buf with
  | none => exact byMode _ fun b => by simp
  | some x => cases x with
    | text b => exact byMode _ fun b => by simp
    | binary b => exact byMode _ fun b => by simp
    | value b =>
      cases hb : bufValueA B v c b with
      | panicked => exact ⟨[], none, fun σ C s => by simp only [runCb, delegateA, hb]; rfl⟩
      | done ok b' =>
        cases ok with
        | true => exact ⟨[], some (true, some (.value b'), mode), fun σ C s => by simp only [runCb, delegateA, hb]; rfl⟩
        | false => exact ⟨[], some (false, some (.value {}), .done false), fun σ C s => by simp only [runCb, delegateA, hb]; rfl⟩

theorem linR_exec (B : Build) (p : Prog) : ∀ c : Bool, (P → p.Propagates) → LinR P fun _ C => execA C B p c := by
  induction p with
  | ret b => exact fun c _ buf mode => ⟨[], some (b, buf, mode), fun σ C s => rfl⟩
  | call t k ih =>
    intro c hp
    have h := linR_bind (B := B) (c := c) (k := k) (linR_outcome (P := P) fun b m => lin_call B (if c then computedTok t else t) (buf := b) (mode := m))
      (fun h => (hp h).1) (fun ok hok => ih ok c fun h => by rw [hok h]; exact (hp h).2)
    intro buf mode
    obtain ⟨X, o, h⟩ := h buf mode
    refine ⟨X, o, fun σ C s => ?_⟩
    have e : execA C B (.call t k) c ⟨buf, mode, s⟩ = match (callA C B (if c then computedTok t else t) ⟨buf, mode, s⟩).outcome with
        | .done ok st => execA C B (k ok) c st
        | .panicked => .panicked := by
      rw [execA]
      cases callA C B (if c then computedTok t else t) ⟨buf, mode, s⟩ <;> rfl
    dsimp only
    rw [e]
    exact h σ C s
  | value v k ihv ih =>
    intro c hp
    have h := linR_bind (B := B) (c := c) (k := k)
      (f := fun σ C st => if c then execA C B v true st else delegateA C B v false (execA C B v false) st) (P := P)
      (by
        cases c with
        | true => exact ihv true fun h => (hp h).1
        | false => exact linR_delegate v false (ihv false fun h => (hp h).1))
      (fun h => (hp h).2.1) (fun ok hok => ih ok c fun h => by rw [hok h]; exact (hp h).2.2)
    intro buf mode
    obtain ⟨X, o, h⟩ := h buf mode
    refine ⟨X, o, fun σ C s => ?_⟩
    dsimp only
    rw [execA]
    exact h σ C s
  | valueComputed v k ihv ih =>
    intro c hp
    have h := linR_bind (B := B) (c := c) (k := k) (linR_delegate (B := B) v true (ihv true fun h => (hp h).1))
      (fun h => (hp h).2.1) (fun ok hok => ih ok c fun h => by rw [hok h]; exact (hp h).2.2)
    intro buf mode
    obtain ⟨X, o, h⟩ := h buf mode
    refine ⟨X, o, fun σ C s => ?_⟩
    dsimp only
    rw [execA]
    exact h σ C s

end

end Sval.Nested
