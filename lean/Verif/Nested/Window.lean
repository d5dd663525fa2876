import Verif.Nested.Steady

set_option autoImplicit false

/-!
# Exactly when a recursive stream panics

`FlatStream` can panic between the beginning of an enum that is the value itself and the call that makes its variant.
Before and after that window it does not, if the code calls no fragments after an error before it has begun something again.
-/

namespace Sval.Nested

open Buf (Shape Firm isFrag isBegin)

/-! ## Counting -/

/-- Where the code is: nothing was streamed yet, or so many enums were begun and nothing else. -/
inductive Win where
  | start
  | enums (n : Nat)
deriving DecidableEq, Repr

/-- What some code does: it panics, or gets past the window, or stays in it and returns `ok`. -/
inductive Way where
  | boom
  | past
  | stay (w : Win) (ok : Bool)
deriving DecidableEq, Repr

/-- One call. -/
def react : Token → Win → Way
  | .seqValueBegin, w | .seqValueEnd, w | .tagHint _, w | .mapKeyEnd, w | .mapValueEnd, w
  | .recordValueEnd _ _, w | .tupleValueEnd _ _, w | .recordTupleValueEnd _ _ _, w => .stay w true
  | .enumBegin _, .start => .stay (.enums 1) true
  | .enumBegin _, .enums n => .stay (.enums (n + 1)) true
  | .enumEnd _, .enums _ => .boom
  | .recordBegin _ _, .enums n | .tupleBegin _ _, .enums n | .recordTupleBegin _ _, .enums n =>
    if n ≥ 2 then .boom else .past
  | _, _ => .past

/-- A value that is handed over: at the start it is passed on whole. In an enum it is streamed in place, and must not
fail. -/
def handedOver (w : Win) (inPlace : Way) : Way :=
  match w, inPlace with
  | .start, _ => .past
  | .enums _, .stay _ false => .past
  | .enums _, r => r

/-- And what comes after. -/
def Way.andThen : Way → (Win → Bool → Way) → Way
  | .stay w ok, f => f w ok
  | .boom, _ => .boom
  | .past, _ => .past

/-- Any code; `c` if it is given a `Computed<FlatStream>`, as by `value_computed`, which streams values in place. -/
def walk : Prog → Bool → Win → Way
  | .ret ok, _, w => .stay w ok
  | .call t k, c, w =>
    (react t w).andThen fun w ok => walk (k ok) c w
  | .value v k, c, w =>
    (if c then walk v true w else handedOver w (walk v false w)).andThen fun w ok => walk (k ok) c w
  | .valueComputed v k, c, w =>
    (handedOver w (walk v true w)).andThen fun w ok => walk (k ok) c w

/-! ## Code that is careful after errors -/

/-- Calls that put something into an empty buffer. -/
def refills : Token → Bool
  | .seqValueBegin | .tagHint _ => false
  | t => Buf.fills t

/-- The code calls no fragment after an error, until it has called something that is not a fragment, and not an end, with
success. `lost` if it is after an error; it returns with `post`. A value that is handed over may be streamed in place, or
passed on whole. -/
def Careful : Prog → Bool → (Bool → Bool → Prop) → Prop
  | .ret ok, lost, post => post ok lost
  | .call t k, lost, post =>
    (lost = true → isFrag t = false) ∧ Careful (k true) (lost && !refills t) post ∧ Careful (k false) true post
  | .value v k, lost, post =>
    Careful v lost (fun ok l => Careful (k ok) (l || !ok) post) ∧ ∀ ok, Careful (k ok) (!ok) post
  | .valueComputed v k, lost, post =>
    Careful v lost (fun ok l => Careful (k ok) (l || !ok) post) ∧ ∀ ok, Careful (k ok) (!ok) post

theorem careful_only (p : Prog) : ∀ (l : Bool) (post : Bool → Bool → Prop), (∀ ok l, post ok l) →
    p.Only (fun t => isFrag t = false) → Careful p l post := by
  induction p with
  | ret ok => exact fun l post h _ => h ok l
  | call t k ih => exact fun l post h hp => ⟨fun _ => hp.1, ih true _ post h (hp.2 true), ih false _ post h (hp.2 false)⟩
  | value v k ihv ih => exact fun l post h hp => ⟨ihv l _ (fun ok l => ih ok _ post h (hp.2 ok)) hp.1, fun ok => ih ok _ post h (hp.2 ok)⟩
  | valueComputed v k ihv ih => exact fun l post h hp => ⟨ihv l _ (fun ok l => ih ok _ post h (hp.2 ok)) hp.1, fun ok => ih ok _ post h (hp.2 ok)⟩

theorem careful_propagates (p : Prog) : ∀ post : Bool → Bool → Prop, post true false → (∀ l, post false l) →
    p.Propagates → Careful p false post := by
  have values : ∀ (v : Prog) (k : Bool → Prog) (post : Bool → Bool → Prop),
      (∀ post : Bool → Bool → Prop, post true false → (∀ l, post false l) → v.Propagates → Careful v false post) →
      (∀ ok, ∀ post : Bool → Bool → Prop, post true false → (∀ l, post false l) → (k ok).Propagates → Careful (k ok) false post) →
      post true false → (∀ l, post false l) → v.Propagates ∧ k false = .ret false ∧ (k true).Propagates →
      Careful v false (fun ok l => Careful (k ok) (l || !ok) post) ∧ ∀ ok, Careful (k ok) (!ok) post := by
    rintro v k post ihv ih h1 h2 ⟨hv, hf, hk⟩
    refine ⟨ihv _ (ih true post h1 h2 hk) (fun l => ?_) hv, fun ok => ?_⟩
    · rw [hf]; exact h2 _
    · cases ok with
      | true => exact ih true post h1 h2 hk
      | false => rw [hf]; exact h2 _
  induction p with
  | ret ok =>
    intro post h1 h2 _
    cases ok with
    | true => exact h1
    | false => exact h2 _
  | call t k ih =>
    rintro post h1 h2 ⟨hf, hk⟩
    refine ⟨fun h => (by cases h), ih true post h1 h2 hk, ?_⟩
    rw [hf]
    exact h2 _
  | value v k ihv ih => exact fun post h1 h2 hp => values v k post ihv ih h1 h2 hp
  | valueComputed v k ihv ih => exact fun post h1 h2 hp => values v k post ihv ih h1 h2 hp

/-! ## Past the window -/

section
variable {σ : Type}

/-- A buffer on which the calls to come do not panic. After an error it may be empty. -/
def Holds (l : Bool) (b : Buf.St) : Prop := if l then Shape b.parts b.stack else Firm b

theorem Holds.firm {l : Bool} {b : Buf.St} (h : Firm b) : Holds l b := by
  cases l with
  | true => exact h.1
  | false => exact h

theorem Holds.mono {l l' : Bool} (hl : l = true → l' = true) {b : Buf.St} (h : Holds l b) : Holds l' b := by
  cases l with
  | true => rw [hl rfl]; exact h
  | false => exact .firm h

theorem shape_nil {b : Buf.St} (h : Shape b.parts b.stack) (hp : b.parts = []) : b.stack = [] := by
  revert h hp
  generalize b.parts = P
  generalize b.stack = S
  intro h hp
  cases h with
  | base _ => rfl
  | _ => simp at hp

theorem holds_step {l : Bool} {t : Token} (ht : l = true → isFrag t = false) {b : Buf.St} (h : Holds l b) :
    match Buf.step true t b with
    | .panic => False
    | .ok b' => Holds (l && !Buf.fills t) b'
    | .err _ b' => Holds true b' := by
  have firm : Firm b → match Buf.step true t b with
      | .panic => False
      | .ok b' => Holds (l && !Buf.fills t) b'
      | .err _ b' => Holds true b' := by
    intro h
    have := Buf.firm_step (t := t) (b := b) h
    revert this
    cases Buf.step true t b with
    | panic => exact id
    | ok b' => exact fun h => .firm h
    | err _ b' => exact fun h => .firm h
  cases l with
  | false => exact firm h
  | true =>
    by_cases hp : b.parts = []
    · have := Buf.bare_step (t := t) (b := b) ⟨hp, shape_nil h hp⟩
      rw [ht rfl, if_neg (by simp)] at this
      revert this
      cases Buf.step true t b with
      | panic => exact id
      | ok b' =>
        intro this
        cases hfi : Buf.fills t with
        | true => rw [hfi] at this; exact this
        | false =>
          rw [hfi] at this
          have : Buf.Bare b' := this
          show Shape b'.parts b'.stack
          rw [this.1, this.2]
          exact .base .nil
      | err _ b' =>
        intro this
        show Shape b'.parts b'.stack
        rw [this.2.1, this.2.2]
        exact .base .nil
    · exact firm ⟨h, hp⟩

theorem holds_begin {t : Token} (ht : isBegin t = true) :
    match Buf.step true t {} with
    | .panic => False
    | .ok b => Firm b
    | .err _ _ => True := by
  have hb := Buf.bare_step (t := t) (b := {}) ⟨rfl, rfl⟩
  have h1 : isFrag t = false := by cases t <;> first | rfl | cases ht
  have h2 : Buf.fills t = true := by cases t <;> first | rfl | cases ht
  rw [h1, if_neg (by simp)] at hb
  cases e : Buf.step true t {} with
  | panic => rw [e] at hb; exact hb
  | ok b => rw [e, h2] at hb; exact hb
  | err x b => trivial

theorem fills_tok (W : Wrapper) (t : Token) : Buf.fills (W.tok t) = Buf.fills t := by
  induction W generalizing t with
  | base => rfl
  | computed W ih => rw [Wrapper.tok, ih]; cases t <;> rfl
  | fwd W ih => rw [Wrapper.tok, ih]; cases t <;> rfl
  | dyn W ih => rw [Wrapper.tok, ih]; cases t <;> rfl

theorem refills_fills {t : Token} (h : refills t = true) : Buf.fills t = true := by
  cases t <;> first | rfl | cases h

/-- Careful code on a buffer. -/
theorem holds_exec (p : Prog) : ∀ (W : Wrapper) (b : Buf.St) (l : Bool) (post : Bool → Bool → Prop), Careful p l post → Holds l b →
    (Sval.exec (guarded (Buf.step true)) p W (b, false)).1.2 = false ∧
    ∃ l', post (Sval.exec (guarded (Buf.step true)) p W (b, false)).2 l' ∧
      Holds l' (Sval.exec (guarded (Buf.step true)) p W (b, false)).1.1 := by
  have values : ∀ (v : Prog) (k : Bool → Prog) (W W' : Wrapper) (b : Buf.St) (l : Bool) (post : Bool → Bool → Prop),
      (∀ (W : Wrapper) (b : Buf.St) (l : Bool) (post : Bool → Bool → Prop), Careful v l post → Holds l b →
        (Sval.exec (guarded (Buf.step true)) v W (b, false)).1.2 = false ∧
        ∃ l', post (Sval.exec (guarded (Buf.step true)) v W (b, false)).2 l' ∧
          Holds l' (Sval.exec (guarded (Buf.step true)) v W (b, false)).1.1) →
      (∀ ok (W : Wrapper) (b : Buf.St) (l : Bool) (post : Bool → Bool → Prop), Careful (k ok) l post → Holds l b →
        (Sval.exec (guarded (Buf.step true)) (k ok) W (b, false)).1.2 = false ∧
        ∃ l', post (Sval.exec (guarded (Buf.step true)) (k ok) W (b, false)).2 l' ∧
          Holds l' (Sval.exec (guarded (Buf.step true)) (k ok) W (b, false)).1.1) →
      Careful v l (fun ok l => Careful (k ok) (l || !ok) post) → Holds l b → ∀ r, r = Sval.exec (guarded (Buf.step true)) v W' (b, false) →
      (Sval.exec (guarded (Buf.step true)) (k r.2) W r.1).1.2 = false ∧
      ∃ l', post (Sval.exec (guarded (Buf.step true)) (k r.2) W r.1).2 l' ∧
        Holds l' (Sval.exec (guarded (Buf.step true)) (k r.2) W r.1).1.1 := by
    intro v k W W' b l post ihv ih hv h r hr
    obtain ⟨h1, l', h2, h3⟩ := ihv W' b l _ hv h
    rw [← hr] at h1 h2 h3
    obtain ⟨⟨b', f⟩, ok⟩ := r
    dsimp only at h1 h2 h3
    subst h1
    exact ih ok W b' _ post h2 (h3.mono (by intro h; simp [h]))
  induction p with
  | ret ok => exact fun W b l post hp h => ⟨rfl, l, hp, h⟩
  | call t k ih =>
    rintro W b l post ⟨ht, hk, hl⟩ h
    have := holds_step (t := W.tok t) (by rw [frag_tok]; exact ht) h
    rw [fills_tok] at this
    simp only [Sval.exec, guarded, Bool.false_eq_true, if_false]
    cases e : Buf.step true (W.tok t) b with
    | panic => rw [e] at this; exact this.elim
    | ok b' =>
      rw [e] at this
      refine ih true W b' _ post hk (this.mono ?_)
      cases l with
      | false => exact id
      | true =>
        simp only [Bool.true_and, Bool.not_eq_true']
        intro h
        cases hr : refills t with
        | false => rfl
        | true => rw [refills_fills hr] at h; cases h
    | err x b' => rw [e] at this; exact ih false W b' _ post hl this
  | value v k ihv ih => exact fun W b l post hp h => values v k W _ b l post ihv ih hp.1 h _ rfl
  | valueComputed v k ihv ih => exact fun W b l post hp h => values v k W _ b l post ihv ih hp.1 h _ rfl

/-- What holds of the buffer. -/
def BufOk (l : Bool) (st : St σ) : Prop := ∀ b, st.buf = some (.value b) → Holds l b

/-- The state is neither that of the beginning nor that of an enum without a variant, or there is a text in the way. -/
def Past (l : Bool) (st : St σ) : Prop :=
  BufOk l st ∧ ((st.mode ≠ .any ∧ ∀ q, st.mode ≠ .enum q) ∨ (∃ x, st.buf = some (.text x)) ∨ ∃ x, st.buf = some (.binary x))

theorem Past.mono {l l' : Bool} (hl : l = true → l' = true) {st : St σ} (h : Past l st) : Past l' st :=
  ⟨fun b hb => (h.1 b hb).mono hl, h.2⟩

/-- The result of a method inside `try_catch`. -/
def Inner (l : Bool) : Res Unit (St σ) → Prop
  | .panic => False
  | .ok st => Past l st
  | .err _ st => BufOk true st

/-- The result of a call. -/
def Fine (l : Bool) : Res Unit (St σ) → Prop
  | .panic => False
  | .ok st => Past l st
  | .err _ st => Past true st

/-- The result of a callback. -/
def Keep (l : Bool) : Res Unit (St σ) → Prop
  | .panic => False
  | .ok st => BufOk l st
  | .err _ st => BufOk true st

theorem BufOk.lost {l : Bool} {st : St σ} (h : BufOk l st) : BufOk true st := fun b hb => (h b hb).mono fun _ => rfl

theorem Inner.fine {l : Bool} {a : Act σ} {st : St σ} (h : Inner l (a st)) : Fine l (tryCatch a st) := by
  simp only [tryCatch]
  cases e : a st with
  | panic => rw [e] at h; exact h
  | ok s => rw [e] at h; exact h
  | err x s => rw [e] at h; exact ⟨h, .inl ⟨by simp, by simp⟩⟩

theorem Inner.any {l : Bool} {r : Res Unit (St σ)} (h : Inner false r) : Inner l r := by
  cases r with
  | panic => exact h
  | ok st => exact Past.mono (by simp) h
  | err e st => exact h

theorem Keep.bind {l : Bool} {r : Res Unit (St σ)} {f : Act σ} (h : Keep l r) (hf : ∀ st, BufOk l st → Keep l (f st)) :
    Keep l (r.bind f) := by
  cases r with
  | panic => exact h
  | ok st => exact hf st h
  | err e st => exact h

/-- Modes past the window. -/
def Mode.late (m : Mode) : Prop := m ≠ .any ∧ ∀ q, m ≠ .enum q

theorem Keep.to {l : Bool} {r : Res Unit (St σ)} (h : Keep l r) {m : Mode} (hm : m.late) : Inner l (r.bind (toMode m)) := by
  cases r with
  | panic => exact h
  | ok st => exact ⟨h, .inl hm⟩
  | err e st => exact h

theorem Past.late {l : Bool} {st : St σ} (h : Past l st) (ht : ∀ x, st.buf ≠ some (.text x)) (hb : ∀ x, st.buf ≠ some (.binary x)) :
    st.mode.late := by
  rcases h.2 with h | ⟨x, h⟩ | ⟨x, h⟩
  · exact h
  · exact absurd h (ht x)
  · exact absurd h (hb x)

theorem Past.late_none {l : Bool} {st : St σ} (h : Past l st) (hn : st.buf = none) : st.mode.late :=
  h.late (by simp [hn]) (by simp [hn])

theorem Past.late_value {l : Bool} {st : St σ} (h : Past l st) {b : Buf.St} (hn : st.buf = some (.value b)) : st.mode.late :=
  h.late (by simp [hn]) (by simp [hn])

variable {C : Cb → σ → Res Unit σ} {l : Bool} (hC : ∀ c s, C c s ≠ .panic)
include hC

theorem keep_cb (c : Cb) (st : St σ) (h : BufOk l st) : Keep l (cb C c st) := by
  simp only [cb]
  cases e : C c st.s with
  | panic => exact absurd e (hC _ _)
  | ok s => exact h
  | err x s => exact h.lost

theorem inner_cb (c : Cb) (st : St σ) (h : Past l st) : Inner l (cb C c st) := by
  simp only [cb]
  cases e : C c st.s with
  | panic => exact absurd e (hC _ _)
  | ok s => exact h
  | err x s => exact h.1.lost

theorem keep_nest (q : List Meta) {a : Act σ} (ha : ∀ st, BufOk l st → Keep l (a st)) (st : St σ) (h : BufOk l st) :
    Keep l (nest C q a st) := by
  induction q generalizing st with
  | nil => exact ha st h
  | cons m q ih => exact ((keep_cb hC _ st h).bind ih).bind (keep_cb hC _)

theorem inner_put (any : Cb) (a : Arg) (st : St σ) (h : BufOk l st) : Inner l (put C any a st) := by
  have into : ∀ (m : Mode) (c : Cb), m.late → Inner l (cb C c { st with mode := m }) := fun m c hm =>
    inner_cb hC c _ ⟨h, .inl hm⟩
  have here : ∀ (c : Cb), st.mode.late → Inner l (cb C c st) := fun c hm => inner_cb hC c _ ⟨h, .inl hm⟩
  rw [put]
  split
  · exact (keep_cb hC _ st h).to (by simp [Mode.late])
  · exact (keep_cb hC _ st h).to (by simp [Mode.late])
  · rename_i hm; exact here _ (by rw [hm]; simp [Mode.late])
  · rename_i hm; exact here _ (by rw [hm]; simp [Mode.late])
  · rename_i hm; exact here _ (by rw [hm]; simp [Mode.late])
  · exact into _ _ (by simp [Mode.late])
  · exact into _ _ (by simp [Mode.late])
  · exact into _ _ (by simp [Mode.late])
  · exact into _ _ (by simp [Mode.late])
  · exact (keep_nest hC _ (keep_cb hC _) st h).to (by simp [Mode.late])
  all_goals exact h.lost

omit hC in
theorem bufOk_empty {st : St σ} (h : st.buf = some (.value {})) : BufOk true st := by
  intro b hb
  rw [h] at hb
  cases hb
  exact .base .nil

omit hC in
theorem inner_buffered (t : Token) (ht : l = true → isFrag t = false) (st : St σ) (b : Buf.St) (h : Past l st)
    (hb : st.buf = some (.value b)) : Inner (l && !Buf.fills t) (buffered st (Buf.step true t b)) := by
  have := holds_step ht (h.1 b hb)
  cases e : Buf.step true t b with
  | panic => rw [e] at this; exact this
  | ok b' => rw [e] at this; exact ⟨fun b'' h' => by cases h'; exact this, .inl (h.late_value hb)⟩
  | err x b' => exact bufOk_empty rfl

omit hC in
theorem Past.free {st : St σ} (h : Past l st) (hb : ∀ b, st.buf ≠ some (.value b)) : Past false st :=
  ⟨fun b h' => absurd h' (hb b), h.2⟩

omit hC in
theorem fine_bufferOr (t : Token) (ht : l = true → isFrag t = false) {a : Act σ} (ha : ∀ st, Past false st → Inner false (a st))
    (st : St σ) (h : Past l st) : Fine (l && !Buf.fills t) (bufferOr t a st) := by
  refine Inner.fine ?_
  split
  · rename_i b hb; exact inner_buffered t ht st b h hb
  · rename_i hb; exact (ha st (h.free hb)).any

omit hC in
theorem fine_bufferOrBegin (t : Token) (ht : isBegin t = true) (any : Act σ) (enum : List Meta → Act σ) (st : St σ) (h : Past l st) :
    Fine (l && !Buf.fills t) (bufferOrBegin t any enum st) := by
  refine Inner.fine ?_
  split
  · rename_i b hb
    exact inner_buffered t (fun _ => by cases t <;> first | rfl | cases ht) st b h hb
  · rename_i hn hm; exact absurd hm (h.late_none hn).1
  · rename_i q hn hm; exact absurd hm ((h.late_none hn).2 q)
  · rename_i hn _ _
    have hb := holds_begin ht
    cases e : Buf.step true t {} with
    | panic => rw [e] at hb; exact hb
    | ok b => rw [e] at hb; exact ⟨fun b' h' => by cases h'; exact Holds.firm hb, .inl (h.late_none hn)⟩
    | err x b => exact h.1.lost
  · exact h.1.lost

theorem fine_bufferOrEnd (t : Token) (ht : isFrag t = false) {a : Act σ}
    (ha : ∀ st, st.mode.late → BufOk false st → Keep false (a st)) (st : St σ) (h : Past l st) :
    Fine (l && !Buf.fills t) (bufferOrEnd C t a st) := by
  refine Inner.fine ?_
  split
  · rename_i hn
    exact ((ha st (h.late_none hn) (h.free (by simp [hn])).1).to (by simp [Mode.late])).any
  · rename_i b hb
    have := holds_step (fun _ => ht) (h.1 b hb)
    cases e : Buf.step true t b with
    | panic => rw [e] at this; exact this
    | err x b' => exact bufOk_empty rfl
    | ok b' =>
      rw [e] at this
      simp only
      split
      · exact (inner_put hC _ _ _ fun b h' => by cases h').any
      · exact ⟨fun b'' h' => by cases h'; exact this, .inl (h.late_value hb)⟩
  · exact h.1.lost

theorem fine_call (t : Token) (ht : l = true → isFrag t = false) (st : St σ) (h : Past l st) :
    Fine (l && !refills t) (call C t st) := by
  have good : ∀ st : St σ, Past false st → Inner false (Res.ok st) := fun _ h => h
  have empty : ∀ st : St σ, BufOk false { st with buf := none } := fun _ b h' => by cases h'
  have putting : ∀ (any : Cb) (a : Arg) (st : St σ), Past false st → Inner false (put C any a st) := fun any a st h => inner_put hC any a st h.1
  have texts : ∀ f, ∀ st : St σ, Past false st → Inner false (withText f st) := by
    intro f st h
    rw [withText]
    split
    · split
      · exact ⟨fun b' h' => (by cases h'), .inr (.inl ⟨_, rfl⟩)⟩
      · exact h.1.lost
    · exact h.1.lost
  have bins : ∀ f, ∀ st : St σ, Past false st → Inner false (withBinary f st) := by
    intro f st h
    rw [withBinary]
    split
    · split
      · exact ⟨fun b' h' => (by cases h'), .inr (.inr ⟨_, rfl⟩)⟩
      · exact h.1.lost
    · exact h.1.lost
  have fins : ∀ st : St σ, BufOk false st → Keep false (finish st) := by
    intro st h
    rw [finish]
    split
    · exact h
    · exact h.lost
  have still : Past (l && !false) st := h.mono (by simp)
  cases t with
  | null | bool _ | int _ _ | f32 _ | f64 _ => exact fine_bufferOr _ ht (putting _ _) st h
  | textBegin n =>
    refine fine_bufferOr _ ht (fun st h => ?_) st h
    rw [putBuffer]
    split
    · exact ⟨fun b' h' => (by cases h'), .inr (.inl ⟨_, rfl⟩)⟩
    · exact h.1.lost
  | binaryBegin n =>
    refine fine_bufferOr _ ht (fun st h => ?_) st h
    rw [putBuffer]
    split
    · exact ⟨fun b' h' => (by cases h'), .inr (.inr ⟨_, rfl⟩)⟩
    · exact h.1.lost
  | textFragment f | textFragmentComputed f => exact fine_bufferOr _ ht (texts _) st h
  | binaryFragment f | binaryFragmentComputed f => exact fine_bufferOr _ ht (bins _) st h
  | textEnd | binaryEnd =>
    refine fine_bufferOr _ ht (fun st h => ?_) st h
    split
    · split <;> exact inner_put hC _ _ _ (empty st)
    · exact h.1.lost
  | tag m =>
    refine fine_bufferOr _ ht (fun st h => ?_) st h
    split
    · exact (keep_nest hC _ (keep_cb hC _) st h.1).to (by simp [Mode.late])
    · exact putting _ _ st h
  | enumBegin m => exact fine_bufferOrBegin _ rfl _ _ st h
  | seqBegin n => exact fine_bufferOrBegin _ rfl _ _ st h
  | mapBegin n => exact fine_bufferOrBegin _ rfl _ _ st h
  | tupleBegin m n => exact fine_bufferOrBegin _ rfl _ _ st h
  | recordBegin m n => exact fine_bufferOrBegin _ rfl _ _ st h
  | recordTupleBegin m n => exact fine_bufferOrBegin _ rfl _ _ st h
  | taggedBegin m => exact fine_bufferOrBegin _ rfl _ _ st h
  | seqValueBegin | seqValueEnd | tagHint _ => exact still
  | mapKeyEnd | mapValueEnd | recordValueEnd _ _ | tupleValueEnd _ _ | recordTupleValueEnd _ _ _ =>
    exact fine_bufferOr _ (fun _ => rfl) good st h
  | mapKeyBegin | mapValueBegin | recordValueBegin _ _ | tupleValueBegin _ _ | recordTupleValueBegin _ _ _ =>
    refine fine_bufferOr _ (fun _ => rfl) (fun st h => ?_) st h
    split <;> first | exact h.1.lost | exact ⟨h.1, .inl ⟨by simp, by simp⟩⟩
  | seqEnd =>
    refine fine_bufferOrEnd hC _ rfl (fun st _ h => ?_) st h
    split
    · exact keep_cb hC _ st h
    · exact h.lost
  | mapEnd | recordEnd _ | tupleEnd _ =>
    refine fine_bufferOrEnd hC _ rfl (fun st _ h => ?_) st h
    split <;> first | exact keep_cb hC _ st h | exact h.lost
  | recordTupleEnd _ =>
    refine fine_bufferOrEnd hC _ rfl (fun st _ h => ?_) st h
    split <;> first | exact keep_cb hC _ st h | exact h.lost
  | enumEnd m =>
    refine fine_bufferOrEnd hC _ rfl (fun st hm h => ?_) st h
    split
    · rename_i q hq; exact absurd hq (hm.2 q)
    · exact fins st h
    · exact h.lost
  | taggedEnd m => exact fine_bufferOrEnd hC _ rfl (fun st _ h => fins st h) st h

/-- The result of some code past the window. -/
def Calmed (post : Bool → Bool → Prop) (o : Outcome (St σ)) : Prop :=
  ∃ ok st l, o = .done ok st ∧ post ok l ∧ Past l st

omit hC in
theorem Calmed.shift {post : Bool → Bool → Prop} {o : Outcome (St σ)} (h : Calmed (fun ok l => post ok (l || !ok)) o) : Calmed post o := by
  obtain ⟨ok, st, l, rfl, h1, h2⟩ := h
  exact ⟨ok, st, _, rfl, h1, h2.mono (by intro h; simp [h])⟩

omit hC in
theorem calmed_go {post : Bool → Bool → Prop} {o : Outcome (St σ)} (h : Calmed (fun ok l => post ok (l || !ok)) o) :
    Calmed post (match o with
      | .done true st => .done true st
      | .done false st => .done false { st with mode := .done false }
      | .panicked => .panicked) := by
  obtain ⟨ok, st, l, rfl, h1, h2⟩ := h
  cases ok with
  | true => exact ⟨true, st, _, rfl, h1, h2.mono (by intro h; simp [h])⟩
  | false => exact ⟨false, _, _, rfl, h1, fun b hb => (h2.1 b hb).mono (by simp), .inl ⟨by simp, by simp⟩⟩

theorem calmed_put {post : Bool → Bool → Prop} (hp : ∀ ok, post ok (!ok)) (any : Cb) (a : Arg) (st : St σ) (h : BufOk false st) :
    Calmed post (tryCatch (put C any a) st).outcome := by
  have := Inner.fine (inner_put hC any a st h)
  cases e : tryCatch (put C any a) st with
  | panic => rw [e] at this; exact this.elim
  | ok s => rw [e] at this; exact ⟨_, _, _, rfl, hp true, this⟩
  | err x s => rw [e] at this; exact ⟨_, _, _, rfl, hp false, this⟩

theorem fine_delegate {post : Bool → Bool → Prop} (v : Prog) (hv : Careful v l fun ok l => post ok (l || !ok)) (hp : ∀ ok, post ok (!ok)) (c : Bool)
    (go : St σ → Outcome (St σ)) (st : St σ) (h : Past l st) (hg : Calmed (fun ok l => post ok (l || !ok)) (go st)) :
    Calmed post (delegate C v c go st) := by
  simp only [delegate]
  split
  · rename_i b hb
    obtain ⟨h1, l', h2, h3⟩ := holds_exec v (if c then .computed .base else .base) b l _ hv (h.1 b hb)
    simp only [bufValue, h1, Bool.false_eq_true, if_false]
    cases e : (Sval.exec (guarded (Buf.step true)) v (if c then .computed .base else .base) (b, false)).2 with
    | true =>
      rw [e] at h2
      exact ⟨true, _, _, rfl, h2, fun b' h' => (by cases h'; exact h3.mono (by intro h; simp [h])), .inl (h.late_value hb)⟩
    | false =>
      rw [e] at h2
      exact ⟨false, _, _, rfl, h2, fun b' h' => (by cases h'; simp only [Bool.not_false, Bool.or_true]; exact .base .nil),
        .inl ⟨by simp, by simp⟩⟩
  · rename_i hb
    split
    · exact calmed_go hg
    · exact calmed_put hC hp _ _ st (h.free hb).1

omit hC in
theorem calmed_next {post : Bool → Bool → Prop} {k : Bool → Prog} {c : Bool}
    (hk : ∀ ok l st, Careful (k ok) l post → Past l st → Calmed post (exec C (k ok) c st))
    (o : Outcome (St σ)) (ho : Calmed (fun ok l => Careful (k ok) l post) o) :
    Calmed post (match o with | .done ok st => exec C (k ok) c st | .panicked => .panicked) := by
  obtain ⟨ok, st, l, rfl, h1, h2⟩ := ho
  exact hk ok l st h1 h2

omit hC in
theorem refills_computed (t : Token) (c : Bool) : refills (if c then computedTok t else t) = refills t := by
  cases c with
  | false => rfl
  | true => cases t <;> rfl

omit hC in
theorem frag_computed (t : Token) (c : Bool) : isFrag (if c then computedTok t else t) = isFrag t := by
  cases c with
  | false => rfl
  | true => cases t <;> rfl

theorem past_exec (p : Prog) : ∀ (c : Bool) (st : St σ) (l : Bool) (post : Bool → Bool → Prop), Careful p l post → Past l st →
    Calmed post (exec C p c st) := by
  induction p with
  | ret ok => exact fun c st l post hp h => ⟨ok, st, l, rfl, hp, h⟩
  | call t k ih =>
    rintro c st l post ⟨ht, hk, hl⟩ h
    have hcall := fine_call hC (if c then computedTok t else t) (by rw [frag_computed]; exact ht) st h
    rw [refills_computed] at hcall
    simp only [exec]
    cases e : call C (if c then computedTok t else t) st with
    | panic => rw [e] at hcall; exact hcall.elim
    | ok st1 => rw [e] at hcall; exact ih true c st1 _ post hk hcall
    | err x st1 => rw [e] at hcall; exact ih false c st1 _ post hl hcall
  | value v k ihv ih =>
    rintro c st l post ⟨hv, hk⟩ h
    simp only [exec]
    refine calmed_next (fun ok l st h1 h2 => ih ok c st l post h1 h2) _ ?_
    split
    · exact (ihv true st l _ hv h).shift
    · exact fine_delegate hC (post := fun ok l => Careful (k ok) l post) v hv hk false _ st h (ihv false st l _ hv h)
  | valueComputed v k ihv ih =>
    rintro c st l post ⟨hv, hk⟩ h
    simp only [exec]
    exact calmed_next (fun ok l st h1 h2 => ih ok c st l post h1 h2) _
      (fine_delegate hC (post := fun ok l => Careful (k ok) l post) v hv hk true _ st h (ihv true st l _ hv h))

/-! ## In the window -/

/-- The state. -/
def InWin (w : Win) (st : St σ) : Prop :=
  st.buf = none ∧
    match w with
    | .start => st.mode = .any
    | .enums n => ∃ q, st.mode = .enum q ∧ n = q.length + 1

/-- What a call does, if the callbacks may fail (`mf`) or not. -/
def Meets (mf : Bool) (r : Way) (x : Res Unit (St σ)) : Prop :=
  match r with
  | .past => Fine false x
  | .boom => x = .panic ∨ mf = true ∧ Fine false x
  | .stay w ok => (ok = true ∧ ∃ st, x = .ok st ∧ InWin w st) ∨ mf = true ∧ Fine false x

variable {mf : Bool} (hf : mf = false → ∀ c s, ∃ s', C c s = .ok s')
include hf

omit hC in
theorem nest_panic (q : List Meta) (st : St σ) :
    nest C q (fun _ => .panic) st = .panic ∨
      mf = true ∧ ∃ e st', nest C q (fun _ => .panic) st = .err e st' ∧ st'.buf = st.buf := by
  induction q generalizing st with
  | nil => exact .inl rfl
  | cons m q ih =>
    simp only [nest]
    cases e : cb C (.nestedBegin m) st with
    | panic => exact .inl (by simp [Res.bind])
    | err x st1 =>
      refine .inr ⟨?_, x, st1, by simp [Res.bind], ?_⟩
      · cases hm : mf with
        | true => rfl
        | false =>
          obtain ⟨s', hs⟩ := hf hm (.nestedBegin m) st.s
          simp [cb, hs] at e
      · simp only [cb] at e
        split at e <;> cases e
        rfl
    | ok st1 =>
      have hb : st1.buf = st.buf := by
        simp only [cb] at e
        split at e <;> cases e
        rfl
      rcases ih st1 with h | ⟨h1, e2, st2, h2, h3⟩
      · exact .inl (by simp [Res.bind, h])
      · exact .inr ⟨h1, e2, st2, by simp [Res.bind, h2], h3.trans hb⟩

omit hC in
/-- An enum that ends without a variant, or whose variant is in an enum that is in it. -/
theorem meets_endless (q : List Meta) (m : Mode) (st : St σ) (hb : st.buf = none) :
    Meets mf .boom (tryCatch (fun st => (nest C q (fun _ => .panic) st).bind (toMode m)) st) := by
  simp only [tryCatch]
  rcases nest_panic hf q st with h | ⟨h1, e, st', h2, h3⟩
  · exact .inl (by simp [h, Res.bind])
  · refine .inr ⟨h1, ?_⟩
    simp only [h2, Res.bind]
    exact ⟨fun b h' => (by simp [h3, hb] at h'), .inl ⟨by simp, by simp⟩⟩

omit hC hf in
theorem bufOk_none {st : St σ} (h : st.buf = none) : BufOk l st := fun b h' => by rw [h] at h'; cases h'

omit hC hf in
theorem win_bufferOr (t : Token) {a : Act σ} (st : St σ) (hb : st.buf = none) (h : Inner false (a st)) : Fine false (bufferOr t a st) := by
  refine Inner.fine ?_
  rw [hb]
  exact h

omit hC hf in
theorem win_idle (t : Token) (st : St σ) (hb : st.buf = none) : bufferOr t .ok st = .ok st := by
  simp [bufferOr, tryCatch, hb]

omit hC hf in
theorem win_begin (t : Token) {any : Act σ} {enum : List Meta → Act σ} (st : St σ) (hb : st.buf = none)
    (ha : st.mode = .any → Inner false (any st)) (he : ∀ q, st.mode = .enum q → Inner false (enum q st)) (hw : st.mode = .any ∨ ∃ q, st.mode = .enum q) :
    Fine false (bufferOrBegin t any enum st) := by
  refine Inner.fine ?_
  rcases hw with hw | ⟨q, hw⟩
  · simp only [hb, hw]; exact ha hw
  · simp only [hb, hw]; exact he q hw

omit hC hf in
theorem win_end (t : Token) {a : Act σ} (st : St σ) (hb : st.buf = none) (h : Keep false (a st)) : Fine false (bufferOrEnd C t a st) := by
  refine Inner.fine ?_
  simp only [hb]
  exact h.to (by simp [Mode.late])

omit hf in
/-- A record or a tuple begins. -/
theorem meets_begin (t : Token) (c c' : Cb) (m m' : Mode) (hm : m.late) (hm' : m'.late) {w : Win} (st : St σ) (h : InWin w st) :
    Meets mf (match w with | .start => .past | .enums n => if n ≥ 2 then .boom else .past)
      (bufferOrBegin t (fun st => (cb C c st).bind (toMode m))
        (fun q st => if q = [] then (cb C c' st).bind (toMode m') else .panic) st) := by
  obtain ⟨hb, hw⟩ := h
  cases w with
  | start => exact win_begin t st hb (fun _ => (keep_cb hC _ st (bufOk_none hb)).to hm) (fun q h => by rw [hw] at h; cases h) (.inl hw)
  | enums n =>
    obtain ⟨q, hw, rfl⟩ := hw
    cases q with
    | nil =>
      refine win_begin t st hb (fun h => by rw [hw] at h; cases h) (fun q h => ?_) (.inr ⟨_, hw⟩)
      rw [hw] at h
      cases h
      exact (keep_cb hC _ st (bufOk_none hb)).to hm'
    | cons x q =>
      have : (x :: q).length + 1 ≥ 2 := by simp
      simp only [this, if_true]
      exact .inl (by simp [bufferOrBegin, tryCatch, hb, hw])

theorem meets_call (t : Token) {w : Win} (st : St σ) (h : InWin w st) : Meets mf (react t w) (call C t st) := by
  have hb := h.1
  have hw : st.mode = .any ∨ ∃ q, st.mode = .enum q := by
    cases w with
    | start => exact .inl h.2
    | enums n => obtain ⟨q, h, _⟩ := h.2; exact .inr ⟨q, h⟩
  have ok : BufOk false st := bufOk_none hb
  have same : Meets mf (.stay w true) (.ok st) := .inl ⟨rfl, st, rfl, h⟩
  have no : Inner false (Res.err () st) := ok.lost
  have no' : Keep false (Res.err () st) := ok.lost
  cases t with
  | null | bool _ | int _ _ | f32 _ | f64 _ => exact win_bufferOr _ st hb (inner_put hC _ _ st ok)
  | textBegin n =>
    refine win_bufferOr _ st hb ?_
    simp only [putBuffer, hb]
    exact ⟨fun b h' => (by cases h'), .inr (.inl ⟨_, rfl⟩)⟩
  | binaryBegin n =>
    refine win_bufferOr _ st hb ?_
    simp only [putBuffer, hb]
    exact ⟨fun b h' => (by cases h'), .inr (.inr ⟨_, rfl⟩)⟩
  | textFragment f | textFragmentComputed f =>
    refine win_bufferOr _ st hb ?_
    simp only [withText, hb]
    exact no
  | binaryFragment f | binaryFragmentComputed f =>
    refine win_bufferOr _ st hb ?_
    simp only [withBinary, hb]
    exact no
  | textEnd | binaryEnd =>
    refine win_bufferOr _ st hb ?_
    simp only [hb]
    exact no
  | tag m =>
    refine win_bufferOr _ st hb ?_
    split
    · exact (keep_nest hC _ (keep_cb hC _) st ok).to (by simp [Mode.late])
    · exact inner_put hC _ _ st ok
  | enumBegin m =>
    cases w with
    | start =>
      have hm : st.mode = .any := h.2
      have hcb := keep_cb hC (.enumBegin (cloneMeta m)) st ok
      simp only [react, call, bufferOrBegin, tryCatch, hb, hm, cb]
      cases e : C (.enumBegin (cloneMeta m)) st.s with
      | panic => exact absurd e (hC _ _)
      | ok s => exact .inl ⟨rfl, _, rfl, rfl, [], rfl, rfl⟩
      | err x s =>
        refine .inr ⟨?_, ⟨bufOk_none rfl, .inl ⟨by simp, by simp⟩⟩⟩
        cases hmf : mf with
        | true => rfl
        | false =>
          obtain ⟨s', hs⟩ := hf hmf (.enumBegin (cloneMeta m)) st.s
          rw [e] at hs
          cases hs
    | enums n =>
      obtain ⟨q, hm, rfl⟩ := h.2
      refine .inl ⟨rfl, { st with mode := .enum (q ++ [ownMeta m]) }, ?_, hb, _, rfl, by simp⟩
      simp [call, bufferOrBegin, tryCatch, hb, hm]
  | seqBegin n => exact win_begin _ st hb (fun _ => (keep_cb hC _ st ok).to (by simp [Mode.late])) (fun _ _ => no) hw
  | mapBegin n => exact win_begin _ st hb (fun _ => (keep_cb hC _ st ok).to (by simp [Mode.late])) (fun _ _ => no) hw
  | taggedBegin m =>
    exact win_begin _ st hb (any := fun st => .ok { st with mode := .tagged (ownMeta m) })
      (enum := fun q st => .ok { st with mode := .vtagged (ownMeta m) q })
      (fun _ => ⟨ok, .inl ⟨by simp, by simp⟩⟩) (fun _ _ => ⟨ok, .inl ⟨by simp, by simp⟩⟩) hw
  | tupleBegin m n => cases w <;> exact meets_begin hC _ _ _ _ _ (by simp [Mode.late]) (by simp [Mode.late]) st h
  | recordBegin m n => cases w <;> exact meets_begin hC _ _ _ _ _ (by simp [Mode.late]) (by simp [Mode.late]) st h
  | recordTupleBegin m n => cases w <;> exact meets_begin hC _ _ _ _ _ (by simp [Mode.late]) (by simp [Mode.late]) st h
  | seqValueBegin | seqValueEnd | tagHint _ => exact same
  | mapKeyEnd | mapValueEnd | recordValueEnd _ _ | tupleValueEnd _ _ | recordTupleValueEnd _ _ _ =>
    simp only [react, call, win_idle _ st hb]
    exact same
  | mapKeyBegin | mapValueBegin | recordValueBegin _ _ | tupleValueBegin _ _ | recordTupleValueBegin _ _ _ =>
    refine win_bufferOr _ st hb ?_
    rcases hw with hw | ⟨q, hw⟩ <;> (simp only [hb, hw]; exact no)
  | seqEnd =>
    refine win_end _ st hb ?_
    rcases hw with hw | ⟨q, hw⟩ <;> (simp [hw]; exact no')
  | mapEnd | recordEnd _ | tupleEnd _ | recordTupleEnd _ =>
    refine win_end _ st hb ?_
    rcases hw with hw | ⟨q, hw⟩ <;> (simp only [hw]; exact no')
  | enumEnd m =>
    cases w with
    | start =>
      refine win_end _ st hb ?_
      simp only [show st.mode = .any from h.2]
      exact no'
    | enums n =>
      obtain ⟨q, hm, rfl⟩ := h.2
      have := meets_endless hf q (.done true) st hb
      simp only [react, call, bufferOrEnd]
      simpa [tryCatch, hb, hm, endless] using this
  | taggedEnd m =>
    refine win_end _ st hb ?_
    rcases hw with hw | ⟨q, hw⟩ <;> (simp [finish, hw]; exact no')

/-! ## Any code -/

/-- What some code does. -/
def Goes (post : Bool → Bool → Prop) (mf : Bool) (r : Way) (o : Outcome (St σ)) : Prop :=
  match r with
  | .past => Calmed post o
  | .boom => o = .panicked ∨ mf = true ∧ Calmed post o
  | .stay w ok => (∃ st l, o = .done ok st ∧ InWin w st ∧ post ok l) ∨ mf = true ∧ Calmed post o

omit hC hf in
theorem Goes.of {post : Bool → Bool → Prop} {r : Way} {o : Outcome (St σ)} (h : mf = true) (ho : Calmed post o) : Goes post mf r o := by
  cases r with
  | past => exact ho
  | boom => exact .inr ⟨h, ho⟩
  | stay w ok => exact .inr ⟨h, ho⟩

omit hC hf in
theorem Goes.shift {post : Bool → Bool → Prop} {r : Way} {o : Outcome (St σ)} (h : Goes (fun ok l => post ok (l || !ok)) mf r o) : Goes post mf r o := by
  cases r with
  | past => exact Calmed.shift h
  | boom =>
    rcases h with h | ⟨h1, h2⟩
    · exact .inl h
    · exact .of h1 h2.shift
  | stay w ok =>
    rcases h with ⟨st, l, h1, h2, h3⟩ | ⟨h1, h2⟩
    · exact .inl ⟨st, _, h1, h2, h3⟩
    · exact .of h1 h2.shift

omit hf in
theorem goes_next {post : Bool → Bool → Prop} {k : Bool → Prog} (c : Bool)
    (hk : ∀ ok l w st, Careful (k ok) l post → InWin w st → Goes post mf (walk (k ok) c w) (exec C (k ok) c st))
    (r : Way) (o : Outcome (St σ)) (ho : Goes (fun ok l => Careful (k ok) l post) mf r o) :
    Goes post mf (r.andThen fun w ok => walk (k ok) c w)
      (match o with | .done ok st => exec C (k ok) c st | .panicked => .panicked) := by
  have calm := calmed_next (C := C) (c := c) (fun ok l st h1 h2 => past_exec hC (k ok) c st l post h1 h2) o
  cases r with
  | past => exact calm ho
  | boom =>
    rcases ho with rfl | ⟨h1, h2⟩
    · exact .inl rfl
    · exact .of h1 (calm h2)
  | stay w ok =>
    rcases ho with ⟨st, l, rfl, hw, hl⟩ | ⟨h1, h2⟩
    · exact hk ok l w st hl hw
    · exact .of h1 (calm h2)

omit hf in
theorem goes_delegate {post : Bool → Bool → Prop} (hp : ∀ ok, post ok (!ok)) (v : Prog) (c : Bool) (r : Way) (go : St σ → Outcome (St σ)) {w : Win}
    (st : St σ) (h : InWin w st) (hg : Goes (fun ok l => post ok (l || !ok)) mf r (go st)) :
    Goes post mf (handedOver w r) (delegate C v c go st) := by
  obtain ⟨hb, hw⟩ := h
  simp only [delegate, hb]
  cases w with
  | start =>
    simp only [show st.mode = .any from hw]
    exact calmed_put hC hp _ _ st (bufOk_none hb)
  | enums n =>
    obtain ⟨q, hm, _⟩ := hw
    simp only [hm]
    cases r with
    | past => exact calmed_go hg
    | boom =>
      rcases hg with h | ⟨h1, h2⟩
      · exact .inl (by rw [h])
      · exact .of h1 (calmed_go h2)
    | stay w ok =>
      rcases hg with ⟨st1, l, h, hi, hl⟩ | ⟨h1, h2⟩
      · cases ok with
        | true => exact .inl ⟨st1, _, by rw [h], hi, hl⟩
        | false =>
          rw [h]
          exact ⟨false, _, _, rfl, hl, bufOk_none hi.1, .inl ⟨by simp, by simp⟩⟩
      · exact .of h1 (calmed_go h2)

omit hC hf in
theorem react_computed (t : Token) (c : Bool) (w : Win) : react (if c then computedTok t else t) w = react t w := by
  cases c with
  | false => rfl
  | true => cases t <;> rfl

theorem goes_exec (p : Prog) : ∀ (c : Bool) (w : Win) (st : St σ) (l : Bool) (post : Bool → Bool → Prop), Careful p l post → InWin w st →
    Goes post mf (walk p c w) (exec C p c st) := by
  induction p with
  | ret ok => exact fun c w st l post hp h => .inl ⟨st, l, rfl, h, hp⟩
  | call t k ih =>
    rintro c w st l post ⟨ht, hk, hl⟩ h
    have hcall := meets_call hC hf (if c then computedTok t else t) st h
    rw [react_computed] at hcall
    have next := goes_next (mf := mf) (post := post) hC c (fun ok l w st => ih ok c w st l post)
    have calmed : ∀ x : Res Unit (St σ), Fine false x → Calmed (fun ok l => Careful (k ok) l post) x.outcome := by
      intro x hx
      cases x with
      | panic => exact hx.elim
      | ok s => exact ⟨_, _, _, rfl, hk, Past.mono (by simp) hx⟩
      | err x s => exact ⟨_, _, _, rfl, hl, hx⟩
    have key : ∀ x : Res Unit (St σ), Meets mf (react t w) x →
        Goes post mf (walk (.call t k) c w) (match x.outcome with | .done ok st => exec C (k ok) c st | .panicked => .panicked) := by
      intro x hx
      refine next _ _ ?_
      cases e : react t w with
      | past => rw [e] at hx; exact calmed x hx
      | boom =>
        rw [e] at hx
        rcases hx with rfl | ⟨h1, h2⟩
        · exact .inl rfl
        · exact .of h1 (calmed x h2)
      | stay w' b =>
        rw [e] at hx
        rcases hx with ⟨rfl, st1, rfl, hw⟩ | ⟨h1, h2⟩
        · exact .inl ⟨st1, _, rfl, hw, hk⟩
        · exact .of h1 (calmed x h2)
    have := key _ hcall
    simp only [exec]
    revert this
    cases call C (if c then computedTok t else t) st <;> exact id
  | value v k ihv ih =>
    rintro c w st l post ⟨hv, hk⟩ h
    simp only [exec, walk]
    refine goes_next (mf := mf) hC c (fun ok l w st => ih ok c w st l post) _ _ ?_
    cases c with
    | true => exact (ihv true w st l _ hv h).shift
    | false => exact goes_delegate hC (post := fun ok l => Careful (k ok) l post) hk v false _ _ st h (ihv false w st l _ hv h)
  | valueComputed v k ihv ih =>
    rintro c w st l post ⟨hv, hk⟩ h
    simp only [exec, walk]
    exact goes_next (mf := mf) hC c (fun ok l w st => ih ok c w st l post) _ _
      (goes_delegate hC (post := fun ok l => Careful (k ok) l post) hk v true _ _ st h (ihv true w st l _ hv h))

theorem goes_stream (p : Prog) (c : Bool) (s : σ) (hp : Careful p false fun _ _ => True) :
    (stream C c p s = .panicked → walk p c .start = .boom) ∧ (mf = false → walk p c .start = .boom → stream C c p s = .panicked) := by
  have := goes_exec hC hf p c .start { s } _ _ hp ⟨rfl, rfl⟩
  simp only [stream]
  cases e : walk p c .start with
  | boom =>
    rw [e] at this
    refine ⟨fun _ => rfl, fun hm _ => ?_⟩
    rcases this with h | ⟨h, _⟩
    · rw [h]
    · rw [hm] at h; cases h
  | past =>
    rw [e] at this
    obtain ⟨ok, st, _, h, _⟩ := this
    rw [h]
    exact ⟨fun h => absurd h (by simp), fun _ h => absurd h (by simp)⟩
  | stay w ok =>
    rw [e] at this
    have : ∃ ok st, exec C p c { s } = .done ok st := by
      rcases this with ⟨st, _, h, _⟩ | ⟨_, ok, st, _, h, _⟩
      · exact ⟨_, _, h⟩
      · exact ⟨_, _, h⟩
    obtain ⟨ok, st, h⟩ := this
    rw [h]
    exact ⟨fun h => absurd h (by simp), fun _ h => absurd h (by simp)⟩

end

end Sval.Nested
