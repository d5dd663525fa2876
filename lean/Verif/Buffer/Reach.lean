import Verif.Buffer.Lemmas

set_option autoImplicit false

namespace Sval.Buf

/-! ## Arbitrary call sequences -/

/-- Specification: the calls that close a container. -/
def isEnd : Token → Bool
  | .mapKeyEnd | .mapValueEnd | .mapEnd | .seqValueEnd | .seqEnd | .enumEnd _ | .taggedEnd _
  | .recordValueEnd _ _ | .recordEnd _ | .tupleValueEnd _ _ | .tupleEnd _ | .recordTupleValueEnd _ _ _
  | .recordTupleEnd _ => true
  | _ => false

/-- Specification: the calls that open a container. -/
def isBegin : Token → Bool
  | .mapKeyBegin | .mapValueBegin | .mapBegin _ | .seqValueBegin | .seqBegin _ | .enumBegin _
  | .taggedBegin _ | .recordValueBegin _ _ | .recordBegin _ _ | .tupleValueBegin _ _ | .tupleBegin _ _
  | .recordTupleValueBegin _ _ _ | .recordTupleBegin _ _ => true
  | _ => false

/-- Specification: the calls that add to a text or binary. -/
def isFrag : Token → Bool
  | .textFragment _ | .textFragmentComputed _ | .binaryFragment _ | .binaryFragmentComputed _ => true
  | _ => false

inductive StepTo (t : Token) (s : St) : Res Err St → Prop where
  | push (k : Part) (b : Bool) : k.isOpened = false → isEnd t = false → isBegin t = false →
      StepTo t s (.ok { s with parts := s.parts ++ [k], inText := b })
  | begin (o : Opener) : isBegin t = true → isEnd t = false → StepTo t s (pushBegin true o s)
  | end : isEnd t = true → isBegin t = false → StepTo t s (pushEnd s)
  | text (b : Bool) : isEnd t = false → isBegin t = false → StepTo t s (.ok { s with inText := b })
  | frag (P : List Part) (k k' : Part) : isEnd t = false → isBegin t = false → s.parts = P ++ [k] →
      k.isOpened = false → k'.isOpened = false → StepTo t s (.ok { s with parts := P ++ [k'] })
  | outside : isFrag t = true → isEnd t = false → isBegin t = false →
      StepTo t s (.err .outsideContainer { s with err := some .outsideContainer })
  | none : isFrag t = true → isEnd t = false → s.parts = [] → StepTo t s .panic

theorem textPush_to (t : Token) (s : St) (g : Cow Char → Cow Char) (h : isFrag t = true)
    (he : isEnd t = false) (hb : isBegin t = false) :
    StepTo t s (textPush (fun c => .ok (g c)) s) := by
  rcases List.eq_nil_or_concat s.parts with h0 | ⟨P, k, h0⟩
  · simp only [textPush, h0, List.getLast?_nil]
    exact .none h he h0
  · rw [List.concat_eq_append] at h0
    simp only [textPush, h0, List.getLast?_concat]
    cases k with
    | text c =>
      show StepTo t s (.ok (setLast s (.text (g c))))
      rw [setLast_append P _ _ s h0]
      exact .frag P (.text c) (.text (g c)) he hb h0 rfl rfl
    | _ => exact .outside h he hb

theorem binaryPush_to (t : Token) (s : St) (g : Cow UInt8 → Cow UInt8) (h : isFrag t = true)
    (he : isEnd t = false) (hb : isBegin t = false) :
    StepTo t s (binaryPush (fun c => .ok (g c)) s) := by
  rcases List.eq_nil_or_concat s.parts with h0 | ⟨P, k, h0⟩
  · simp only [binaryPush, h0, List.getLast?_nil]
    exact .none h he h0
  · rw [List.concat_eq_append] at h0
    simp only [binaryPush, h0, List.getLast?_concat]
    cases k with
    | binary c =>
      show StepTo t s (.ok (setLast s (.binary (g c))))
      rw [setLast_append P _ _ s h0]
      exact .frag P (.binary c) (.binary (g c)) he hb h0 rfl rfl
    | _ => exact .outside h he hb

theorem push_true {α : Type} (f : List α) :
    (fun c : Cow α => c.push true f) = fun c => .ok (pushFrag c (.borrowed f)) := by
  funext c
  simp only [Cow.push, Cow.pushComputed, pushFrag, if_true]
  split <;> rfl

theorem pushComputed_true {α : Type} (f : List α) :
    (fun c : Cow α => c.pushComputed true f) = fun c => .ok (pushFrag c (.computed f)) := by
  funext c
  simp only [Cow.pushComputed, pushFrag, if_true]

theorem step_to (t : Token) (s : St) : StepTo t s (step true t s) := by
  cases t with
  | null => exact .push .null s.inText rfl rfl rfl
  | bool b => exact .push (.bool b) s.inText rfl rfl rfl
  | int t v => exact .push (.int t v) s.inText rfl rfl rfl
  | f32 b => exact .push (.f32 b) s.inText rfl rfl rfl
  | f64 b => exact .push (.f64 b) s.inText rfl rfl rfl
  | textBegin n => exact .push (.text .new) true rfl rfl rfl
  | binaryBegin n => exact .push (.binary .new) true rfl rfl rfl
  | textEnd => exact .text false rfl rfl
  | binaryEnd => exact .text false rfl rfl
  | textFragment f => rw [step, push_true]; exact textPush_to _ s _ rfl rfl rfl
  | textFragmentComputed f => rw [step, pushComputed_true]; exact textPush_to _ s _ rfl rfl rfl
  | binaryFragment f => rw [step, push_true]; exact binaryPush_to _ s _ rfl rfl rfl
  | binaryFragmentComputed f => rw [step, pushComputed_true]; exact binaryPush_to _ s _ rfl rfl rfl
  | mapBegin n => exact .begin _ rfl rfl
  | mapKeyBegin => exact .begin _ rfl rfl
  | mapValueBegin => exact .begin _ rfl rfl
  | seqBegin n => exact .begin _ rfl rfl
  | seqValueBegin => exact .begin _ rfl rfl
  | enumBegin m => rw [step, beginMeta_true]; exact .begin _ rfl rfl
  | taggedBegin m => rw [step, beginMeta_true]; exact .begin _ rfl rfl
  | tag m => rw [step, ownMeta_true]; exact .push (.tag (own m)) s.inText rfl rfl rfl
  | tagHint t => exact .push (.tagHint t) s.inText rfl rfl rfl
  | recordBegin m n => rw [step, beginMeta_true]; exact .begin _ rfl rfl
  | recordValueBegin t l => rw [step, beginLabel_true]; exact .begin _ rfl rfl
  | tupleBegin m n => rw [step, beginMeta_true]; exact .begin _ rfl rfl
  | tupleValueBegin t i => exact .begin _ rfl rfl
  | recordTupleBegin m n => rw [step, beginMeta_true]; exact .begin _ rfl rfl
  | recordTupleValueBegin t l i => rw [step, beginLabel_true]; exact .begin _ rfl rfl
  | _ => exact .end rfl rfl

/-- Parts that form a sequence of complete trees. -/
inductive Closed : List Part → Prop where
  | nil : Closed []
  | leaf (k : Part) (rest : List Part) : k.isOpened = false → Closed rest → Closed (k :: rest)
  | opened (o : Opener) (B rest : List Part) : Closed B → Closed rest →
      Closed (.opened o B.length :: (B ++ rest))

theorem Closed.append {A B : List Part} (ha : Closed A) (hb : Closed B) : Closed (A ++ B) := by
  induction ha with
  | nil => exact hb
  | leaf k rest h _ ih => exact .leaf k _ h ih
  | opened o X rest hx _ _ ih =>
    rw [List.cons_append, List.append_assoc]
    exact .opened o X _ hx ih

/-- Only parts that are not containers differ. -/
inductive SameShape : List Part → List Part → Prop where
  | nil : SameShape [] []
  | leaf {k k' : Part} {a b : List Part} : k.isOpened = false → k'.isOpened = false → SameShape a b →
      SameShape (k :: a) (k' :: b)
  | same (k : Part) {a b : List Part} : SameShape a b → SameShape (k :: a) (k :: b)

theorem SameShape.refl (a : List Part) : SameShape a a := by
  induction a with
  | nil => exact .nil
  | cons k a ih => exact .same k ih

theorem SameShape.length {a b : List Part} (h : SameShape a b) : a.length = b.length := by
  induction h <;> simp_all

theorem SameShape.append {a b c d : List Part} (h : SameShape a b) (h' : SameShape c d) :
    SameShape (a ++ c) (b ++ d) := by
  induction h with
  | nil => exact h'
  | leaf h1 h2 _ ih => exact .leaf h1 h2 ih
  | same k _ ih => exact .same k ih

theorem SameShape.split {a c b : List Part} (h : SameShape (a ++ c) b) :
    ∃ a' c', b = a' ++ c' ∧ SameShape a a' ∧ SameShape c c' := by
  induction a generalizing b with
  | nil => exact ⟨[], b, rfl, .nil, h⟩
  | cons k a ih =>
    rw [List.cons_append] at h
    cases h with
    | leaf h1 h2 h =>
      obtain ⟨a', c', rfl, h3, h4⟩ := ih h
      exact ⟨_ :: a', c', rfl, .leaf h1 h2 h3, h4⟩
    | same _ h =>
      obtain ⟨a', c', rfl, h3, h4⟩ := ih h
      exact ⟨_ :: a', c', rfl, .same _ h3, h4⟩

theorem Closed.same {a b : List Part} (h : Closed a) (hs : SameShape a b) : Closed b := by
  induction h generalizing b with
  | nil => cases hs; exact .nil
  | leaf k rest hk _ ih =>
    cases hs with
    | leaf _ h2 h => exact .leaf _ _ h2 (ih h)
    | same _ h => exact .leaf _ _ hk (ih h)
  | opened o B rest _ _ ihB ih =>
    cases hs with
    | leaf h1 _ _ => simp [Part.isOpened] at h1
    | same _ h =>
      obtain ⟨B', r', rfl, h1, h2⟩ := h.split
      rw [h1.length]
      exact .opened o B' r' (ihB h1) (ih h2)

theorem Closed.replays {B : List Part} (h : Closed B) : ∃ T, Replays B T := by
  induction h with
  | nil => exact ⟨[], .nil⟩
  | leaf k rest hk _ ih =>
    obtain ⟨T, hT⟩ := ih
    exact ⟨_, (Replays.leaf k hk).append hT⟩
  | opened o B rest _ _ ihB ih =>
    obtain ⟨T1, h1⟩ := ihB
    obtain ⟨T2, h2⟩ := ih
    exact ⟨_, (h1.wrap o).append h2⟩

/-- Complete trees, with a container still open at each index in the stack. -/
inductive Shape : List Part → List Nat → Prop where
  | base {B : List Part} : Closed B → Shape B []
  | push {P B : List Part} {st : List Nat} (o : Opener) : Shape P st → Closed B →
      Shape (P ++ .opened o 0 :: B) (P.length :: st)

theorem Shape.append {P B : List Part} {st : List Nat} (h : Shape P st) (hB : Closed B) :
    Shape (P ++ B) st := by
  cases h with
  | base h => exact .base (h.append hB)
  | push o h h' =>
    rw [List.append_assoc, List.cons_append]
    exact .push o h (h'.append hB)

theorem Shape.closed {P : List Part} {st : List Nat} (h : Shape P st) : Closed P := by
  induction h with
  | base h => exact h
  | push o _ hB ih => exact ih.append (.opened o [] _ .nil hB)

theorem Shape.same {P Q : List Part} {st : List Nat} (h : Shape P st) (hs : SameShape P Q) : Shape Q st := by
  induction h generalizing Q with
  | base h => exact .base (h.same hs)
  | push o _ hB ih =>
    obtain ⟨P', B', rfl, h1, h2⟩ := hs.split
    cases h2 with
    | leaf h _ _ => simp [Part.isOpened] at h
    | same _ h2 =>
      rw [h1.length]
      exact .push o (ih h1) (hB.same h2)

theorem Shape.end {P : List Part} {i : Nat} {st : List Nat} (h : Shape P (i :: st)) :
    ∃ Q B o, P = Q ++ .opened o 0 :: B ∧ i = Q.length ∧ Shape (Q ++ .opened o B.length :: B) st := by
  cases h with
  | push o h hB =>
    refine ⟨_, _, o, rfl, rfl, ?_⟩
    have := Closed.opened o _ [] hB .nil
    rw [List.append_nil] at this
    exact h.append this

theorem step_shape (t : Token) (s : St) (h : Shape s.parts s.stack) :
    (step true t s = .panic → isFrag t = true ∧ s.parts = []) ∧
    (∀ s', step true t s = .ok s' ∨ (∃ e, step true t s = .err e s') → Shape s'.parts s'.stack) := by
  generalize hr : step true t s = r
  have := step_to t s
  rw [hr] at this
  cases this with
  | push k b hk _ _ =>
    refine ⟨by simp, ?_⟩
    rintro s' (h' | ⟨e, h'⟩) <;> cases h'
    exact h.append (.leaf k [] hk .nil)
  | begin o _ _ =>
    rw [pushBegin_true]
    refine ⟨by simp, ?_⟩
    rintro s' (h' | ⟨e, h'⟩) <;> cases h'
    exact .push o h .nil
  | «end» _ _ =>
    cases hst : s.stack with
    | nil =>
      simp only [pushEnd, hst, fail]
      refine ⟨by simp, ?_⟩
      rintro s' (h' | ⟨e, h'⟩) <;> cases h'
      exact hst ▸ h
    | cons i st =>
      rw [hst] at h
      obtain ⟨Q, B, o, h1, h2, h3⟩ := h.end
      subst h2
      rw [pushEnd_opened Q B o 0 st s h1 hst]
      refine ⟨by simp, ?_⟩
      rintro s' (h' | ⟨e, h'⟩) <;> cases h'
      exact h3
  | text b _ _ =>
    refine ⟨by simp, ?_⟩
    rintro s' (h' | ⟨e, h'⟩) <;> cases h'
    exact h
  | frag P k k' _ _ h1 h2 h3 =>
    refine ⟨by simp, ?_⟩
    rintro s' (h' | ⟨e, h'⟩) <;> cases h'
    exact h.same (h1 ▸ (SameShape.refl P).append (.leaf h2 h3 .nil))
  | outside _ _ _ =>
    refine ⟨by simp, ?_⟩
    rintro s' (h' | ⟨e, h'⟩) <;> cases h'
    exact h
  | none h1 _ h2 => exact ⟨fun _ => ⟨h1, h2⟩, by simp⟩

theorem intoOwned_same (ps : List Part) : SameShape ps (ps.map Part.intoOwned) := by
  induction ps with
  | nil => exact .nil
  | cons k ps ih =>
    cases k with
    | text c => exact .leaf rfl rfl ih
    | binary c => exact .leaf rfl rfl ih
    | _ => exact .same _ ih

/-- The states a `ValueBuf` can be brought into by any calls, errors being ignored. -/
inductive Reach : St → Prop where
  | new : Reach {}
  | ok {s s' : St} (t : Token) : Reach s → step true t s = .ok s' → Reach s'
  | err {s s' : St} {e : Err} (t : Token) : Reach s → step true t s = .err e s' → Reach s'
  | clear {s : St} : Reach s → Reach (clear s)
  | own {s : St} : Reach s → Reach (intoOwned s)

theorem Reach.shape {s : St} (h : Reach s) : Shape s.parts s.stack := by
  induction h with
  | new => exact .base .nil
  | ok t _ h ih => exact (step_shape t _ ih).2 _ (.inl h)
  | err t _ h ih => exact (step_shape t _ ih).2 _ (.inr ⟨_, h⟩)
  | clear _ _ => exact .base .nil
  | own _ ih => exact ih.same (intoOwned_same _)

theorem replay_closed {ps : List Part} (h : Closed ps) : ∃ T, replay ps = ⟨T, false⟩ := by
  unfold replay
  split
  · exact ⟨_, rfl⟩
  · obtain ⟨T, hT⟩ := h.replays
    exact ⟨T, hT.out⟩

/-! ## Owning -/

theorem Cow.intoOwned_textToks (c : Cow Char) : c.intoOwned.textToks = c.textToks.map computedTok := by
  cases c <;> rfl
theorem Cow.intoOwned_binaryToks (c : Cow UInt8) : c.intoOwned.binaryToks = c.binaryToks.map computedTok := by
  cases c <;> rfl

def Out.map (f : Token → Token) (o : Out) : Out := { o with toks := o.toks.map f }

theorem Out.map_then (f : Token → Token) (a b : Out) : (a.then b).map f = (a.map f).then (b.map f) := by
  obtain ⟨ta, pa⟩ := a
  cases pa <;> simp [Out.then, Out.map]

theorem begin_computed (o : Opener) : computedTok o.begin = o.begin := by cases o <;> rfl
theorem end_computed (o : Opener) : computedTok o.end = o.end := by cases o <;> rfl

theorem replayN_own (n : Nat) (ps : List Part) :
    replayN n (ps.map Part.intoOwned) = (replayN n ps).map computedTok := by
  induction n generalizing ps with
  | zero => cases ps <;> rfl
  | succ n ih =>
    cases ps with
    | nil => rfl
    | cons p rest =>
      cases p with
      | text c =>
        simp only [List.map_cons, Part.intoOwned, replayN, Out.map_then, ih, Cow.intoOwned_textToks]; rfl
      | binary c =>
        simp only [List.map_cons, Part.intoOwned, replayN, Out.map_then, ih, Cow.intoOwned_binaryToks]; rfl
      | opened o len =>
        simp only [List.map_cons, Part.intoOwned, replayN, List.length_map]
        split
        · rfl
        · simp only [Out.map_then, ← List.map_take, ← List.map_drop, ih]
          simp [Out.map, begin_computed, end_computed]
      | _ => simp only [List.map_cons, Part.intoOwned, replayN, Out.map_then, ih]; rfl

/-! ## Prefixes -/

theorem append_prefix_cases {α : Type} {p a b : List α} (h : p <+: a ++ b) :
    p <+: a ∨ ∃ q, p = a ++ q ∧ q <+: b := by
  rcases Nat.le_total p.length a.length with hl | hl
  · exact .inl (List.prefix_of_prefix_length_le h (List.prefix_append a b) hl)
  · obtain ⟨q, rfl⟩ := List.prefix_of_prefix_length_le (List.prefix_append a b) h hl
    exact .inr ⟨q, rfl, by simpa [List.prefix_append_right_inj] using h⟩

/-- No prefix of the calls fails or leaves the containers it started in. -/
def Safe (T : List Token) : Prop :=
  ∀ p, p <+: T → ∀ s, s.inText = false → ∃ s', run (step true) p s = .ok s' ∧ s.stack.length ≤ s'.stack.length

theorem Safe.nil : Safe [] := by
  intro p hp s _
  rw [List.prefix_nil.1 hp]
  exact ⟨s, rfl, Nat.le_refl _⟩

theorem Safe.append {T1 T2 : List Token} {B : List Part} (h1 : Safe T1) (ha : Appends T1 B) (h2 : Safe T2) :
    Safe (T1 ++ T2) := by
  intro p hp s hs
  rcases append_prefix_cases hp with h | ⟨q, rfl, hq⟩
  · exact h1 p h s hs
  · rw [run_append, ha s hs, Res.bind_ok]
    exact h2 q hq { s with parts := s.parts ++ B } hs

/-- A strict prefix leaves a container or text open, or is made of hints only. -/
def Strict (T : List Token) : Prop :=
  ∀ p, p <+: T → p ≠ T → ∀ s, s.inText = false → ∃ s', run (step true) p s = .ok s' ∧
    s.stack.length ≤ s'.stack.length ∧
    (s.stack.length < s'.stack.length ∨ s'.inText = true ∨ ∀ t ∈ p, ∃ g, t = .tagHint g)

theorem Strict.safe {T : List Token} {B : List Part} (h : Strict T) (ha : Appends T B) : Safe T := by
  intro p hp s hs
  by_cases he : p = T
  · subst he; exact ⟨_, ha s hs, Nat.le_refl _⟩
  · obtain ⟨s', h1, h2, _⟩ := h p hp he s hs
    exact ⟨s', h1, h2⟩

theorem Strict.one (t : Token) : Strict [t] := by
  intro p hp hne s _
  have : p = [] := by
    cases p with
    | nil => rfl
    | cons x p =>
      rw [List.cons_prefix_cons] at hp
      exact absurd (by rw [hp.1, List.prefix_nil.1 hp.2]) hne
  subst this
  exact ⟨s, rfl, Nat.le_refl _, .inr (.inr (by simp))⟩

theorem Strict.wrap {T : List Token} (h : Safe T) (o : Opener) (b e : Token)
    (hb : ∀ s, step true b s = pushBegin true o s) : Strict (b :: (T ++ [e])) := by
  intro p hp hne s hs
  cases p with
  | nil => exact ⟨s, rfl, Nat.le_refl _, .inr (.inr (by simp))⟩
  | cons x p =>
    rw [List.cons_prefix_cons] at hp
    obtain ⟨rfl, hp⟩ := hp
    have hp' : p <+: T := by
      rcases List.prefix_concat_iff.1 hp with h | h
      · exact absurd (by rw [h]) hne
      · exact h
    rw [run_cons, hb, pushBegin_true, Res.bind_ok]
    obtain ⟨s', h1, h2⟩ := h p hp' { s with parts := s.parts ++ [.opened o 0], stack := s.parts.length :: s.stack } hs
    simp only [List.length_cons] at h2
    exact ⟨s', h1, by omega, .inl (by omega)⟩

theorem Safe.wrap {T : List Token} {B : List Part} (h : Safe T) (ha : Appends T B) (o : Opener) (b e : Token)
    (hb : ∀ s, step true b s = pushBegin true o s) (he : ∀ s, step true e s = pushEnd s) :
    Safe (b :: (T ++ [e])) := (Strict.wrap h o b e hb).safe (ha.wrap o b e hb he)

theorem Strict.safeV {v : V} (h : Strict (toks v)) : Safe (toks v) := h.safe (appends_enc v)

theorem safe_seq (xs : List V) (h : ∀ x ∈ xs, Strict (toks x)) : Safe (toksSeq xs) := by
  induction xs with
  | nil => exact .nil
  | cons x xs ih =>
    have := ((h x (by simp)).safeV.wrap (appends_enc x) .seqValue .seqValueBegin .seqValueEnd (fun _ => rfl)
      (fun _ => rfl)).append ((appends_enc x).wrap .seqValue .seqValueBegin .seqValueEnd (fun _ => rfl)
      (fun _ => rfl)) (ih (fun y hy => h y (by simp [hy])))
    simpa [toksSeq] using this

theorem safe_map (xs : List (V × V)) (h : ∀ x ∈ xs, Strict (toks x.1) ∧ Strict (toks x.2)) : Safe (toksMap xs) := by
  induction xs with
  | nil => exact .nil
  | cons x xs ih =>
    have h1 := ((h x (by simp)).2.safeV.wrap (appends_enc x.2) .mapValue .mapValueBegin .mapValueEnd (fun _ => rfl)
      (fun _ => rfl)).append ((appends_enc x.2).wrap .mapValue .mapValueBegin .mapValueEnd (fun _ => rfl)
      (fun _ => rfl)) (ih (fun y hy => h y (by simp [hy])))
    have := ((h x (by simp)).1.safeV.wrap (appends_enc x.1) .mapKey .mapKeyBegin .mapKeyEnd (fun _ => rfl)
      (fun _ => rfl)).append ((appends_enc x.1).wrap .mapKey .mapKeyBegin .mapKeyEnd (fun _ => rfl)
      (fun _ => rfl)) h1
    obtain ⟨k, v⟩ := x
    simpa [toksMap] using this

theorem safe_rec (xs : List (Option Tag × Label × V)) (h : ∀ x ∈ xs, Strict (toks x.2.2)) : Safe (toksRec xs) := by
  induction xs with
  | nil => exact .nil
  | cons x xs ih =>
    obtain ⟨t, l, v⟩ := x
    have := ((h (t, l, v) (by simp)).safeV.wrap (appends_enc v) (.recordValue t l.toOwned) (.recordValueBegin t l)
      (.recordValueEnd t l) (fun _ => rfl)
      (fun _ => rfl)).append ((appends_enc v).wrap (.recordValue t l.toOwned) (.recordValueBegin t l)
      (.recordValueEnd t l) (fun _ => rfl) (fun _ => rfl)) (ih (fun y hy => h y (by simp [hy])))
    simpa [toksRec] using this

theorem safe_tup (xs : List (Option Tag × Index × V)) (h : ∀ x ∈ xs, Strict (toks x.2.2)) : Safe (toksTup xs) := by
  induction xs with
  | nil => exact .nil
  | cons x xs ih =>
    obtain ⟨t, l, v⟩ := x
    have := ((h (t, l, v) (by simp)).safeV.wrap (appends_enc v) (.tupleValue t l) (.tupleValueBegin t l)
      (.tupleValueEnd t l) (fun _ => rfl)
      (fun _ => rfl)).append ((appends_enc v).wrap (.tupleValue t l) (.tupleValueBegin t l)
      (.tupleValueEnd t l) (fun _ => rfl) (fun _ => rfl)) (ih (fun y hy => h y (by simp [hy])))
    simpa [toksTup] using this

theorem safe_rt (xs : List (Option Tag × Label × Index × V)) (h : ∀ x ∈ xs, Strict (toks x.2.2.2)) :
    Safe (toksRT xs) := by
  induction xs with
  | nil => exact .nil
  | cons x xs ih =>
    obtain ⟨t, l, i, v⟩ := x
    have := ((h (t, l, i, v) (by simp)).safeV.wrap (appends_enc v) (.recordTupleValue t l.toOwned i)
      (.recordTupleValueBegin t l i) (.recordTupleValueEnd t l i) (fun _ => rfl)
      (fun _ => rfl)).append ((appends_enc v).wrap (.recordTupleValue t l.toOwned i) (.recordTupleValueBegin t l i)
      (.recordTupleValueEnd t l i) (fun _ => rfl) (fun _ => rfl)) (ih (fun y hy => h y (by simp [hy])))
    simpa [toksRT] using this

theorem strict_text {α : Type} (b e : Token) (k : Part) (F : α → Token) (fs : List α)
    (hb : ∀ s, step true b s = .ok { s with inText := true, parts := s.parts ++ [k] })
    (hf : ∀ (gs : List α) (s : St), (∃ P, s.parts = P ++ [k]) → s.inText = true →
      ∃ s', run (step true) (gs.map F) s = .ok s' ∧ s'.inText = true ∧ s'.stack = s.stack) :
    Strict (b :: (fs.map F ++ [e])) := by
  intro p hp hne s hs
  cases p with
  | nil => exact ⟨s, rfl, Nat.le_refl _, .inr (.inr (by simp))⟩
  | cons x p =>
    rw [List.cons_prefix_cons] at hp
    obtain ⟨rfl, hp⟩ := hp
    have hp' : p <+: fs.map F := by
      rcases List.prefix_concat_iff.1 hp with h | h
      · exact absurd (by rw [h]) hne
      · exact h
    rw [List.prefix_iff_eq_take] at hp'
    rw [← List.map_take] at hp'
    rw [run_cons, hb, Res.bind_ok, hp']
    obtain ⟨s', h1, h2, h3⟩ := hf (fs.take p.length) { s with inText := true, parts := s.parts ++ [k] } ⟨_, rfl⟩ rfl
    exact ⟨s', h1, by rw [h3]; exact Nat.le_refl _, .inr (.inl h2)⟩

theorem strict_toks (v : V) : Strict (toks v) := by
  induction v using V.ind with
  | null => exact .one _
  | bool b => exact .one _
  | int t v => exact .one _
  | f32 b => exact .one _
  | f64 b => exact .one _
  | text n fs =>
    have := strict_text (.textBegin n) .textEnd (.text .new) textFragTok fs (fun s => rfl) (by
      rintro gs s ⟨P, hP⟩ hs
      exact ⟨_, run_textFrags gs P .new s hP, hs, rfl⟩)
    simpa [toks] using this
  | binary n fs =>
    have := strict_text (.binaryBegin n) .binaryEnd (.binary .new) binFragTok fs (fun s => rfl) (by
      rintro gs s ⟨P, hP⟩ hs
      exact ⟨_, run_binFrags gs P .new s hP, hs, rfl⟩)
    simpa [toks] using this
  | seq n xs ih => simpa [toks] using Strict.wrap (safe_seq xs ih) (.seq n) (.seqBegin n) .seqEnd (fun _ => rfl)
  | map n kvs ih => simpa [toks] using Strict.wrap (safe_map kvs ih) (.map n) (.mapBegin n) .mapEnd (fun _ => rfl)
  | tag m => exact .one _
  | tagged m v ih =>
    simpa [toks] using Strict.wrap ih.safeV (.tagged (own m)) (.taggedBegin m) (.taggedEnd m)
      (fun s => beginMeta_true m .tagged s)
  | enum m v ih =>
    simpa [toks] using Strict.wrap ih.safeV (.enum (own m)) (.enumBegin m) (.enumEnd m)
      (fun s => beginMeta_true m .enum s)
  | record m n fs ih =>
    simpa [toks] using Strict.wrap (safe_rec fs ih) (.record (own m) n) (.recordBegin m n) (.recordEnd m)
      (fun s => beginMeta_true m (.record · n) s)
  | tuple m n fs ih =>
    simpa [toks] using Strict.wrap (safe_tup fs ih) (.tuple (own m) n) (.tupleBegin m n) (.tupleEnd m)
      (fun s => beginMeta_true m (.tuple · n) s)
  | recordTuple m n fs ih =>
    simpa [toks] using Strict.wrap (safe_rt fs ih) (.recordTuple (own m) n) (.recordTupleBegin m n)
      (.recordTupleEnd m) (fun s => beginMeta_true m (.recordTuple · n) s)
  | hint t v ih =>
    intro p hp hne s hs
    rw [toks] at hp hne
    cases p with
    | nil => exact ⟨s, rfl, Nat.le_refl _, .inr (.inr (by simp))⟩
    | cons x p =>
      rw [List.cons_prefix_cons] at hp
      obtain ⟨rfl, hp⟩ := hp
      obtain ⟨s', h1, h2, h3⟩ := ih p hp (by rintro rfl; exact hne rfl) { s with parts := s.parts ++ [.tagHint t] } hs
      refine ⟨s', h1, h2, ?_⟩
      rcases h3 with h3 | h3 | h3
      · exact .inl h3
      · exact .inr (.inl h3)
      · refine .inr (.inr ?_)
        intro t' ht'
        rcases List.mem_cons.1 ht' with rfl | h
        · exact ⟨_, rfl⟩
        · exact h3 t' h

theorem run_hints (p : List Token) (h : ∀ t ∈ p, ∃ g, t = Token.tagHint g) (s : St) :
    ∃ B, B.length = p.length ∧ run (step true) p s = .ok { s with parts := s.parts ++ B } := by
  induction p generalizing s with
  | nil => exact ⟨[], rfl, by simp⟩
  | cons t p ih =>
    obtain ⟨g, rfl⟩ := h t (by simp)
    obtain ⟨B, h1, h2⟩ := ih (fun t ht => h t (by simp [ht])) { s with parts := s.parts ++ [.tagHint g] }
    exact ⟨.tagHint g :: B, by simp [h1], by
      rw [run_cons]
      show Res.bind (.ok { s with parts := s.parts ++ [Part.tagHint g] }) _ = _
      rw [Res.bind_ok, h2]
      simp⟩

/-! ## Collecting -/

theorem exec_stepB (alloc : Bool) (w : Wrapper) (ts : List Token) (s : St) :
    (∀ s', run (step alloc) (ts.map w.tok) s = .ok s' →
      exec (stepB alloc) (Prog.ofToks ts) w (s, false) = ((s', false), true)) ∧
    (∀ e s', run (step alloc) (ts.map w.tok) s = .err e s' →
      exec (stepB alloc) (Prog.ofToks ts) w (s, false) = ((s', false), false)) ∧
    (run (step alloc) (ts.map w.tok) s = .panic →
      ∃ s', exec (stepB alloc) (Prog.ofToks ts) w (s, false) = ((s', true), false)) := by
  induction ts generalizing s with
  | nil => simp [Prog.ofToks, exec]
  | cons t ts ih =>
    simp only [List.map_cons, run_cons, Prog.ofToks, exec, stepB]
    cases h : step alloc (w.tok t) s with
    | ok s1 => simpa [Res.bind] using ih s1
    | err e s1 => simp [Res.bind, exec]
    | panic => simp [Res.bind, exec]

/-- Errors of `step` are recorded. -/
theorem step_err (alloc : Bool) (t : Token) (s s' : St) (e : Err) (h : step alloc t s = .err e s') :
    s'.err = some e := by
  have hf : ∀ (e' : Err) (s1 : St), fail e' s1 = .err e s' → s'.err = some e := by
    intro e' s1 h; cases h; rfl
  have hk : ∀ (k : Part) (s1 : St), pushKind alloc k s1 = .err e s' → s'.err = some e := by
    intro k s1 h
    unfold pushKind at h
    split at h
    · cases h
    · exact hf _ _ h
  have hb : ∀ (o : Opener) (s1 : St), pushBegin alloc o s1 = .err e s' → s'.err = some e := by
    intro o s1 h
    unfold pushBegin at h
    split at h
    · exact hk _ _ h
    · exact hf _ _ h
  have he : ∀ (s1 : St), pushEnd s1 = .err e s' → s'.err = some e := by
    intro s1 h
    unfold pushEnd at h
    split at h
    · exact hf _ _ h
    · simp only at h
      split at h
      · cases h
      · split at h
        · cases h
        · cases h
        · exact hf _ _ h
  have hm : ∀ (m : Meta) (o : Meta → Opener) (s1 : St), beginMeta alloc m o s1 = .err e s' → s'.err = some e := by
    intro m o s1 h
    unfold beginMeta at h
    split at h
    · exact hb _ _ h
    · exact hf _ _ h
  have hl : ∀ (m : Label) (o : Label → Opener) (s1 : St), beginLabel alloc m o s1 = .err e s' → s'.err = some e := by
    intro m o s1 h
    unfold beginLabel at h
    split at h
    · exact hb _ _ h
    · exact hf _ _ h
  have ht : ∀ (f : Cow Char → Except Err (Cow Char)) (s1 : St), textPush f s1 = .err e s' → s'.err = some e := by
    intro f s1 h
    unfold textPush at h
    split at h
    · cases h
    · split at h
      · cases h
      · exact hf _ _ h
    · exact hf _ _ h
  have hy : ∀ (f : Cow UInt8 → Except Err (Cow UInt8)) (s1 : St), binaryPush f s1 = .err e s' → s'.err = some e := by
    intro f s1 h
    unfold binaryPush at h
    split at h
    · cases h
    · split at h
      · cases h
      · exact hf _ _ h
    · exact hf _ _ h
  cases t with
  | textEnd => cases h
  | binaryEnd => cases h
  | tag m =>
    simp only [step] at h
    split at h
    · exact hk _ _ h
    · exact hf _ _ h
  | _ => first | exact hk _ _ h | exact hb _ _ h | exact he _ h | exact hm _ _ _ h | exact hl _ _ _ h | exact ht _ _ h | exact hy _ _ h

end Sval.Buf
