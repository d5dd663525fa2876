import Verif.Nested.NoAlloc
import Verif.Nested.Run

set_option autoImplicit false

/-!
# Code that a recursive stream can be shown with or without an allocator

`DoesA alloc m q X m'`: on a `FlatStream` in state `m` that has buffered nothing, the code `q` calls the methods `X` of the
recursive stream, one after the other, until one fails, and leaves the state `m'`.
-/

namespace Sval.Nested

/-- Streaming the value to any recursive stream calls the methods `X`, with or without `alloc`. -/
def MakesA (B : Build) (computed : Bool) (p : Prog) (X : List Cb) : Prop :=
  ∀ (σ : Type) (C : Cb → σ → Res Unit σ) (s : σ), streamA C B computed p s = (runCb C X s).outcome

/-- What a recursive stream sees if it looks into every value it is given, with or without `alloc`. All of them are borrowed. -/
inductive SeesA (B : Build) : Arg → V → Prop
  | mk (a : Arg) (X : List Cb) (v : V) (ha : a.borrowed = true) (h : MakesA B false a.prog X) (hX : Opened (SeesA B) X v) :
    SeesA B a v
  | on (a b : Arg) (v : V) (ha : a.borrowed = true) (h : MakesA B false a.prog [.value b]) (hb : SeesA B b v) : SeesA B a v

def endsA {σ : Type} (m : Mode) : Res Unit σ → Outcome (St σ)
  | .ok s => .done true { mode := m, s }
  | .err _ s => .done false { mode := .done false, s }
  | .panic => .panicked

def DoesA (B : Build) (m : Mode) (q : List Item) (X : List Cb) (m' : Mode) : Prop :=
  ∀ (σ : Type) (C : Cb → σ → Res Unit σ) (s : σ),
    execA C B (prog q) false { mode := m, s } = endsA m' (runCb C X s)

section
variable {σ : Type} (C : Cb → σ → Res Unit σ) (B : Build)

theorem execA_cons_tok (t : Token) (q : List Item) (st : St σ) :
    execA C B (prog (.tok t :: q)) false st =
      Outcome.andThen (callA C B t st).outcome (execA C B (prog q) false) := by
  simp only [prog, Item.prog, execA, Bool.false_eq_true, if_false]
  cases callA C B t st <;> simp [Res.outcome, Outcome.andThen]

theorem execA_cons_val (v q : List Item) (st : St σ) :
    execA C B (prog (.val v :: q)) false st =
      Outcome.andThen (delegateA C B (prog v) false (execA C B (prog v) false) st) (execA C B (prog q) false) := by
  simp only [prog, Item.prog, execA, Bool.false_eq_true, if_false]
  generalize delegateA C B (prog v) false (execA C B (prog v) false) st = r
  cases r with
  | done ok s => cases ok <;> simp [Outcome.andThen, execA]
  | panicked => rfl

theorem execA_cons_comp (v q : List Item) (st : St σ) :
    execA C B (prog (.comp v :: q)) false st =
      Outcome.andThen (delegateA C B (prog v) true (execA C B (prog v) true) st) (execA C B (prog q) false) := by
  simp only [prog, Item.prog, execA]
  generalize delegateA C B (prog v) true (execA C B (prog v) true) st = r
  cases r with
  | done ok s => cases ok <;> simp [Outcome.andThen, execA]
  | panicked => rfl

theorem execA_append (p q : List Item) (st : St σ) :
    execA C B (prog (p ++ q)) false st = Outcome.andThen (execA C B (prog p) false st) (execA C B (prog q) false) := by
  induction p generalizing st with
  | nil => rfl
  | cons i p ih =>
    cases i with
    | tok t => rw [List.cons_append, execA_cons_tok, execA_cons_tok, Outcome.andThen_assoc]; congr 1; funext s; exact ih s
    | val v => rw [List.cons_append, execA_cons_val, execA_cons_val, Outcome.andThen_assoc]; congr 1; funext s; exact ih s
    | comp v => rw [List.cons_append, execA_cons_comp, execA_cons_comp, Outcome.andThen_assoc]; congr 1; funext s; exact ih s

end

variable {B : Build}

namespace DoesA

theorem nil (m : Mode) : DoesA B m [] [] m := fun _ _ _ => rfl

theorem append {m m1 m2 : Mode} {p q : List Item} {X Y : List Cb} (h1 : DoesA B m p X m1) (h2 : DoesA B m1 q Y m2) :
    DoesA B m (p ++ q) (X ++ Y) m2 := by
  intro σ C s
  rw [execA_append, h1, runCb_append]
  cases runCb C X s with
  | ok s => exact h2 σ C s
  | err e s => rfl
  | panic => rfl

theorem cons {m m1 m2 : Mode} {i : Item} {q : List Item} {X Y : List Cb} (h1 : DoesA B m [i] X m1)
    (h2 : DoesA B m1 q Y m2) : DoesA B m (i :: q) (X ++ Y) m2 := append h1 h2

theorem flatMap {α : Type} {m : Mode} {L : List α} {f : α → List Item} {g : α → List Cb}
    (h : ∀ x ∈ L, DoesA B m (f x) (g x) m) : DoesA B m (L.flatMap f) (L.flatMap g) m := by
  induction L with
  | nil => exact nil m
  | cons x L ih => exact append (h x (.head _)) (ih fun y hy => h y (.tail _ hy))

/-- One call that the stream makes of one call. -/
theorem tok {m m' : Mode} {t : Token} {X : List Cb}
    (h : ∀ (σ : Type) (C : Cb → σ → Res Unit σ) (s : σ), (callA C B t { mode := m, s }).outcome = endsA m' (runCb C X s)) :
    DoesA B m [.tok t] X m' := by
  intro σ C s
  rw [execA_cons_tok, h]
  cases runCb C X s <;> rfl

theorem makes {q : List Item} {X : List Cb} (h : DoesA B .any q X (.done true)) : MakesA B false (prog q) X := by
  intro σ C s
  unfold streamA
  rw [h]
  cases runCb C X s <;> rfl

end DoesA

/-! ## Methods for a part -/

/-- The method for a value in a state, and the state after it. -/
def slotA : Mode → Option ((Arg → Cb) × Mode)
  | .any => some (.value, .done true)
  | .tagged m => some (.tagged m, .done true)
  | .seq => some (.seqValue, .seq)
  | .map true => some (.mapKey, .map true)
  | .map false => some (.mapValue, .map false)
  | .tuple (some (t, i)) => some (.tupleValue t i, .tuple none)
  | .record (some (t, l)) => some (.recordValue t l, .record none)
  | .vtuple (some (t, i)) => some (.tupleValue t i, .vtuple none)
  | .vrecord (some (t, l)) => some (.recordValue t l, .vrecord none)
  | .vtagged m [] => some (.variantTagged m, .done true)
  | _ => none

theorem putA_slot {σ : Type} (C : Cb → σ → Res Unit σ) (m : Mode) (f : Arg → Cb) (m' : Mode) (h : slotA m = some (f, m'))
    (any : Cb) (a : Arg) (s : σ) :
    (tryCatch (putA C B any a) { mode := m, s }).outcome =
      endsA m' (runCb C [if m = .any then any else f a] s) := by
  unfold slotA at h
  split at h <;> first
    | cases h
      simp only [tryCatch, putA, cb, runCb_cons, nestA, nest, ite_self, if_true, reduceCtorEq, if_false]
      cases C _ s <;> rfl
    | cases h

theorem sees_of_makes {q : List Item} {X : List Cb} {v : V} (h : DoesA B .any q X (.done true))
    (hX : Matches (SeesA B) X v) : SeesA B ⟨true, prog q⟩ v := by
  rcases hX with hX | ⟨a, rfl, ha⟩
  · exact .mk _ X v rfl h.makes hX
  · exact .on _ a v rfl h.makes ha

namespace DoesA

theorem val (m : Mode) (f : Arg → Cb) (m' : Mode) (h : slotA m = some (f, m')) (q : List Item) :
    DoesA B m [.val q] [f ⟨true, prog q⟩] m' := by
  intro σ C s
  rw [execA_cons_val]
  have e : delegateA C B (prog q) false (execA C B (prog q) false) { mode := m, s } =
      (tryCatch (putA C B (.value ⟨true, prog q⟩) ⟨true, prog q⟩) { mode := m, s }).outcome := by
    unfold delegateA
    cases m <;> first | rfl | cases h
  rw [e, putA_slot C m f m' h]
  have : (if m = .any then Cb.value ⟨true, prog q⟩ else f ⟨true, prog q⟩) = f ⟨true, prog q⟩ := by
    split
    · subst m; cases h; rfl
    · rfl
  rw [this]
  cases runCb C [f ⟨true, prog q⟩] s <;> rfl

/-- A scalar. -/
theorem scalar (t : Token) (b : Bool)
    (ht : ∀ (σ : Type) (C : Cb → σ → Res Unit σ),
      callA C B t = bufferOrA B t (putA C B (.scalar t) { borrowed := b, prog := .ofToks [t] })) :
    DoesA B .any [.tok t] [.scalar t] (.done true) := by
  refine tok fun σ C s => ?_
  rw [ht]
  simp only [bufferOrA, tryCatch, putA, cb, runCb_cons]
  cases C _ s <;> rfl

theorem tagOf (m : Meta) : DoesA B .any [.tok (.tag m)] [.tag (cloneMeta m)] (.done true) := by
  refine tok fun σ C s => ?_
  simp only [callA, bufferOrA, tryCatch, putA, cb, runCb_cons]
  cases C _ s <;> rfl

theorem vtag (m : Meta) : DoesA B (.enum []) [.tok (.tag m)] [.variantTag (cloneMeta m)] (.done true) := by
  refine tok fun σ C s => ?_
  simp only [callA, bufferOrA, tryCatch, nestA, nest, ite_self, cb, runCb_cons]
  cases C _ s <;> rfl

theorem textOf (m : Mode) (f : Arg → Cb) (m' : Mode) (h : slotA m = some (f, m')) (n : Option Nat) (s : Text) :
    DoesA B m [.tok (.textBegin n), .tok (.textFragment s), .tok .textEnd]
      [if m = .any then .text true s else f (textArg true s)] m' := by
  intro σ C s'
  have e1 : callA C B (.textBegin n) { mode := m, s := s' } = .ok { mode := m, s := s', buf := some (.text .new) } := rfl
  have e2 : callA C B (.textFragment s) { mode := m, s := s', buf := some (.text .new) } =
      .ok { mode := m, s := s', buf := some (.text (.borrowed s)) } := by (obtain ⟨a, _, _, _, _⟩ := B; cases a <;> rfl)
  have e3 : callA C B .textEnd { mode := m, s := s', buf := some (.text (.borrowed s)) } =
      tryCatch (putA C B (.text true s) (textArg true s)) { mode := m, s := s' } := rfl
  rw [execA_cons_tok, e1, Res.outcome, Outcome.andThen, execA_cons_tok, e2, Res.outcome, Outcome.andThen, execA_cons_tok, e3,
    putA_slot C m f m' h]
  cases runCb C _ s' <;> rfl

theorem bytesOf (m : Mode) (f : Arg → Cb) (m' : Mode) (h : slotA m = some (f, m')) (n : Option Nat) (s : Bytes) :
    DoesA B m [.tok (.binaryBegin n), .tok (.binaryFragment s), .tok .binaryEnd]
      [if m = .any then .binary true s else f (binaryArg true s)] m' := by
  intro σ C s'
  have e1 : callA C B (.binaryBegin n) { mode := m, s := s' } = .ok { mode := m, s := s', buf := some (.binary .new) } := rfl
  have e2 : callA C B (.binaryFragment s) { mode := m, s := s', buf := some (.binary .new) } =
      .ok { mode := m, s := s', buf := some (.binary (.borrowed s)) } := by (obtain ⟨a, _, _, _, _⟩ := B; cases a <;> rfl)
  have e3 : callA C B .binaryEnd { mode := m, s := s', buf := some (.binary (.borrowed s)) } =
      tryCatch (putA C B (.binary true s) (binaryArg true s)) { mode := m, s := s' } := rfl
  rw [execA_cons_tok, e1, Res.outcome, Outcome.andThen, execA_cons_tok, e2, Res.outcome, Outcome.andThen, execA_cons_tok, e3,
    putA_slot C m f m' h]
  cases runCb C _ s' <;> rfl

end DoesA

theorem sees_text (s : Text) : SeesA B (textArg true s) (text s) := by
  have h := DoesA.textOf (B := B) .any .value _ rfl (some (utf8Len s)) s
  exact sees_of_makes (v := text s) h (.inl (.text true s))

theorem sees_binary (s : Bytes) : SeesA B (binaryArg true s) (binary s) := by
  have h := DoesA.bytesOf (B := B) .any .value _ rfl (some s.length) s
  exact sees_of_makes (v := binary s) h (.inl (.binary true s))

/-! ## Collections -/

namespace DoesA

/-- A call that opens a collection. -/
theorem begins {m m' : Mode} {t : Token} {c : Cb}
    (h : ∀ (σ : Type) (C : Cb → σ → Res Unit σ) (s : σ), callA C B t { mode := m, s } =
      tryCatch (fun st => (cb C c st).bind (toMode m')) { mode := m, s }) : DoesA B m [.tok t] [c] m' := by
  refine tok fun σ C s => ?_
  rw [h]
  simp only [tryCatch, cb, runCb_cons]
  cases C _ s <;> rfl

/-- A call that ends one. -/
theorem finishes {m : Mode} {t : Token} {c : Cb}
    (h : ∀ (σ : Type) (C : Cb → σ → Res Unit σ) (s : σ), callA C B t { mode := m, s } =
      tryCatch (fun st => (cb C c st).bind (toMode (.done true))) { mode := m, s }) : DoesA B m [.tok t] [c] (.done true) :=
  begins h

/-- A call that is not seen. -/
theorem silent {m m' : Mode} {t : Token}
    (h : ∀ (σ : Type) (C : Cb → σ → Res Unit σ) (s : σ), callA C B t { mode := m, s } = .ok { mode := m', s }) :
    DoesA B m [.tok t] [] m' := by
  refine tok fun σ C s => ?_
  rw [h]
  rfl

theorem flatMap_one {α : Type} (L : List α) (f : α → Cb) : (L.flatMap fun x => [f x]) = L.map f := by
  induction L with
  | nil => rfl
  | cons x L ih => simp [ih]

theorem seq (n : Option Nat) (L : List (List Item)) :
    DoesA B .any (.tok (.seqBegin n) :: ((L.flatMap fun q => [.tok .seqValueBegin, .val q, .tok .seqValueEnd]) ++ [.tok .seqEnd]))
      (.seqBegin n :: ((L.map fun q => .seqValue ⟨true, prog q⟩) ++ [.seqEnd])) (.done true) := by
  have h1 : DoesA B .any [.tok (.seqBegin n)] [.seqBegin n] .seq := begins fun _ _ _ => rfl
  have h3 : DoesA B .seq [.tok .seqEnd] [.seqEnd] (.done true) := finishes fun _ _ _ => rfl
  have h2 : DoesA B .seq (L.flatMap fun q => [.tok .seqValueBegin, .val q, .tok .seqValueEnd])
      (L.flatMap fun q => [.seqValue ⟨true, prog q⟩]) .seq :=
    flatMap fun q _ => cons (X := []) (silent fun _ _ _ => rfl) (cons (val _ _ _ rfl q) (silent fun _ _ _ => rfl))
  have := h1.cons (h2.append h3)
  rwa [flatMap_one] at this

theorem map (n : Option Nat) (L : List (List Item × List Item)) :
    DoesA B .any (.tok (.mapBegin n) :: ((L.flatMap fun q => [.tok .mapKeyBegin, .val q.1, .tok .mapKeyEnd,
        .tok .mapValueBegin, .val q.2, .tok .mapValueEnd]) ++ [.tok .mapEnd]))
      (.mapBegin n :: ((L.flatMap fun q => [.mapKey ⟨true, prog q.1⟩, .mapValue ⟨true, prog q.2⟩]) ++ [.mapEnd])) (.done true) := by
  have h1 : DoesA B .any [.tok (.mapBegin n)] [.mapBegin n] (.map true) := begins fun _ _ _ => rfl
  have h3 : ∀ k, DoesA B (.map k) [.tok .mapEnd] [.mapEnd] (.done true) := fun k => finishes fun _ _ _ => rfl
  have h2 : ∀ k, ∃ k', DoesA B (.map k) (L.flatMap fun q => [.tok .mapKeyBegin, .val q.1, .tok .mapKeyEnd,
        .tok .mapValueBegin, .val q.2, .tok .mapValueEnd])
      (L.flatMap fun q => [.mapKey ⟨true, prog q.1⟩, .mapValue ⟨true, prog q.2⟩]) (.map k') := by
    clear h1
    induction L with
    | nil => exact fun k => ⟨k, nil _⟩
    | cons q L ih =>
      intro k
      obtain ⟨k', h⟩ := ih false
      have hk : DoesA B (.map k) [.tok .mapKeyBegin] [] (.map true) := silent fun _ _ _ => rfl
      have hk' : DoesA B (.map true) [.tok .mapKeyEnd] [] (.map true) := silent fun _ _ _ => rfl
      have hv : DoesA B (.map true) [.tok .mapValueBegin] [] (.map false) := silent fun _ _ _ => rfl
      have hv' : DoesA B (.map false) [.tok .mapValueEnd] [] (.map false) := silent fun _ _ _ => rfl
      exact ⟨k', append (hk.cons ((val _ _ _ rfl q.1).cons (hk'.cons (hv.cons ((val _ _ _ rfl q.2).cons hv'))))) h⟩
  obtain ⟨k, h2⟩ := h2 true
  exact h1.cons (h2.append (h3 k))

/-- Tuples, and tuples as variants. -/
theorem tuple (inner : Bool) (m : Meta) (n : Option Nat) (L : List (Option Tag × Index × List Item)) :
    DoesA B (if inner then .enum [] else .any) (.tok (.tupleBegin m n) :: ((L.flatMap fun x =>
        [.tok (.tupleValueBegin x.1 x.2.1), .val x.2.2, .tok (.tupleValueEnd x.1 x.2.1)]) ++ [.tok (.tupleEnd m)]))
      ((if inner then .variantTupleBegin (cloneMeta m) n else .tupleBegin (cloneMeta m) n) ::
        ((L.map fun x => .tupleValue x.1 x.2.1 ⟨true, prog x.2.2⟩) ++ [.tupleEnd])) (.done true) := by
  have body : ∀ (mode : Option (Option Tag × Index) → Mode),
      (∀ t i, DoesA B (mode none) [.tok (.tupleValueBegin t i)] [] (mode (some (t, i)))) →
      (∀ t i, slotA (mode (some (t, i))) = some (.tupleValue t i, mode none)) →
      (∀ t i, DoesA B (mode none) [.tok (.tupleValueEnd t i)] [] (mode none)) →
      DoesA B (mode none) (L.flatMap fun x =>
        [.tok (.tupleValueBegin x.1 x.2.1), .val x.2.2, .tok (.tupleValueEnd x.1 x.2.1)])
        (L.flatMap fun x => [.tupleValue x.1 x.2.1 ⟨true, prog x.2.2⟩]) (mode none) := by
    intro mode h1 h2 h3
    exact flatMap fun x _ => (h1 x.1 x.2.1).cons ((val _ _ _ (h2 x.1 x.2.1) x.2.2).cons (h3 x.1 x.2.1))
  rw [← flatMap_one]
  cases inner with
  | false =>
    have h1 : DoesA B .any [.tok (.tupleBegin m n)] [.tupleBegin (cloneMeta m) n] (.tuple none) := begins fun _ _ _ => rfl
    have h3 : DoesA B (.tuple none) [.tok (.tupleEnd m)] [.tupleEnd] (.done true) := finishes fun _ _ _ => rfl
    exact h1.cons ((body .tuple (fun _ _ => silent fun _ _ _ => rfl) (fun _ _ => rfl) (fun _ _ => silent fun _ _ _ => rfl)).append h3)
  | true =>
    have h1 : DoesA B (.enum []) [.tok (.tupleBegin m n)] [.variantTupleBegin (cloneMeta m) n] (.vtuple none) :=
      begins fun _ _ _ => by (obtain ⟨a, _, _, _, _⟩ := B; cases a <;> rfl)
    have h3 : DoesA B (.vtuple none) [.tok (.tupleEnd m)] [.tupleEnd] (.done true) := finishes fun _ _ _ => rfl
    exact h1.cons ((body .vtuple (fun _ _ => silent fun _ _ _ => rfl) (fun _ _ => rfl) (fun _ _ => silent fun _ _ _ => rfl)).append h3)

theorem withLabel_static {σ : Type} (l : Label) (hl : l.backing = .static) (st : St σ) (k : Label → Res Unit (St σ)) :
    withLabel B l st k = k l.toOwned := by
  unfold withLabel Label.asStaticStr Label.toOwned
  rw [if_pos hl, if_pos hl]
  (obtain ⟨a, _, _, _, _⟩ := B; cases a <;> rfl)

theorem withMeta_static {σ : Type} (m : Meta) (hm : ∀ l, m.label = some l → l.backing = .static) (st : St σ)
    (k : Meta → Res Unit (St σ)) : withMeta B m st k = k (own m) := by
  obtain ⟨t, l, i⟩ := m
  cases l with
  | none => rfl
  | some l => simp only [withMeta, withLabel_static l (hm l rfl)]; rfl

/-- The fields of records and of record tuples. -/
theorem fields (mode : Option (Option Tag × Label) → Mode) (hmode : mode = .record ∨ mode = .vrecord) (t : Option Tag) (l : Label)
    (hl : l.backing = .static) (q : List Item) :
    DoesA B (mode none) [.tok (.recordValueBegin t l), .val q, .tok (.recordValueEnd t l)]
      [.recordValue t l.toOwned ⟨true, prog q⟩] (mode none) ∧
    ∀ i, DoesA B (mode none) [.tok (.recordTupleValueBegin t l i), .val q, .tok (.recordTupleValueEnd t l i)]
      [.recordValue t l.toOwned ⟨true, prog q⟩] (mode none) := by
  rcases hmode with rfl | rfl
  · constructor
    · refine cons (X := []) (m1 := .record (some (t, l.toOwned))) (silent fun σ C s => ?_)
        (cons (val _ _ _ rfl q) (silent fun _ _ _ => rfl))
      simp only [callA, bufferOrA, tryCatch, withLabel_static l hl]
    · intro i
      refine cons (X := []) (m1 := .record (some (t, l.toOwned))) (silent fun σ C s => ?_)
        (cons (val _ _ _ rfl q) (silent fun _ _ _ => rfl))
      simp only [callA, bufferOrA, tryCatch, withLabel_static l hl]
  · constructor
    · refine cons (X := []) (m1 := .vrecord (some (t, l.toOwned))) (silent fun σ C s => ?_)
        (cons (val _ _ _ rfl q) (silent fun _ _ _ => rfl))
      simp only [callA, bufferOrA, tryCatch, withLabel_static l hl]
    · intro i
      refine cons (X := []) (m1 := .vrecord (some (t, l.toOwned))) (silent fun σ C s => ?_)
        (cons (val _ _ _ rfl q) (silent fun _ _ _ => rfl))
      simp only [callA, bufferOrA, tryCatch, withLabel_static l hl]

/-- Records, and records as variants. -/
theorem record (inner : Bool) (m : Meta) (n : Option Nat) (L : List (Option Tag × Label × List Item))
    (hL : ∀ x ∈ L, x.2.1.backing = .static) :
    DoesA B (if inner then .enum [] else .any) (.tok (.recordBegin m n) :: ((L.flatMap fun x =>
        [.tok (.recordValueBegin x.1 x.2.1), .val x.2.2, .tok (.recordValueEnd x.1 x.2.1)]) ++ [.tok (.recordEnd m)]))
      ((if inner then .variantRecordBegin (cloneMeta m) n else .recordBegin (cloneMeta m) n) ::
        ((L.map fun x => .recordValue x.1 x.2.1.toOwned ⟨true, prog x.2.2⟩) ++ [.recordEnd])) (.done true) := by
  rw [← flatMap_one]
  cases inner with
  | false =>
    have h1 : DoesA B .any [.tok (.recordBegin m n)] [.recordBegin (cloneMeta m) n] (.record none) := begins fun _ _ _ => rfl
    have h3 : DoesA B (.record none) [.tok (.recordEnd m)] [.recordEnd] (.done true) := finishes fun _ _ _ => rfl
    exact h1.cons ((flatMap fun x hx => (fields .record (.inl rfl) x.1 x.2.1 (hL x hx) x.2.2).1).append h3)
  | true =>
    have h1 : DoesA B (.enum []) [.tok (.recordBegin m n)] [.variantRecordBegin (cloneMeta m) n] (.vrecord none) :=
      begins fun _ _ _ => by (obtain ⟨a, _, _, _, _⟩ := B; cases a <;> rfl)
    have h3 : DoesA B (.vrecord none) [.tok (.recordEnd m)] [.recordEnd] (.done true) := finishes fun _ _ _ => rfl
    exact h1.cons ((flatMap fun x hx => (fields .vrecord (.inr rfl) x.1 x.2.1 (hL x hx) x.2.2).1).append h3)

/-- Record tuples, and as variants. -/
theorem recordTuple (inner : Bool) (m : Meta) (n : Option Nat) (L : List (Option Tag × Label × Index × List Item))
    (hL : ∀ x ∈ L, x.2.1.backing = .static) :
    DoesA B (if inner then .enum [] else .any) (.tok (.recordTupleBegin m n) :: ((L.flatMap fun x =>
        [.tok (.recordTupleValueBegin x.1 x.2.1 x.2.2.1), .val x.2.2.2, .tok (.recordTupleValueEnd x.1 x.2.1 x.2.2.1)]) ++
        [.tok (.recordTupleEnd m)]))
      ((if inner then .variantRecordBegin (cloneMeta m) n else .recordBegin (cloneMeta m) n) ::
        ((L.map fun x => .recordValue x.1 x.2.1.toOwned ⟨true, prog x.2.2.2⟩) ++ [.recordEnd])) (.done true) := by
  rw [← flatMap_one]
  cases inner with
  | false =>
    have h1 : DoesA B .any [.tok (.recordTupleBegin m n)] [.recordBegin (cloneMeta m) n] (.record none) := begins fun _ _ _ => rfl
    have h3 : DoesA B (.record none) [.tok (.recordTupleEnd m)] [.recordEnd] (.done true) := finishes fun _ _ _ => rfl
    exact h1.cons ((flatMap fun x hx => (fields .record (.inl rfl) x.1 x.2.1 (hL x hx) x.2.2.2).2 x.2.2.1).append h3)
  | true =>
    have h1 : DoesA B (.enum []) [.tok (.recordTupleBegin m n)] [.variantRecordBegin (cloneMeta m) n] (.vrecord none) :=
      begins fun _ _ _ => by (obtain ⟨a, _, _, _, _⟩ := B; cases a <;> rfl)
    have h3 : DoesA B (.vrecord none) [.tok (.recordTupleEnd m)] [.recordEnd] (.done true) := finishes fun _ _ _ => rfl
    exact h1.cons ((flatMap fun x hx => (fields .vrecord (.inr rfl) x.1 x.2.1 (hL x hx) x.2.2.2).2 x.2.2.1).append h3)

/-- Around a value that is given as a whole. -/
theorem tagged (m : Meta) (hm : ∀ l, m.label = some l → l.backing = .static) {q : List Item} {X : List Cb}
    (h : DoesA B (.tagged (own m)) q X (.done true)) :
    DoesA B .any (.tok (.taggedBegin m) :: (q ++ [.tok (.taggedEnd m)])) X (.done true) := by
  have h1 : DoesA B .any [.tok (.taggedBegin m)] [] (.tagged (own m)) := by
    refine silent fun σ C s => ?_
    simp only [callA, bufferOrBeginA, tryCatch, withMeta_static m hm]
  have h3 : DoesA B (.done true) [.tok (.taggedEnd m)] [] (.done true) := silent fun _ _ _ => rfl
  have := h1.cons (h.append h3)
  simpa using this

theorem vtagged (m : Meta) (hm : ∀ l, m.label = some l → l.backing = .static) {q : List Item} {X : List Cb}
    (h : DoesA B (.vtagged (own m) []) q X (.done true)) :
    DoesA B (.enum []) (.tok (.taggedBegin m) :: (q ++ [.tok (.taggedEnd m)])) X (.done true) := by
  have h1 : DoesA B (.enum []) [.tok (.taggedBegin m)] [] (.vtagged (own m) []) := by
    refine silent fun σ C s => ?_
    simp only [callA, bufferOrBeginA, tryCatch, withMeta_static m hm]
  have h3 : DoesA B (.done true) [.tok (.taggedEnd m)] [] (.done true) := silent fun _ _ _ => rfl
  have := h1.cons (h.append h3)
  simpa using this

theorem enum (m : Meta) {q : List Item} {X : List Cb} (h : DoesA B (.enum []) q X (.done true)) :
    DoesA B .any (.tok (.enumBegin m) :: (q ++ [.tok (.enumEnd m)])) (.enumBegin (cloneMeta m) :: X) (.done true) := by
  have h1 : DoesA B .any [.tok (.enumBegin m)] [.enumBegin (cloneMeta m)] (.enum []) := begins fun _ _ _ => rfl
  have h3 : DoesA B (.done true) [.tok (.enumEnd m)] [] (.done true) := silent fun _ _ _ => rfl
  have := h1.cons (h.append h3)
  simpa using this

end DoesA
end Sval.Nested
