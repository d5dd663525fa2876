import Verif.Buffer.Reach
import Verif.Buffer.Collect
import Verif.Buffer.AsValue

set_option autoImplicit false

/-!
# C88: buffers lend only what was lent to them

What the lifetimes of `sval_buffer` promise where the compiler cannot see it: a fragment streamed for `'sval` was given to
the buffer for `'sval`, and nothing of a buffer made `'static` was borrowed from anyone (the `transmute`s of
`buffer/src/value.rs:214-253, 318-342, 1008-1139` and `buffer/src/fragments.rs:140-147, 351-358, 520-527, 685-690`).
-/

namespace Sval
open Buf

/-! ## Specification -/

/-- The label a call carries. -/
def Token.labelOf : Token → Option Label
  | .enumBegin m | .enumEnd m | .taggedBegin m | .taggedEnd m | .tag m | .recordBegin m _ | .recordEnd m
  | .tupleBegin m _ | .tupleEnd m | .recordTupleBegin m _ | .recordTupleEnd m => m.label
  | .recordValueBegin _ l | .recordValueEnd _ l | .recordTupleValueBegin _ l _ | .recordTupleValueEnd _ l _ => some l
  | _ => none

/-- A `ValueBuf` after any use at all, and the calls it was given since it last gave up everything it borrowed. Errors are
ignored, as code may. -/
inductive Lent (alloc : Bool) : List Token → St → Prop where
  | new : Lent alloc [] {}
  | ok {ts : List Token} {s s' : St} (t : Token) : Lent alloc ts s → step alloc t s = .ok s' → Lent alloc (ts ++ [t]) s'
  | err {ts : List Token} {s s' : St} {e : Err} (t : Token) : Lent alloc ts s → step alloc t s = .err e s' →
      Lent alloc (ts ++ [t]) s'
  | clear {ts : List Token} {s : St} : Lent alloc ts s → Lent alloc [] (clear s)
  | own {ts : List Token} {s : St} : alloc = true → Lent alloc ts s → Lent alloc [] (intoOwned s)

/-- A `TextBuf` or `BinaryBuf` after any use at all, and the fragments it borrowed since it last gave up everything. -/
inductive LentCow {α : Type} (alloc : Bool) : List (List α) → Cow α → Prop where
  | new : LentCow alloc [] .new
  | from (f : List α) : LentCow alloc [f] (Cow.from f)
  | push {fs : List (List α)} {c c' : Cow α} (f : List α) : LentCow alloc fs c → c.push alloc f = .ok c' →
      LentCow alloc (fs ++ [f]) c'
  | computed {fs : List (List α)} {c c' : Cow α} (f : List α) : LentCow alloc fs c → c.pushComputed alloc f = .ok c' →
      LentCow alloc fs c'
  | clear {fs : List (List α)} {c : Cow α} : LentCow alloc fs c → LentCow alloc [] c.clear
  | own {fs : List (List α)} {c : Cow α} : alloc = true → LentCow alloc fs c → LentCow alloc [] c.intoOwned

/-! ## Proofs -/

namespace Lend

/-- A label a buffer may keep. -/
def Kept (alloc : Bool) (l : Label) : Prop := l.backing = .static ∨ alloc = true ∧ l.backing = .owned

variable {alloc : Bool}

/-- What a part may hold after the calls `ts`. -/
def PartOk (alloc : Bool) (ts : List Token) : Part → Prop
  | .text (.borrowed s) => s = [] ∨ .textFragment s ∈ ts
  | .binary (.borrowed s) => s = [] ∨ .binaryFragment s ∈ ts
  | .tag m => ∀ l, m.label = some l → Kept alloc l
  | .opened o _ => ∀ l, o.begin.labelOf = some l → Kept alloc l
  | _ => True

def Ok (alloc : Bool) (ts : List Token) (ps : List Part) : Prop := ∀ p ∈ ps, PartOk alloc ts p

theorem PartOk.mono {ts us : List Token} {p : Part} (h : PartOk alloc ts p) : PartOk alloc (ts ++ us) p := by
  cases p with
  | text c => cases c with
    | borrowed s => exact h.imp id fun h => List.mem_append_left _ h
    | owned s => trivial
  | binary c => cases c with
    | borrowed s => exact h.imp id fun h => List.mem_append_left _ h
    | owned s => trivial
  | _ => exact h

theorem Ok.mono {ts us : List Token} {ps : List Part} (h : Ok alloc ts ps) : Ok alloc (ts ++ us) ps := fun p hp => (h p hp).mono

theorem Ok.snoc {ts : List Token} {ps : List Part} {p : Part} (h : Ok alloc ts ps) (hp : PartOk alloc ts p) : Ok alloc ts (ps ++ [p]) := by
  intro q hq
  rcases List.mem_append.1 hq with hq | hq
  · exact h q hq
  · cases List.mem_singleton.1 hq; exact hp

theorem Ok.set {ts : List Token} {ps : List Part} {p : Part} (i : Nat) (h : Ok alloc ts ps) (hp : PartOk alloc ts p) :
    Ok alloc ts (ps.set i p) := by
  intro q hq
  rcases List.mem_or_eq_of_mem_set hq with hq | rfl
  · exact h q hq
  · exact hp

/-- What a call leads to, failed or not. -/
def Goes (alloc : Bool) (ts : List Token) : Res Err St → Prop
  | .ok s => Ok alloc ts s.parts
  | .err _ s => Ok alloc ts s.parts
  | .panic => True

theorem goes_fail {ts : List Token} {s : St} (e : Err) (h : Ok alloc ts s.parts) : Goes alloc ts (fail e s) := h

theorem goes_kind {ts : List Token} {s : St} {k : Part} (h : Ok alloc ts s.parts) (hk : PartOk alloc ts k) :
    Goes alloc ts (pushKind alloc k s) := by
  unfold pushKind
  split
  · exact h.snoc hk
  · exact h

theorem goes_begin {ts : List Token} {s : St} {o : Opener} (h : Ok alloc ts s.parts)
    (hk : ∀ l, o.begin.labelOf = some l → Kept alloc l) : Goes alloc ts (pushBegin alloc o s) := by
  unfold pushBegin
  split
  · exact goes_kind h hk
  · exact h

theorem goes_end {ts : List Token} {s : St} (h : Ok alloc ts s.parts) : Goes alloc ts (pushEnd s) := by
  unfold pushEnd
  split
  · exact h
  · dsimp only
    split
    · trivial
    · split
      · trivial
      · rename_i hg
        exact h.set _ (h _ (List.mem_of_getElem? hg) : PartOk alloc ts (.opened _ _))
      · exact h

theorem own_safe {l l' : Label} (h : ownLabel alloc l = some l') : Kept alloc l' := by
  unfold ownLabel at h
  split at h
  · rename_i ha
    cases h
    unfold Label.toOwned
    split
    · exact .inl rfl
    · exact .inr ⟨ha, rfl⟩
  · simp only [Label.tryToOwnedNoAlloc, Label.asStaticStr] at h
    split at h
    · cases h; exact .inl rfl
    · cases h

theorem ownMeta_safe {m m' : Meta} (h : ownMeta alloc m = some m') :
    ∀ l, m'.label = some l → Kept alloc l := by
  intro l hl
  unfold ownMeta at h
  split at h
  · rename_i hm
    cases h
    rw [hm] at hl; cases hl
  · obtain ⟨l', h1, rfl⟩ := Option.map_eq_some_iff.1 h
    cases hl
    exact own_safe h1

theorem goes_meta {ts : List Token} {s : St} {m : Meta} {o : Meta → Opener} (h : Ok alloc ts s.parts)
    (ho : ∀ m, (o m).begin.labelOf = m.label) : Goes alloc ts (beginMeta alloc m o s) := by
  unfold beginMeta
  split
  · rename_i hm
    exact goes_begin h (by rw [ho]; exact ownMeta_safe hm)
  · exact h

theorem goes_label {ts : List Token} {s : St} {l : Label} {o : Label → Opener} (h : Ok alloc ts s.parts)
    (ho : ∀ l, (o l).begin.labelOf = some l) : Goes alloc ts (beginLabel alloc l o s) := by
  unfold beginLabel
  split
  · rename_i hm
    exact goes_begin h (by rw [ho]; intro l hl; cases hl; exact own_safe hm)
  · exact h

theorem goes_text {ts : List Token} {s : St} {f : Cow Char → Except Err (Cow Char)} (h : Ok alloc ts s.parts)
    (hf : ∀ c c', f c = .ok c' → PartOk alloc ts (.text c')) : Goes alloc ts (textPush f s) := by
  unfold textPush
  split
  · trivial
  · split
    · rename_i hc
      exact h.set _ (hf _ _ hc)
    · exact h
  · exact h

theorem goes_binary {ts : List Token} {s : St} {f : Cow UInt8 → Except Err (Cow UInt8)} (h : Ok alloc ts s.parts)
    (hf : ∀ c c', f c = .ok c' → PartOk alloc ts (.binary c')) : Goes alloc ts (binaryPush f s) := by
  unfold binaryPush
  split
  · trivial
  · split
    · rename_i hc
      exact h.set _ (hf _ _ hc)
    · exact h
  · exact h

theorem pushComputed_ok {α : Type} {c c' : Cow α} {f : List α} (h : c.pushComputed alloc f = .ok c') :
    c'.asBorrowed = none := by
  unfold Cow.pushComputed at h
  split at h
  · cases h; rfl
  · cases h

theorem push_ok {α : Type} {c c' : Cow α} {f : List α} (h : c.push alloc f = .ok c') :
    c'.asBorrowed = none ∨ c' = .borrowed f := by
  unfold Cow.push at h
  split at h
  · cases h; exact .inr rfl
  · exact .inl (pushComputed_ok h)

theorem ok_owned_text {ts : List Token} {c : Cow Char} (h : c.asBorrowed = none) : PartOk alloc ts (.text c) := by
  cases c with
  | borrowed s => cases h
  | owned s => trivial

theorem ok_owned_binary {ts : List Token} {c : Cow UInt8} (h : c.asBorrowed = none) : PartOk alloc ts (.binary c) := by
  cases c with
  | borrowed s => cases h
  | owned s => trivial

theorem goes_step {ts : List Token} {s : St} (t : Token) (h : Ok alloc ts s.parts) :
    Goes alloc (ts ++ [t]) (step alloc t s) := by
  have h' : Ok alloc (ts ++ [t]) s.parts := h.mono
  cases t with
  | null | bool | int | f32 | f64 | tagHint => exact goes_kind h' trivial
  | textBegin n => exact goes_kind (s := { s with inText := true }) h' (Or.inl rfl)
  | binaryBegin n => exact goes_kind (s := { s with inText := true }) h' (Or.inl rfl)
  | textEnd | binaryEnd => exact h'
  | textFragment f =>
    refine goes_text h' fun c c' hc => ?_
    rcases push_ok hc with hc | rfl
    · exact ok_owned_text hc
    · exact .inr (by simp)
  | binaryFragment f =>
    refine goes_binary h' fun c c' hc => ?_
    rcases push_ok hc with hc | rfl
    · exact ok_owned_binary hc
    · exact .inr (by simp)
  | textFragmentComputed f => exact goes_text h' fun c c' hc => ok_owned_text (pushComputed_ok hc)
  | binaryFragmentComputed f => exact goes_binary h' fun c c' hc => ok_owned_binary (pushComputed_ok hc)
  | mapBegin | mapKeyBegin | mapValueBegin | seqBegin | seqValueBegin | tupleValueBegin =>
    exact goes_begin h' (by intro l hl; cases hl)
  | enumBegin | taggedBegin | recordBegin | tupleBegin | recordTupleBegin => exact goes_meta h' fun _ => rfl
  | recordValueBegin | recordTupleValueBegin => exact goes_label h' fun _ => rfl
  | tag m =>
    simp only [step]
    split
    · rename_i hm
      exact goes_kind h' (ownMeta_safe hm)
    · exact h'
  | _ => exact goes_end h'

theorem lent_ok {ts : List Token} {s : St} (h : Lent alloc ts s) : Ok alloc ts s.parts := by
  induction h with
  | new => intro p hp; cases hp
  | ok t _ he ih => have := goes_step t ih; rw [he] at this; exact this
  | err t _ he ih => have := goes_step t ih; rw [he] at this; exact this
  | clear _ _ => intro p hp; cases hp
  | own _ _ ih =>
    intro p hp
    obtain ⟨q, hq, rfl⟩ := List.mem_map.1 hp
    have := ih q hq
    cases q with
    | text c => cases c <;> trivial
    | binary c => cases c <;> trivial
    | _ => exact this

/-- A call that replaying may make after the calls `ts`. -/
def TokOk (alloc : Bool) (ts : List Token) (t : Token) : Prop :=
  (isBorrowed t = true → t ∈ ts ∨ t = .textFragment [] ∨ t = .binaryFragment []) ∧ ∀ l, t.labelOf = some l → Kept alloc l

theorem end_label (o : Opener) : o.end.labelOf = o.begin.labelOf := by cases o <;> rfl
theorem begin_borrowed (o : Opener) : isBorrowed o.begin = false := by cases o <;> rfl
theorem end_borrowed (o : Opener) : isBorrowed o.end = false := by cases o <;> rfl

def Toks (alloc : Bool) (ts : List Token) (o : Out) : Prop := ∀ t ∈ o.toks, TokOk alloc ts t

theorem Toks.then {ts : List Token} {a b : Out} (ha : Toks alloc ts a) (hb : Toks alloc ts b) : Toks alloc ts (a.then b) := by
  unfold Out.then
  split
  · exact ha
  · intro t ht
    rcases List.mem_append.1 ht with ht | ht
    · exact ha t ht
    · exact hb t ht

theorem Toks.one {ts : List Token} {t : Token} (h : TokOk alloc ts t) : Toks alloc ts { toks := [t] } := by
  intro u hu
  cases List.mem_singleton.1 hu; exact h

theorem plain {ts : List Token} {t : Token} (hb : isBorrowed t = false) (hl : t.labelOf = none) : TokOk alloc ts t :=
  ⟨fun h => (by rw [hb] at h; cases h), fun l h => by rw [hl] at h; cases h⟩

theorem text_toks {ts : List Token} {c : Cow Char} (h : PartOk alloc ts (.text c)) : Toks alloc ts { toks := c.textToks } := by
  intro t ht
  simp only [Cow.textToks, List.mem_cons, List.not_mem_nil, or_false] at ht
  rcases ht with rfl | rfl | rfl
  · exact plain rfl rfl
  · cases c with
    | borrowed s =>
      refine ⟨fun _ => ?_, fun l hl => by cases hl⟩
      rcases h with rfl | h
      · exact .inr (.inl rfl)
      · exact .inl h
    | owned s => exact plain rfl rfl
  · exact plain rfl rfl

theorem binary_toks {ts : List Token} {c : Cow UInt8} (h : PartOk alloc ts (.binary c)) : Toks alloc ts { toks := c.binaryToks } := by
  intro t ht
  simp only [Cow.binaryToks, List.mem_cons, List.not_mem_nil, or_false] at ht
  rcases ht with rfl | rfl | rfl
  · exact plain rfl rfl
  · cases c with
    | borrowed s =>
      refine ⟨fun _ => ?_, fun l hl => by cases hl⟩
      rcases h with rfl | h
      · exact .inr (.inr rfl)
      · exact .inl h
    | owned s => exact plain rfl rfl
  · exact plain rfl rfl

theorem replayN_toks (ts : List Token) (n : Nat) (ps : List Part) (h : Ok alloc ts ps) : Toks alloc ts (replayN n ps) := by
  induction n generalizing ps with
  | zero => cases ps <;> (intro t ht; cases ht)
  | succ n ih =>
    cases ps with
    | nil => intro t ht; cases ht
    | cons p rest =>
      have hr : Ok alloc ts rest := fun q hq => h q (List.mem_cons_of_mem _ hq)
      have hp : PartOk alloc ts p := h p (List.mem_cons_self ..)
      cases p with
      | text c => exact (text_toks hp).then (ih _ hr)
      | binary c => exact (binary_toks hp).then (ih _ hr)
      | tag m => exact (Toks.one (t := .tag m) ⟨fun h => (by cases h), hp⟩).then (ih _ hr)
      | opened o len =>
        simp only [replayN]
        split
        · intro t ht; cases ht
        · refine (((Toks.one ⟨fun h => ?_, hp⟩).then (ih _ fun q hq => hr q (List.mem_of_mem_take hq))).then
            (Toks.one ⟨fun h => ?_, ?_⟩)).then (ih _ fun q hq => hr q (List.mem_of_mem_drop hq))
          · rw [begin_borrowed] at h; cases h
          · rw [end_borrowed] at h; cases h
          · rw [end_label]; exact hp
      | _ => exact (Toks.one (plain rfl rfl)).then (ih _ hr)

theorem replay_toks {ts : List Token} {ps : List Part} (h : Ok alloc ts ps) : Toks alloc ts (replay ps) := by
  unfold replay
  split
  · exact Toks.one (plain rfl rfl)
  · exact replayN_toks ts _ ps h

def NoB (us : List Token) : Prop := ∀ u ∈ us, isBorrowed u = false

theorem NoB.append {us vs : List Token} (h1 : NoB us) (h2 : NoB vs) : NoB (us ++ vs) := by
  intro u hu
  rcases List.mem_append.1 hu with hu | hu
  · exact h1 u hu
  · exact h2 u hu

theorem NoB.ite {p : Prop} [Decidable p] {us vs : List Token} (h1 : NoB us) (h2 : NoB vs) : NoB (if p then us else vs) := by
  split
  · exact h1
  · exact h2

theorem NoB.nil : NoB [] := fun u hu => by cases hu

theorem NoB.one {t : Token} (h : isBorrowed t = false) : NoB [t] := by
  intro u hu
  cases List.mem_singleton.1 hu; exact h

theorem noB_tagged (c : Caps) (m : Meta) : NoB (Low.taggedBegin c m) ∧ NoB (Low.taggedEnd c m) :=
  ⟨.ite (.one rfl) (by simp [NoB]), .ite (.one rfl) (by simp [NoB])⟩

theorem noB_number (c : Caps) (v : Int) : NoB (Low.number c v) := by
  refine ((noB_tagged c _).1.append (.append (.append (.one rfl) ?_) (.one rfl))).append (noB_tagged c _).2
  intro u hu
  obtain ⟨f, _, rfl⟩ := List.mem_map.1 hu
  rfl

theorem noB_int (c : Caps) (ty : IntTy) (v : Int) : NoB (Low.int c ty v) := by
  have h1 : NoB (Low.u128 c v) := .ite (.one rfl) (.ite (.one rfl) (noB_number c v))
  have h2 : NoB (Low.u64 c v) := .ite (.one rfl) h1
  have h3 : NoB (Low.u32 c v) := .ite (.one rfl) h2
  have h4 : NoB (Low.u16 c v) := .ite (.one rfl) h3
  have h5 : NoB (Low.u8 c v) := .ite (.one rfl) h4
  have g0 : NoB (Low.i64 v) := .one rfl
  have g1 : NoB (Low.i32 c v) := .ite (.one rfl) g0
  have g2 : NoB (Low.i16 c v) := .ite (.one rfl) g1
  have g3 : NoB (Low.i8 c v) := .ite (.one rfl) g2
  have g4 : NoB (Low.i128 c v) := .ite (.one rfl) (.ite (.one rfl) (noB_number c v))
  cases ty <;> assumption

theorem noB_binary (c : Caps) (s : Bytes) : NoB (Low.binaryFragmentComputed c s) := by
  refine .ite (.one rfl) ?_
  intro u hu
  obtain ⟨b, _, hu⟩ := List.mem_flatMap.1 hu
  exact ((NoB.one rfl).append (noB_int c .u8 b.toNat)).append (.one rfl) u hu

theorem label_lends (c : Caps) (l : Label) (u : Token) (hu : u ∈ Low.labelValue c l) (hb : isBorrowed u = true) :
    l.backing = .static ∧ u = .textFragment l.text := by
  unfold Low.labelValue at hu
  split at hu
  · rename_i hl
    refine ⟨hl, ?_⟩
    simp only [Low.textValue, Low.textFragment] at hu
    split at hu
    · simp at hu
      rcases hu with rfl | rfl | rfl
      · cases hb
      · rfl
      · cases hb
    · simp at hu
      rcases hu with rfl | rfl | rfl <;> cases hb
  · simp [Low.textValueComputed] at hu
    rcases hu with rfl | rfl | rfl <;> cases hb

theorem record_lends (c : Caps) (t : Option Tag) (l : Label) (u : Token) (hu : u ∈ Low.recordValueBegin c t l)
    (hb : isBorrowed u = true) : l.backing = .static ∧ u = .textFragment l.text := by
  have no : ∀ us, NoB us → u ∈ us → False := fun us h hm => by rw [h u hm] at hb; cases hb
  have ht : ∀ m n, NoB (Low.tupleBegin c m n) := fun m n => .ite (.one rfl) ((noB_tagged c m).1.append (.one rfl))
  have hv : ∀ t i, NoB (Low.tupleValueBegin c t i) := fun t i => .ite (.one rfl) (.one rfl)
  have he : ∀ t i, NoB (Low.tupleValueEnd c t i) := fun t i => .ite (.one rfl) (.one rfl)
  unfold Low.recordValueBegin at hu
  split at hu
  · exact (no _ (.one rfl) hu).elim
  · rcases List.mem_append.1 hu with hu | hu
    · rcases List.mem_append.1 hu with hu | hu
      · rcases List.mem_append.1 hu with hu | hu
        · exact (no _ (.ite (.one rfl) (((NoB.one rfl).append (ht _ _)).append (hv _ _))) hu).elim
        · exact label_lends c l u hu hb
      · exact (no _ (.ite (.one rfl) (he _ _)) hu).elim
    · exact (no _ (.ite (.one rfl) (hv _ _)) hu).elim

theorem stepB_lent {ts : List Token} {x : St × Bool} (t : Token) (h : Lent alloc ts x.1) :
    Lent alloc ts (stepB alloc t x).1.1 ∨ Lent alloc (ts ++ [t]) (stepB alloc t x).1.1 := by
  unfold stepB
  split
  · exact .inl h
  · split
    · rename_i he; exact .inr (h.ok t he)
    · rename_i he; exact .inr (h.err t he)
    · exact .inl h

theorem collect_state {computed : Bool} {p : Prog} {s : St} (h : collect alloc computed p = .ok s) :
    s = (exec (stepB alloc) p (if computed then .computed .base else .base) ({}, false)).1.1 := by
  unfold collect at h
  generalize exec (stepB alloc) p (if computed then .computed .base else .base) ({}, false) = r at h ⊢
  dsimp only at h
  split at h
  · cases h
  · split at h
    · cases h; rfl
    · split at h <;> cases h

theorem run_keeps {σ : Type} (step : Token → σ → Res Err σ) (I : σ → Prop) (us : List Token)
    (h : ∀ u ∈ us, ∀ s, I s → I ((step u s).pair s).1) (s : σ) (hs : I s) : I ((run step us s).pair s).1 := by
  induction us generalizing s with
  | nil => exact hs
  | cons u us ih =>
    have h1 := h u (List.mem_cons_self ..) s hs
    rw [run_cons]
    cases he : step u s with
    | ok s' =>
      rw [he] at h1
      have := ih (fun v hv => h v (List.mem_cons_of_mem _ hv)) s' h1
      simp only [Res.bind]
      cases hr : run step us s' with
      | ok s'' => rw [hr] at this; exact this
      | err e s'' => rw [hr] at this; exact this
      | panic => exact hs
    | err e s' => rw [he] at h1; exact h1
    | panic => exact hs

theorem gather_ok {α : Type} {r : Coll α × Bool} {c : Cow α} (h : gather r = .ok c) : c = r.1.buf := by
  unfold gather at h
  split at h
  · cases h; rfl
  · split at h <;> cases h

end Lend

/-! ## C88 -/

/-- C88. Whatever calls a `ValueBuf` was given, failed ones and owning or clearing it in between included, each fragment it
streams as borrowed was itself given as borrowed, whole, since the buffer last gave up what it borrowed, or is the
empty fragment; and no label it streams is borrowed. -/
theorem C88_buffer (alloc : Bool) (ts : List Token) (s : St) (h : Lent alloc ts s) :
    (∀ t ∈ (replay s.parts).toks, isBorrowed t = true → t ∈ ts ∨ t = .textFragment [] ∨ t = .binaryFragment []) ∧
    ∀ t ∈ (replay s.parts).toks, ∀ l, t.labelOf = some l → l.backing = .static ∨ (alloc = true ∧ l.backing = .owned) := by
  exact ⟨fun t ht => (Lend.replay_toks (Lend.lent_ok h) t ht).1, fun t ht => (Lend.replay_toks (Lend.lent_ok h) t ht).2⟩

/-- C88. So of a buffer that was owned or cleared and then given nothing borrowed, nothing streamed is borrowed from
anyone: this is what makes it `'static`. -/
theorem C88_static (alloc : Bool) (ts : List Token) (s : St) (h : Lent alloc ts s) (hts : ∀ t ∈ ts, isBorrowed t = false) :
    ∀ t ∈ (replay s.parts).toks, isBorrowed t = true → t = .textFragment [] ∨ t = .binaryFragment [] := by
  intro t ht hb
  rcases (C88_buffer alloc ts s h).1 t ht hb with h' | h'
  · rw [hts t h'] at hb; cases hb
  · exact h'

/-- A buffer given a borrowed and then a computed fragment, a borrowed text, a failing call, owned, and lent a text again. -/
example : ∃ s, Lent true [.textBegin none, .textFragment (t! "c")] s ∧
    (replay s.parts).toks = [.textBegin (some 2), .textFragmentComputed (t! "ab"), .textEnd, .textBegin (some 1),
      .textFragmentComputed (t! "d"), .textEnd, .textBegin (some 1), .textFragment (t! "c"), .textEnd] := by
  have h := Lent.new (alloc := true)
  have h := h.ok (.textBegin none) rfl
  have h := h.ok (.textFragment (t! "a")) rfl
  have h := h.ok (.textFragmentComputed (t! "b")) rfl
  have h := h.ok .textEnd rfl
  have h := h.ok (.textBegin none) rfl
  have h := h.ok (.textFragment (t! "d")) rfl
  have h := h.ok .textEnd rfl
  have h := h.err .seqEnd rfl
  have h := h.own rfl
  have h := h.ok (.textBegin none) rfl
  have h := h.ok (.textFragment (t! "c")) rfl
  exact ⟨_, h, by decide +kernel⟩

/-- C88. `TextBuf` and `BinaryBuf`: what `as_borrowed_str` and `as_borrowed_slice` return was pushed as borrowed, whole, or
is empty; without `alloc` they return everything there is, so nothing else is ever held. -/
theorem C88_fragments {α : Type} (alloc : Bool) (fs : List (List α)) (c : Cow α) (h : LentCow alloc fs c) :
    (∀ f, c.asBorrowed = some f → f ∈ fs ∨ f = []) ∧ (alloc = false → c.asBorrowed = some c.content) := by
  induction h with
  | new => exact ⟨fun f hf => by cases hf; exact .inr rfl, fun _ => rfl⟩
  | «from» f => exact ⟨fun g hg => by cases hg; exact .inl (by simp), fun _ => rfl⟩
  | push f _ hp ih =>
    refine ⟨fun g hg => ?_, fun ha => ?_⟩
    · rcases Lend.push_ok hp with hn | rfl
      · rw [hn] at hg; cases hg
      · cases hg; exact .inl (by simp)
    · subst ha
      unfold Cow.push at hp
      split at hp
      · cases hp; rfl
      · cases hp
  | computed f _ hp ih =>
    refine ⟨fun g hg => ?_, fun ha => ?_⟩
    · rw [Lend.pushComputed_ok hp] at hg; cases hg
    · subst ha; cases hp
  | clear _ _ => exact ⟨fun f hf => by cases hf; exact .inr rfl, fun _ => rfl⟩
  | @own fs c ha _ ih =>
    exact ⟨fun f hf => (by cases c <;> cases hf), fun hf => (by rw [ha] at hf; cases hf)⟩

example : LentCow true [t! "a", t! "b"] (.owned (t! "ab")) ∧ LentCow true [t! "", t! "b"] (.borrowed (t! "b")) :=
  ⟨.push (t! "b") (.from (t! "a")) rfl, .push (t! "b") (.from (t! "")) rfl⟩

/-- C88. The default methods of streams lend nothing of their own: what they stream as borrowed is the fragment they were
given, or the text of a static label. -/
theorem C88_provided (c : Caps) (t u : Token) (hu : u ∈ Low.tok c t) (hb : isBorrowed u = true) :
    u = t ∨ ∃ l, t.labelOf = some l ∧ l.backing = .static ∧ u = .textFragment l.text := by
  have no : ∀ us, Lend.NoB us → u ∈ us → u = t ∨ ∃ l, t.labelOf = some l ∧ l.backing = .static ∧
      u = .textFragment l.text := fun us h hm => absurd hb (by rw [h u hm]; exact Bool.false_ne_true)
  cases t with
  | textFragment s =>
    simp only [Low.tok, Low.textFragment] at hu
    split at hu
    · exact .inl (by simpa using hu)
    · exact no _ (by simp [Lend.NoB, isBorrowed]) hu
  | binaryFragment s =>
    simp only [Low.tok, Low.binaryFragment] at hu
    split at hu
    · exact .inl (by simpa using hu)
    · exact no _ (Lend.noB_binary c s) hu
  | int ty v => exact no _ (Lend.noB_int c ty v) hu
  | binaryFragmentComputed s => exact no _ (Lend.noB_binary c s) hu
  | tag m =>
    simp only [Low.tok, Low.tag] at hu
    split at hu
    · exact no _ (by simp [Lend.NoB, isBorrowed]) hu
    · rcases List.mem_append.1 hu with hu | hu
      · rcases List.mem_append.1 hu with hu | hu
        · exact no _ (Lend.noB_tagged c m).1 hu
        · split at hu
          · exact no _ (by simp [Lend.NoB, isBorrowed]) hu
          · split at hu
            · rename_i l hl
              obtain ⟨h1, h2⟩ := Lend.label_lends c l u hu hb
              exact .inr ⟨l, hl, h1, h2⟩
            · exact no _ (by simp [Lend.NoB, isBorrowed]) hu
      · exact no _ (Lend.noB_tagged c m).2 hu
  | recordValueBegin t l =>
    obtain ⟨h1, h2⟩ := Lend.record_lends c t l u hu hb
    exact .inr ⟨l, rfl, h1, h2⟩
  | recordTupleValueBegin t l i =>
    simp only [Low.tok, Low.recordTupleValueBegin] at hu
    split at hu
    · exact no _ (by simp [Lend.NoB, isBorrowed]) hu
    · obtain ⟨h1, h2⟩ := Lend.record_lends c t l u hu hb
      exact .inr ⟨l, rfl, h1, h2⟩
  | _ =>
    refine no _ ?_ hu
    repeat' first
      | exact .one rfl
      | exact Lend.NoB.nil
      | apply Lend.NoB.ite
      | apply Lend.NoB.append

/-- A stream that only has to know maps is shown a static label as borrowed text, another as computed text. -/
example : Low.tok { Caps.minimal with textFragment := true, map := true } (.recordValueBegin none (.new (t! "a"))) =
      [.mapKeyBegin, .textBegin (some 1), .textFragment (t! "a"), .textEnd, .mapKeyEnd, .mapValueBegin] ∧
    Low.tok { Caps.minimal with textFragment := true, map := true } (.recordValueBegin none (.newComputed (t! "a"))) =
      [.mapKeyBegin, .textBegin (some 1), .textFragmentComputed (t! "a"), .textEnd, .mapKeyEnd, .mapValueBegin] := by
  decide +kernel

/-- C88. `ValueBuf::collect` and `Value::collect` of any code borrow only fragments the value lent. -/
theorem C88_collect (alloc : Bool) (p : Prog) (s : St) (h : collect alloc false p = .ok s) :
    ∀ t ∈ (replay s.parts).toks, isBorrowed t = true →
      t ∈ callsOn (stepB alloc) p ({}, false) ∨ t = .textFragment [] ∨ t = .binaryFragment [] := by
  have hl := exec_log_inv (stepB alloc) (fun x l => ∃ ts, Lent alloc ts x.1 ∧ ∀ t ∈ ts, t ∈ l)
    (by
      rintro t x l ⟨ts, h, hs⟩
      rcases Lend.stepB_lent t h with h' | h'
      · exact ⟨ts, h', fun u hu => List.mem_append_left _ (hs u hu)⟩
      · refine ⟨_, h', fun u hu => ?_⟩
        rcases List.mem_append.1 hu with hu | hu
        · exact List.mem_append_left _ (hs u hu)
        · exact List.mem_append_right _ hu)
    p ({}, false) ⟨[], .new, fun t ht => by cases ht⟩
  obtain ⟨ts, hl, hs⟩ := hl
  rw [Lend.collect_state h]
  intro t ht hb
  exact ((C88_buffer alloc ts _ hl).1 t ht hb).imp (hs t) id

/-- C88. `collect_owned` of any code borrows nothing. -/
theorem C88_collect_owned (alloc : Bool) (p : Prog) (s : St) (h : collect alloc true p = .ok s) :
    ∀ t ∈ (replay s.parts).toks, isBorrowed t = true → t = .textFragment [] ∨ t = .binaryFragment [] := by
  have hl := exec_inv (fun t x => stepB alloc (computedTok t) x)
    (fun x => ∃ ts, Lent alloc ts x.1 ∧ ∀ t ∈ ts, isBorrowed t = false)
    (by
      rintro t x ⟨ts, h, hs⟩
      rcases Lend.stepB_lent (computedTok t) h with h' | h'
      · exact ⟨ts, h', hs⟩
      · refine ⟨_, h', fun u hu => ?_⟩
        rcases List.mem_append.1 hu with hu | hu
        · exact hs u hu
        · cases List.mem_singleton.1 hu
          exact computedTok_not_borrowed t)
    p .base ({}, false) ⟨[], .new, fun t ht => by cases ht⟩
  rw [← exec_computed (stepB alloc) p (.computed .base) .base _ rfl] at hl
  obtain ⟨ts, hl, hs⟩ := hl
  rw [Lend.collect_state h]
  exact C88_static alloc ts _ hl hs

/-- A text without fragments leaves the empty fragment of a new buffer, borrowed from no one; with one, it is copied. -/
example : collect true true (.ofToks [.textBegin none, .textEnd]) = .ok { parts := [.text (.borrowed [])] } ∧
    collect true true (.ofToks [.textBegin none, .textFragment (t! "a"), .textEnd]) =
      .ok { parts := [.text (.owned (t! "a"))] } ∧
    collect true false (.ofToks [.textBegin none, .textFragment (t! "a"), .textEnd]) =
      .ok { parts := [.text (.borrowed (t! "a"))] } := ⟨rfl, rfl, rfl⟩

/-- C88. `TextBuf::collect` borrows only a whole fragment the value lent, or the text of a static label. -/
theorem C88_collect_text (alloc : Bool) (p : Prog) (c : Cow Char) (h : collectText alloc p = .ok c) (f : Text)
    (hf : c.asBorrowed = some f) :
    f = [] ∨ .textFragment f ∈ callsOn (stepE textCCaps (textCStep alloc)) p {} ∨
      ∃ t ∈ callsOn (stepE textCCaps (textCStep alloc)) p {}, ∃ l, t.labelOf = some l ∧ l.backing = .static ∧ l.text = f := by
  have hl := exec_log_inv (stepE textCCaps (textCStep alloc))
    (fun x ts => ∀ f, x.buf.asBorrowed = some f →
      f = [] ∨ .textFragment f ∈ ts ∨ ∃ t ∈ ts, ∃ l, t.labelOf = some l ∧ l.backing = .static ∧ l.text = f)
    (by
      intro t x ts hx
      refine Lend.run_keeps (textCStep alloc) (fun x => ∀ f, x.buf.asBorrowed = some f →
        f = [] ∨ .textFragment f ∈ ts ++ [t] ∨ ∃ u ∈ ts ++ [t], ∃ l, u.labelOf = some l ∧ l.backing = .static ∧ l.text = f)
        (Low.tok textCCaps t) ?_ x ?_
      · intro u hu s hs
        have push : ∀ r : Except Err (Cow Char), (∀ c, r = .ok c → c.asBorrowed = none ∨
            ∃ g, u = .textFragment g ∧ c = .borrowed g) → ∀ f, ((s.tryPush r).pair s).1.buf.asBorrowed = some f →
            f = [] ∨ .textFragment f ∈ ts ++ [t] ∨
              ∃ u ∈ ts ++ [t], ∃ l, u.labelOf = some l ∧ l.backing = .static ∧ l.text = f := by
          intro r hr f hf
          cases r with
          | error e => exact hs f hf
          | ok c =>
            rcases hr c rfl with hn | ⟨g, rfl, rfl⟩
            · simp only [Coll.tryPush, Res.pair] at hf; rw [hn] at hf; cases hf
            · cases hf
              rcases C88_provided _ _ _ hu rfl with rfl | ⟨l, h1, h2, h3⟩
              · exact .inr (.inl (by simp))
              · cases h3
                exact .inr (.inr ⟨t, by simp, l, h1, h2, rfl⟩)
        cases u with
        | textFragment g =>
          exact push _ fun c hc => (Lend.push_ok hc).imp id fun h => ⟨g, rfl, h⟩
        | textFragmentComputed g => exact push _ fun c hc => .inl (Lend.pushComputed_ok hc)
        | _ => exact hs
      · intro f hf
        refine (hx f hf).imp id (Or.imp (List.mem_append_left _) ?_)
        rintro ⟨u, hu, hl⟩
        exact ⟨u, List.mem_append_left _ hu, hl⟩)
    p {} (by intro f hf; cases hf; exact .inl rfl)
  rw [Lend.gather_ok h] at hf
  exact hl f hf

/-- C88. `BinaryBuf::collect` borrows only a whole fragment the value lent. -/
theorem C88_collect_binary (alloc : Bool) (p : Prog) (c : Cow UInt8) (h : collectBinary alloc p = .ok c) (f : Bytes)
    (hf : c.asBorrowed = some f) :
    f = [] ∨ .binaryFragment f ∈ callsOn (stepE binaryCCaps (binaryCStep alloc)) p {} := by
  have hl := exec_log_inv (stepE binaryCCaps (binaryCStep alloc))
    (fun x ts => ∀ f, x.buf.asBorrowed = some f → f = [] ∨ .binaryFragment f ∈ ts)
    (by
      intro t x ts hx
      refine Lend.run_keeps (binaryCStep alloc) (fun x => ∀ f, x.buf.asBorrowed = some f →
        f = [] ∨ .binaryFragment f ∈ ts ++ [t]) (Low.tok binaryCCaps t) ?_ x ?_
      · intro u hu s hs
        have push : ∀ r : Except Err (Cow UInt8), (∀ c, r = .ok c → c.asBorrowed = none ∨
            ∃ g, u = .binaryFragment g ∧ c = .borrowed g) → ∀ f, ((s.tryPush r).pair s).1.buf.asBorrowed = some f →
            f = [] ∨ .binaryFragment f ∈ ts ++ [t] := by
          intro r hr f hf
          cases r with
          | error e => exact hs f hf
          | ok c =>
            rcases hr c rfl with hn | ⟨g, rfl, rfl⟩
            · simp only [Coll.tryPush, Res.pair] at hf; rw [hn] at hf; cases hf
            · cases hf
              rcases C88_provided _ _ _ hu rfl with rfl | ⟨l, h1, h2, h3⟩
              · exact .inr (by simp)
              · cases h3
        cases u with
        | binaryFragment g =>
          exact push _ fun c hc => (Lend.push_ok hc).imp id fun h => ⟨g, rfl, h⟩
        | binaryFragmentComputed g => exact push _ fun c hc => .inl (Lend.pushComputed_ok hc)
        | int ty v =>
          cases ty with
          | u8 => exact push _ fun c hc => .inl (Lend.pushComputed_ok hc)
          | _ => exact hs
        | _ => exact hs
      · intro f hf
        exact (hx f hf).imp id (List.mem_append_left _))
    p {} (by intro f hf; cases hf; exact .inl rfl)
  rw [Lend.gather_ok h] at hf
  exact hl f hf

/-- The text of a unit variant is that of its static label; bytes one by one are not borrowed. -/
example : collectText true (.ofToks [.tag { label := some (.new (t! "A")) }]) = .ok (.borrowed (t! "A")) ∧
    collectText true (.ofToks [.tag { label := some (.newComputed (t! "A")) }]) = .ok (.owned (t! "A")) ∧
    collectBinary true (.ofToks [.binaryBegin none, .binaryFragment [1], .binaryEnd]) = .ok (.borrowed [1]) ∧
    collectBinary true (.ofToks [.seqBegin none, .seqValueBegin, .int .u8 1, .seqValueEnd, .seqEnd]) = .ok (.owned [1]) := by
  decide +kernel

end Sval
