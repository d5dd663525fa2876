import Verif.Nested.Model

set_option autoImplicit false

/-!
# The order in which the methods of a recursive stream are called

In Rust the types of `nested/src/lib.rs` enforce it: a method that gives another stream consumes the one it is called
on. Here it is an automaton over the methods.
-/

namespace Sval.Nested

/-- What has been called so far. -/
inductive Pos where
  | start
  | seq
  | map
  | tuple
  | record
  /-- an enum, in nested ones -/
  | enum (q : List Meta)
  /-- a variant was given, nested enums are to be ended -/
  | variant (q : List Meta)
  | over

/-- The nested enums are to be ended, if there are any. -/
def Pos.given : List Meta → Pos
  | [] => .over
  | m :: q => .variant (m :: q)

/-- Which method can be called when, and what comes after: `nested/src/lib.rs:66-687`. -/
def Pos.next : Pos → Cb → Option Pos
  | .start, .scalar _ | .start, .text _ _ | .start, .binary _ _ | .start, .tag _ | .start, .value _ | .start, .tagged _ _ => some .over
  | .start, .seqBegin _ => some .seq
  | .start, .mapBegin _ => some .map
  | .start, .tupleBegin _ _ => some .tuple
  | .start, .recordBegin _ _ => some .record
  | .start, .enumBegin _ => some (.enum [])
  | .seq, .seqValue _ => some .seq
  | .seq, .seqEnd => some .over
  | .map, .mapKey _ | .map, .mapValue _ => some .map
  | .map, .mapEnd => some .over
  | .tuple, .tupleValue _ _ _ => some .tuple
  | .tuple, .tupleEnd => some .over
  | .record, .recordValue _ _ _ => some .record
  | .record, .recordEnd => some .over
  | .enum q, .variantTag _ | .enum q, .variantTagged _ _ => some (.given q)
  | .enum [], .variantTupleBegin _ _ => some .tuple
  | .enum [], .variantRecordBegin _ _ => some .record
  | .enum q, .nestedBegin m => some (.enum (m :: q))
  | .variant (m :: q), .nestedEnd m' => if m = m' then some (.given q) else none
  | _, _ => none

/-- These calls can be made, all of them succeeded, and this is where they lead. -/
inductive Follows : List (Cb × Bool) → Pos → Prop
  | nil : Follows [] .start
  | snoc {l : List (Cb × Bool)} {p p' : Pos} (c : Cb) (h : Follows l p) (h' : p.next c = some p') : Follows (l ++ [(c, true)]) p'

/-- These calls can be made, and only the last of them may have failed. -/
def Stops (l : List (Cb × Bool)) : Prop :=
  (∃ p, Follows l p) ∨ ∃ l' p c, l = l' ++ [(c, false)] ∧ Follows l' p ∧ (p.next c).isSome

/-- Any recursive stream, with a record of the calls and if they succeeded. -/
def logged {σ : Type} (C : Cb → σ → Res Unit σ) : Cb → σ × List (Cb × Bool) → Res Unit (σ × List (Cb × Bool)) := fun c s =>
  match C c s.1 with
  | .ok s' => .ok (s', s.2 ++ [(c, true)])
  | .err e s' => .err e (s', s.2 ++ [(c, false)])
  | .panic => .panic

/-- Where the recursive stream is in a mode that is not a failure. -/
def Mode.pos : Mode → Option Pos
  | .any | .tagged _ => some .start
  | .seq => some .seq
  | .map _ => some .map
  | .tuple _ | .vtuple _ => some .tuple
  | .record _ | .vrecord _ => some .record
  | .enum _ | .vtagged _ _ => some (.enum [])
  | .done true => some .over
  | .done false => none

section
variable {σ : Type} (C : Cb → σ → Res Unit σ)

abbrev Logged (σ : Type) := St (σ × List (Cb × Bool))

def Inv (st : Logged σ) : Prop :=
  match st.mode.pos with
  | some p => Follows st.s.2 p
  | none => Stops st.s.2

theorem Inv.stops {st : Logged σ} (h : Inv st) : Stops st.s.2 := by
  unfold Inv at h
  split at h
  · exact .inl ⟨_, h⟩
  · exact h

theorem inv_pos {st : Logged σ} {p : Pos} (h : st.mode.pos = some p) : Inv st ↔ Follows st.s.2 p := by
  unfold Inv
  rw [h]

/-- The action succeeds with `P`, or fails after calls that can be made. -/
def Leads (r : Res Unit (Logged σ)) (P : Logged σ → Prop) : Prop :=
  match r with
  | .ok st => P st
  | .err _ st => Stops st.s.2
  | .panic => True

theorem Leads.bind {r : Res Unit (Logged σ)} {P Q : Logged σ → Prop} {f : Act (σ × List (Cb × Bool))} (h : Leads r P)
    (hf : ∀ st, P st → Leads (f st) Q) : Leads (r.bind f) Q := by
  cases r with
  | ok st => exact hf st h
  | err e st => exact h
  | panic => trivial

theorem Leads.imp {r : Res Unit (Logged σ)} {P Q : Logged σ → Prop} (h : Leads r P) (hf : ∀ st, P st → Q st) : Leads r Q := by
  cases r with
  | ok st => exact hf st h
  | err e st => exact h
  | panic => trivial

theorem leads_cb {st : Logged σ} {p p' : Pos} {c : Cb} (h : Follows st.s.2 p) (h' : p.next c = some p') :
    Leads (cb (logged C) c st) fun st' => Follows st'.s.2 p' ∧ st'.mode = st.mode ∧ st'.buf = st.buf := by
  unfold cb logged
  cases C c st.s.1 with
  | ok s => exact ⟨.snoc c h h', rfl, rfl⟩
  | err e s => exact .inr ⟨st.s.2, p, c, rfl, h, by rw [h']; rfl⟩
  | panic => trivial

theorem leads_toMode {st : Logged σ} {m : Mode} {p : Pos} (hm : m.pos = some p) (h : Follows st.s.2 p) :
    Leads (toMode m st) Inv := (inv_pos (st := { st with mode := m }) hm).2 h

theorem catch_inv {a : Act (σ × List (Cb × Bool))} {st : Logged σ} (h : Leads (a st) Inv) :
    match tryCatch a st with
    | .ok st => Inv st
    | .err _ st => Inv st
    | .panic => True := by
  unfold tryCatch
  cases hr : a st with
  | ok st' => rw [hr] at h; exact h
  | err e st' => rw [hr] at h; exact h
  | panic => trivial

/-- A call on the flat stream keeps the invariant. -/
def Obeys (r : Res Unit (Logged σ)) : Prop :=
  match r with
  | .ok st => Inv st
  | .err _ st => Inv st
  | .panic => True

theorem leads_nest (q : List Meta) (a : Act (σ × List (Cb × Bool))) (q' : List Meta) (st : Logged σ) (h : Follows st.s.2 (.enum q'))
    (ha : ∀ (q' : List Meta) (st : Logged σ), Follows st.s.2 (.enum q') → Leads (a st) fun st' => Follows st'.s.2 (.given q')) :
    Leads (nest (logged C) q a st) fun st' => Follows st'.s.2 (.given q') := by
  induction q generalizing q' st with
  | nil => exact ha q' st h
  | cons m q ih =>
    refine Leads.bind (P := fun st' => Follows st'.s.2 (.given (m :: q'))) ?_ ?_
    · have e : (Pos.enum q').next (.nestedBegin m) = some (.enum (m :: q')) := by cases q' <;> rfl
      exact (leads_cb C h e).bind fun st' h' => ih (m :: q') st' h'.1
    · intro st' h'
      have e : (Pos.given (m :: q')).next (.nestedEnd m) = some (.given q') := by simp [Pos.given, Pos.next]
      exact (leads_cb C h' e).imp fun _ h => h.1

theorem leads_put {any : Cb} (hany : Pos.start.next any = some .over) (a : Arg) (st : Logged σ) (h : Inv st) :
    Leads (put (logged C) any a st) Inv := by
  have hs := h.stops
  obtain ⟨b, m, s⟩ := st
  have over : ∀ st : Logged σ, Follows st.s.2 .over → Leads (toMode (.done true) st) Inv := fun st h => leads_toMode rfl h
  have stay : ∀ {st : Logged σ} {p : Pos} {c : Cb}, Follows st.s.2 p → st.mode.pos = some p → p.next c = some p →
      Leads (cb (logged C) c st) Inv := by
    intro st p c h1 h2 h3
    exact (leads_cb C h1 h3).imp fun st' h' => (inv_pos (by rw [h'.2.1]; exact h2)).2 h'.1
  cases m with
  | any => exact (leads_cb C ((inv_pos rfl).1 h) hany).bind fun st' h' => over st' h'.1
  | tagged m => exact (leads_cb C (p' := .over) ((inv_pos rfl).1 h) rfl).bind fun st' h' => over st' h'.1
  | seq => exact stay (p := .seq) ((inv_pos rfl).1 h) rfl rfl
  | map k =>
    cases k with
    | true => exact stay (p := .map) ((inv_pos rfl).1 h) rfl rfl
    | false => exact stay (p := .map) ((inv_pos rfl).1 h) rfl rfl
  | tuple f =>
    cases f with
    | none => exact hs
    | some f => exact stay (st := ⟨b, .tuple none, s⟩) (p := .tuple) ((inv_pos rfl).1 h) rfl rfl
  | record f =>
    cases f with
    | none => exact hs
    | some f => exact stay (st := ⟨b, .record none, s⟩) (p := .record) ((inv_pos rfl).1 h) rfl rfl
  | vtuple f =>
    cases f with
    | none => exact hs
    | some f => exact stay (st := ⟨b, .vtuple none, s⟩) (p := .tuple) ((inv_pos rfl).1 h) rfl rfl
  | vrecord f =>
    cases f with
    | none => exact hs
    | some f => exact stay (st := ⟨b, .vrecord none, s⟩) (p := .record) ((inv_pos rfl).1 h) rfl rfl
  | vtagged m q =>
    refine Leads.bind (leads_nest C q _ [] _ ((inv_pos rfl).1 h) ?_) over
    intro q' st h
    exact (leads_cb C h (p' := .given q') (by cases q' <;> rfl)).imp fun _ h => h.1
  | enum q => exact hs
  | done b => exact hs

theorem keeps_bufferOr {t : Token} {a : Act (σ × List (Cb × Bool))} (st : Logged σ) (h : Inv st) (ha : Leads (a st) Inv) :
    Obeys (bufferOr t a st) := by
  refine catch_inv (a := fun st => match st.buf with
    | some (.value b) => buffered st (Buf.step true t b)
    | _ => a st) ?_
  split
  · cases Buf.step true t _ with
    | ok b => exact h
    | err e b => exact h.stops
    | panic => trivial
  · exact ha

theorem keeps_bufferOrBegin {t : Token} {any : Act (σ × List (Cb × Bool))} {enum : List Meta → Act (σ × List (Cb × Bool))}
    (st : Logged σ) (h : Inv st) (hany : Follows st.s.2 .start → Leads (any st) Inv)
    (henum : ∀ q, Follows st.s.2 (.enum []) → Leads (enum q st) Inv) :
    Obeys (bufferOrBegin t any enum st) := by
  unfold bufferOrBegin
  refine catch_inv ?_
  obtain ⟨b, m, s⟩ := st
  rcases b with _ | ⟨b | b | b⟩
  · have other : Leads (σ := σ) (match Buf.step true t {} with
      | .ok b => .ok ⟨some (.value b), m, s⟩
      | .err _ _ => .err () ⟨none, m, s⟩
      | .panic => .panic) Inv := by
      cases Buf.step true t {} with
      | ok b => exact h
      | err e b => exact h.stops
      | panic => trivial
    cases m with
    | any => exact hany ((inv_pos rfl).1 h)
    | enum q => exact henum q ((inv_pos rfl).1 h)
    | _ => exact other
  · exact h.stops
  · exact h.stops
  · show Leads (buffered _ (Buf.step true t b)) Inv
    cases Buf.step true t _ with
    | ok b => exact h
    | err e b => exact h.stops
    | panic => trivial

theorem keeps_bufferOrEnd {t : Token} {a : Act (σ × List (Cb × Bool))} (st : Logged σ) (h : Inv st)
    (ha : Leads (a st) fun st' => Follows st'.s.2 .over) : Obeys (bufferOrEnd (logged C) t a st) := by
  unfold bufferOrEnd
  refine catch_inv ?_
  obtain ⟨b, m, s⟩ := st
  rcases b with _ | ⟨b | b | b⟩
  · exact ha.bind fun st' h' => leads_toMode rfl h'
  · exact h.stops
  · exact h.stops
  · show Leads (match Buf.step true t b with
      | .ok b =>
        if Buf.isComplete b then put (logged C) (.value (bufferArg b)) (bufferArg b) ⟨none, m, s⟩
        else .ok ⟨some (.value b), m, s⟩
      | .err _ _ => .err () ⟨some (.value {}), m, s⟩
      | .panic => .panic) Inv
    cases Buf.step true t b with
    | ok b =>
      simp only
      split
      · exact leads_put C rfl _ _ h
      · exact h
    | err e b => exact h.stops
    | panic => trivial

theorem leads_finish (st : Logged σ) (h : Inv st) : Leads (finish st) fun st' => Follows st'.s.2 .over := by
  unfold finish
  split
  · rename_i hm
    exact (inv_pos (by rw [hm]; rfl)).1 h
  · exact h.stops

theorem leads_begin {st : Logged σ} {c : Cb} {m : Mode} {p p' : Pos} (h : Follows st.s.2 p) (hp : p.next c = some p') (hm : m.pos = some p') :
    Leads ((cb (logged C) c st).bind (toMode m)) Inv :=
  (leads_cb C h hp).bind fun _ h' => leads_toMode hm h'.1

theorem leads_withText (f : Buf.Cow Char → Except Buf.Err (Buf.Cow Char)) (st : Logged σ) (h : Inv st) : Leads (withText f st) Inv := by
  unfold withText
  split
  · cases f _ with
    | ok b => exact h
    | error e => exact h.stops
  · exact h.stops

theorem leads_withBinary (f : Buf.Cow UInt8 → Except Buf.Err (Buf.Cow UInt8)) (st : Logged σ) (h : Inv st) : Leads (withBinary f st) Inv := by
  unfold withBinary
  split
  · cases f _ with
    | ok b => exact h
    | error e => exact h.stops
  · exact h.stops

theorem leads_putBuffer (b : Buffered) (st : Logged σ) (h : Inv st) : Leads (putBuffer b st) Inv := by
  unfold putBuffer
  split
  · exact h
  · exact h.stops

theorem leads_recordField (tg : Option Tag) (l : Label) (st : Logged σ) (h : Inv st) :
    Leads (match st.buf, st.mode with
    | none, .record _ => .ok { st with mode := .record (some (tg, l)) }
    | none, .vrecord _ => .ok { st with mode := .vrecord (some (tg, l)) }
    | _, _ => .err () st) Inv := by
  have hs := h.stops
  obtain ⟨b, m, s⟩ := st
  cases b <;> cases m <;> first | exact hs | exact h

theorem leads_tupleField (tg : Option Tag) (i : Index) (st : Logged σ) (h : Inv st) :
    Leads (match st.buf, st.mode with
    | none, .tuple _ => .ok { st with mode := .tuple (some (tg, i)) }
    | none, .vtuple _ => .ok { st with mode := .vtuple (some (tg, i)) }
    | _, _ => .err () st) Inv := by
  have hs := h.stops
  obtain ⟨b, m, s⟩ := st
  cases b <;> cases m <;> first | exact hs | exact h

theorem leads_mapField (k : Bool) (st : Logged σ) (h : Inv st) :
    Leads (match st.buf, st.mode with
    | none, .map _ => .ok { st with mode := .map k }
    | _, _ => .err () st) Inv := by
  have hs := h.stops
  obtain ⟨b, m, s⟩ := st
  cases b <;> cases m <;> first | exact hs | exact h

theorem leads_recordEnd (st : Logged σ) (h : Inv st) :
    Leads (match st.mode with
    | .record _ | .vrecord _ => cb (logged C) .recordEnd st
    | _ => .err () st) fun st' => Follows st'.s.2 .over := by
  have hs := h.stops
  obtain ⟨b, m, s⟩ := st
  cases m <;> first | exact hs | exact (leads_cb C (p := .record) ((inv_pos rfl).1 h) rfl).imp fun _ h => h.1

theorem leads_tupleEnd (st : Logged σ) (h : Inv st) :
    Leads (match st.mode with
    | .tuple _ | .vtuple _ => cb (logged C) .tupleEnd st
    | _ => .err () st) fun st' => Follows st'.s.2 .over := by
  have hs := h.stops
  obtain ⟨b, m, s⟩ := st
  cases m <;> first | exact hs | exact (leads_cb C (p := .tuple) ((inv_pos rfl).1 h) rfl).imp fun _ h => h.1

theorem leads_variant {c : Cb} {m : Mode} {p' : Pos} (q : List Meta) (st : Logged σ) (h : Follows st.s.2 (.enum []))
    (hc : (Pos.enum []).next c = some p') (hm : m.pos = some p') :
    Leads (if q = [] then (cb (logged C) c st).bind (toMode m) else .panic) Inv := by
  split
  · exact leads_begin C h hc hm
  · trivial

theorem leads_endless (q : List Meta) (P : Logged σ → Prop) (st : Logged σ) (q' : List Meta) (h : Follows st.s.2 (.enum q')) :
    Leads (endless (logged C) q st) P := by
  unfold endless
  induction q generalizing st q' P with
  | nil => trivial
  | cons m q ih =>
    have e : (Pos.enum q').next (.nestedBegin m) = some (.enum (m :: q')) := by cases q' <;> rfl
    exact Leads.bind (P := fun _ => False) ((leads_cb C h e).bind fun st' h' => ih _ st' (m :: q') h'.1) fun _ h => h.elim

theorem keeps_call (t : Token) (st : Logged σ) (h : Inv st) : Obeys (call (logged C) t st) := by
  have hs := h.stops
  cases t with
  | null => exact keeps_bufferOr st h (leads_put C rfl _ st h)
  | bool b => exact keeps_bufferOr st h (leads_put C rfl _ st h)
  | int t v => exact keeps_bufferOr st h (leads_put C rfl _ st h)
  | f32 b => exact keeps_bufferOr st h (leads_put C rfl _ st h)
  | f64 b => exact keeps_bufferOr st h (leads_put C rfl _ st h)
  | textBegin n => exact keeps_bufferOr st h (leads_putBuffer _ st h)
  | textFragment f => exact keeps_bufferOr st h (leads_withText _ st h)
  | textFragmentComputed f => exact keeps_bufferOr st h (leads_withText _ st h)
  | textEnd =>
    refine keeps_bufferOr st h ?_
    split
    · split
      · exact leads_put C rfl _ _ h
      · exact leads_put C rfl _ _ h
    · exact hs
  | binaryBegin n => exact keeps_bufferOr st h (leads_putBuffer _ st h)
  | binaryFragment f => exact keeps_bufferOr st h (leads_withBinary _ st h)
  | binaryFragmentComputed f => exact keeps_bufferOr st h (leads_withBinary _ st h)
  | binaryEnd =>
    refine keeps_bufferOr st h ?_
    split
    · split
      · exact leads_put C rfl _ _ h
      · exact leads_put C rfl _ _ h
    · exact hs
  | tag m =>
    refine keeps_bufferOr st h ?_
    split
    · rename_i q hm
      refine Leads.bind (leads_nest C q _ [] st ((inv_pos (by rw [hm]; rfl)).1 h) ?_) fun st' h' => leads_toMode rfl h'
      intro q' st h
      exact (leads_cb C h (p' := .given q') (by cases q' <;> rfl)).imp fun _ h => h.1
    · exact leads_put C rfl _ st h
  | seqBegin n => exact keeps_bufferOrBegin st h (fun hp => leads_begin C hp rfl rfl) fun _ _ => hs
  | seqValueBegin => exact h
  | seqValueEnd => exact h
  | seqEnd =>
    refine keeps_bufferOrEnd C st h ?_
    split
    · rename_i hm
      exact (leads_cb C (p := .seq) ((inv_pos (by rw [hm]; rfl)).1 h) rfl).imp fun _ h => h.1
    · exact hs
  | mapBegin n => exact keeps_bufferOrBegin st h (fun hp => leads_begin C hp rfl rfl) fun _ _ => hs
  | mapKeyBegin => exact keeps_bufferOr st h (leads_mapField true st h)
  | mapKeyEnd => exact keeps_bufferOr st h h
  | mapValueBegin => exact keeps_bufferOr st h (leads_mapField false st h)
  | mapValueEnd => exact keeps_bufferOr st h h
  | mapEnd =>
    refine keeps_bufferOrEnd C st h ?_
    split
    · rename_i hm
      exact (leads_cb C (p := .map) ((inv_pos (by rw [hm]; rfl)).1 h) rfl).imp fun _ h => h.1
    · exact hs
  | enumBegin m =>
    exact keeps_bufferOrBegin st h (fun hp => leads_begin C hp rfl rfl) fun q hp =>
      (inv_pos (st := { st with mode := .enum (q ++ [ownMeta m]) }) rfl).2 hp
  | enumEnd m =>
    refine keeps_bufferOrEnd C st h ?_
    split
    · rename_i q hm
      exact leads_endless C q _ st [] ((inv_pos (by rw [hm]; rfl)).1 h)
    · exact leads_finish st h
    · exact hs
  | taggedBegin m =>
    exact keeps_bufferOrBegin st h (fun hp => (inv_pos (st := { st with mode := .tagged (ownMeta m) }) rfl).2 hp) fun q hp =>
      (inv_pos (st := { st with mode := .vtagged (ownMeta m) q }) rfl).2 hp
  | taggedEnd m => exact keeps_bufferOrEnd C st h (leads_finish st h)
  | recordBegin m n =>
    exact keeps_bufferOrBegin st h (fun hp => leads_begin C hp rfl rfl) fun q hp => leads_variant C q st hp rfl rfl
  | recordValueBegin tg l => exact keeps_bufferOr st h (leads_recordField tg _ st h)
  | recordValueEnd tg l => exact keeps_bufferOr st h h
  | recordEnd m => exact keeps_bufferOrEnd C st h (leads_recordEnd C st h)
  | tupleBegin m n =>
    exact keeps_bufferOrBegin st h (fun hp => leads_begin C hp rfl rfl) fun q hp => leads_variant C q st hp rfl rfl
  | tupleValueBegin tg i => exact keeps_bufferOr st h (leads_tupleField tg i st h)
  | tupleValueEnd tg i => exact keeps_bufferOr st h h
  | tupleEnd m => exact keeps_bufferOrEnd C st h (leads_tupleEnd C st h)
  | tagHint t => exact h
  | recordTupleBegin m n =>
    exact keeps_bufferOrBegin st h (fun hp => leads_begin C hp rfl rfl) fun q hp => leads_variant C q st hp rfl rfl
  | recordTupleValueBegin tg l i => exact keeps_bufferOr st h (leads_recordField tg _ st h)
  | recordTupleValueEnd tg l i => exact keeps_bufferOr st h h
  | recordTupleEnd m => exact keeps_bufferOrEnd C st h (leads_recordEnd C st h)

/-- Code keeps the invariant. -/
def KeepsOut (r : Outcome (Logged σ)) : Prop :=
  match r with
  | .done _ st => Inv st
  | .panicked => True

theorem keeps_delegate (v : Prog) (computed : Bool) (go : Logged σ → Outcome (Logged σ)) (hgo : ∀ st, Inv st → KeepsOut (go st))
    (st : Logged σ) (h : Inv st) : KeepsOut (delegate (logged C) v computed go st) := by
  unfold delegate
  split
  · cases bufValue v computed _ with
    | done ok b =>
      cases ok with
      | true => exact h
      | false => exact h.stops
    | panicked => trivial
  · split
    · have := hgo st h
      cases hr : go st with
      | done ok st' =>
        rw [hr] at this
        cases ok with
        | true => exact this
        | false => exact Inv.stops (st := st') this
      | panicked => trivial
    · have := catch_inv (a := put (logged C) (.value ⟨!computed, v⟩) ⟨!computed, v⟩) (leads_put C rfl _ st h)
      cases hr : tryCatch (put (logged C) (.value ⟨!computed, v⟩) ⟨!computed, v⟩) st with
      | ok st' => rw [hr] at this; exact this
      | err e st' => rw [hr] at this; exact this
      | panic => trivial

theorem keeps_exec (p : Prog) (c : Bool) (st : Logged σ) (h : Inv st) : KeepsOut (exec (logged C) p c st) := by
  induction p generalizing c st with
  | ret ok => exact h
  | call t k ih =>
    have := keeps_call C (if c then computedTok t else t) st h
    unfold exec
    cases hr : call (logged C) (if c then computedTok t else t) st with
    | ok st' => rw [hr] at this; exact ih true c st' this
    | err e st' => rw [hr] at this; exact ih false c st' this
    | panic => trivial
  | value v k ihv ihk =>
    have : KeepsOut (if c then exec (logged C) v true st else delegate (logged C) v false (exec (logged C) v false) st) := by
      cases c with
      | true => exact ihv true st h
      | false => exact keeps_delegate C v false _ (fun st h => ihv false st h) st h
    unfold exec
    cases hr : (if c then exec (logged C) v true st else delegate (logged C) v false (exec (logged C) v false) st) with
    | done ok st' => rw [hr] at this; exact ihk ok c st' this
    | panicked => trivial
  | valueComputed v k ihv ihk =>
    have := keeps_delegate C v true _ (fun st h => ihv true st h) st h
    unfold exec
    cases hr : delegate (logged C) v true (exec (logged C) v true) st with
    | done ok st' => rw [hr] at this; exact ihk ok c st' this
    | panicked => trivial

end

end Sval.Nested
