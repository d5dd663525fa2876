import Verif.Flatten.Labels
import Verif.Core.Received
import Verif.Core.Guard

set_option autoImplicit false

/-!
# Flattening and any calls in any order

What it takes to make `Flattener` panic: `flatten/src/flattener.rs:46-695`.
-/

namespace Sval.Flatten

/-! ## The label buffer does not panic -/

namespace LabelBuf

/-- What a call leaves: no panic, and with an allocator no error. -/
def Settles (alloc : Bool) (r : Res Unit LabelBuf) : Prop :=
  match r with
  | .ok _ => True
  | .err _ _ => alloc = false
  | .panic => False

theorem Settles.bind {alloc : Bool} {r : Res Unit LabelBuf} {f : LabelBuf → Res Unit LabelBuf} (h : Settles alloc r)
    (hf : ∀ b, Settles alloc (f b)) : Settles alloc (r.bind f) := by
  cases r with
  | ok b => exact hf b
  | err e b => exact h
  | panic => exact h.elim

theorem settles_computed (alloc : Bool) (s : Text) (b : LabelBuf) : Settles alloc (b.textFragmentComputed alloc s) := by
  unfold textFragmentComputed Buf.Cow.pushComputed pushed Settles
  cases alloc <;> simp

theorem settles_fragment (alloc : Bool) (s : Text) (b : LabelBuf) : Settles alloc (b.textFragment alloc s) := by
  unfold textFragment Buf.Cow.push Buf.Cow.pushComputed pushed Settles
  by_cases h : b.textBuf.content.length = 0
  · simp [h]
  · rw [if_neg h]
    cases alloc <;> simp

theorem settles_writeAll (alloc : Bool) (ss : List Text) (b : LabelBuf) : Settles alloc (writeAll alloc ss b) := by
  induction ss generalizing b with
  | nil => trivial
  | cons s ss ih => exact (settles_computed alloc s b).bind ih

theorem settles_index (alloc : Bool) (i : Index) (b : LabelBuf) : Settles alloc (b.index alloc i) := by
  unfold index
  split
  · trivial
  · split
    · trivial
    · exact settles_writeAll alloc _ b

theorem settles_step (alloc : Bool) (t : Token) (b : LabelBuf) : Settles alloc (step alloc t b) := by
  unfold step
  split <;> try trivial
  all_goals try exact settles_fragment alloc _ _
  all_goals try exact settles_computed alloc _ _
  split
  · unfold label
    split
    · exact settles_fragment alloc _ _
    · exact settles_computed alloc _ _
  · exact settles_index alloc _ _
  · exact settles_fragment alloc _ _

theorem settles_run (alloc : Bool) (ts : List Token) (b : LabelBuf) : Settles alloc (run (step alloc) ts b) := by
  induction ts generalizing b with
  | nil => trivial
  | cons t ts ih =>
    rw [run]
    have h := settles_step alloc t b
    revert h
    cases step alloc t b with
    | ok b => exact fun _ => ih b
    | err e b => exact id
    | panic => exact id

end LabelBuf

/-! ## What a call leaves -/

/-- What is told about the flattener after a call: its indexes, its depth and whether it saw an enum. -/
abbrev Told := Alloc → Int → Bool → Prop

section
variable {σ : Type}

/-- No panic, `Q` afterwards, and in strict mode no error. -/
def Leaves (strict : Bool) (Q : Told) (r : Res Unit (St σ)) : Prop :=
  match r with
  | .ok st => Q st.ctl.alloc st.ctl.depth st.ctl.inEnum
  | .err _ st => strict = false ∧ Q st.ctl.alloc st.ctl.depth st.ctl.inEnum
  | .panic => False

theorem Leaves.bind {strict : Bool} {Q R : Told} {r : Res Unit (St σ)} {f : Act σ} (h : Leaves strict Q r)
    (hQ : strict = false → ∀ a d e, Q a d e → R a d e)
    (hf : ∀ st, Q st.ctl.alloc st.ctl.depth st.ctl.inEnum → Leaves strict R (f st)) : Leaves strict R (r.bind f) := by
  cases r with
  | ok st => exact hf st h
  | err e st => exact ⟨h.1, hQ h.1 _ _ _ h.2⟩
  | panic => exact h.elim

/-- An action that leaves everything that is told as it was. -/
def Keeps (strict : Bool) (f : Act σ) : Prop :=
  ∀ (Q : Told) st, Q st.ctl.alloc st.ctl.depth st.ctl.inEnum → Leaves strict Q (f st)

theorem keeps_ok (strict : Bool) : Keeps strict (.ok : Act σ) := fun _ _ h => h

theorem Keeps.bind {strict : Bool} {f g : Act σ} (hf : Keeps strict f) (hg : Keeps strict g) :
    Keeps strict fun st => (f st).bind g :=
  fun Q st h => (hf Q st h).bind (fun _ _ _ _ h => h) (hg Q)

variable {cfg : Cfg} {S : Token → σ → Res Unit σ} {strict : Bool}

/-- The stream does not panic, and in strict mode it does not fail either. -/
def Mild (strict : Bool) (S : Token → σ → Res Unit σ) : Prop :=
  ∀ t s, match S t s with
    | .ok _ => True
    | .err _ _ => strict = false
    | .panic => False

theorem keeps_lift (hS : Mild strict S) (t : Token) : Keeps strict (lift S t) := by
  intro Q st h
  have := hS t st.s
  unfold lift
  revert this
  cases S t st.s with
  | ok s => exact fun _ => h
  | err e s => exact fun hs => ⟨hs, h⟩
  | panic => exact id

theorem keeps_toStream (hS : Mild strict S) (t : Token) : Keeps strict (toStream cfg S t) := by
  intro Q st h
  unfold toStream
  split
  · exact keeps_lift hS t Q _ h
  · exact keeps_lift hS t Q _ h

theorem keeps_toLabel (hS : Mild strict S) (ha : strict = true → cfg.alloc = true) (t : Token) :
    Keeps strict (toLabel cfg S t) := by
  intro Q st h
  have hl := LabelBuf.settles_run cfg.alloc (Low.tok LabelBuf.caps t) st.ctl.side.label
  have key : Leaves strict Q (match LabelBuf.call cfg.alloc t st.ctl.side.label with
      | .ok l => (.ok { st with ctl.side.label := l } : Res Unit (St σ))
      | .err e l => .err e { st with ctl.side.label := l }
      | .panic => .panic) := by
    unfold LabelBuf.call
    revert hl
    cases run (LabelBuf.step cfg.alloc) (Low.tok LabelBuf.caps t) st.ctl.side.label with
    | ok l => exact fun _ => h
    | err e l =>
      intro hl
      refine ⟨?_, h⟩
      cases strict with
      | false => rfl
      | true => exact absurd (ha rfl) (by simp [show cfg.alloc = false from hl])
    | panic => exact id
  unfold toLabel
  split
  · exact key
  · exact key
  · exact h
  · exact h
  · exact keeps_toStream hS t Q st h

theorem keeps_toStreamAll (hS : Mild strict S) (ts : List Token) : Keeps strict (toStreamAll cfg S ts) := by
  induction ts with
  | nil => exact keeps_ok strict
  | cons t ts ih => exact (keeps_toStream hS t).bind ih

theorem keeps_flatBegin (hS : Mild strict S) (t : Option Tag) (l : Label) (i : Index) :
    Keeps strict (flatBegin cfg S t l i) := by
  intro Q st h
  unfold flatBegin
  split
  · exact keeps_toStream hS _ Q st h
  · exact keeps_toStream hS _ Q st h
  · exact keeps_toStream hS _ Q st h
  · exact keeps_toStream hS _ Q st h
  · refine Leaves.bind (Q := Q) ?_ (fun _ _ _ _ h => h) (keeps_toStream hS _ Q)
    split
    · exact h
    · exact keeps_toStreamAll hS _ Q st h

theorem keeps_flatEnd (hS : Mild strict S) (t : Option Tag) (l : Label) (i : Index) :
    Keeps strict (flatEnd cfg S t l i) := by
  intro Q st h
  unfold flatEnd
  split <;> exact keeps_toStream hS _ Q st h

theorem keeps_withIndexLabel (ha : strict = true → cfg.alloc = true) (i : Index) (l : Option Label) {f : Label → Act σ}
    (hf : ∀ l, Keeps strict (f l)) : Keeps strict (withIndexLabel cfg i l f) := by
  intro Q st h
  unfold withIndexLabel
  cases l with
  | some l => exact hf l Q st h
  | none =>
    have hl := LabelBuf.settles_index cfg.alloc i .empty
    simp only
    revert hl
    cases LabelBuf.index cfg.alloc i .empty with
    | ok b => exact fun _ => hf _ Q st h
    | err e b =>
      intro hl
      refine ⟨?_, h⟩
      cases strict with
      | false => rfl
      | true => exact absurd (ha rfl) (by simp [show cfg.alloc = false from hl])
    | panic => exact False.elim

theorem leaves_withBegin {Q : Told} (i : Option Index) {f : Index → Act σ} (hf : ∀ i, Keeps strict (f i)) (st : St σ)
    (hn : st.ctl.alloc.nextBegin cfg.checks i ≠ none) (h : Q st.ctl.alloc st.ctl.depth st.ctl.inEnum) :
    Leaves strict Q (withBegin cfg i f st) := by
  unfold withBegin
  cases e : st.ctl.alloc.nextBegin cfg.checks i with
  | none => exact absurd e hn
  | some ix => exact hf ix Q st h

theorem leaves_withEnd {Q : Told} (i : Option Index) {f : Index → Act σ} (hf : ∀ i, Keeps strict (f i)) (st : St σ)
    (hn : ∃ ix a, st.ctl.alloc.nextEnd cfg.checks i = some (ix, a) ∧ Q a st.ctl.depth st.ctl.inEnum) :
    Leaves strict Q (withEnd cfg i f st) := by
  obtain ⟨ix, a, e, h⟩ := hn
  unfold withEnd
  rw [e]
  exact hf ix Q _ h

/-! ## The calls -/

/-- The index in a call that `IndexAllocator` is asked about. -/
def asked : Token → Option Index
  | .taggedBegin m | .taggedEnd m => m.index
  | .tupleValueBegin _ i | .tupleValueEnd _ i | .recordTupleValueBegin _ _ i | .recordTupleValueEnd _ _ i => some i
  | _ => none

/-- Calls that begin a container that `Flattener` counts. -/
def begins : Token → Bool
  | .mapBegin _ | .seqBegin _ | .recordBegin _ _ | .tupleBegin _ _ | .recordTupleBegin _ _ => true
  | _ => false

/-- Calls that end one. -/
def ends : Token → Bool
  | .mapEnd | .seqEnd | .recordEnd _ | .tupleEnd _ | .recordTupleEnd _ => true
  | _ => false

/-- Calls that do none of it. -/
def steady : Token → Bool
  | .enumBegin _ | .taggedBegin _ | .taggedEnd _ => false
  | t => !begins t && !ends t

/-- There is an index for the next entry, and `M` is told after its end. -/
def Room (cfg : Cfg) (Q M : Told) (i : Option Index) : Prop :=
  ∀ a d e, Q a d e → a.nextBegin cfg.checks i ≠ none ∧ ∃ ix a', a.nextEnd cfg.checks i = some (ix, a') ∧ M a' d e

theorem leaves_atRoot {Q R : Told} {f g h : Act σ} (hg : Keeps strict g) (hh : Keeps strict h) (hQR : ∀ a d e, Q a d e → R a d e)
    (hf : ∀ st, st.ctl.depth = 0 → Q st.ctl.alloc st.ctl.depth st.ctl.inEnum → Leaves strict R (f st)) (st : St σ)
    (hq : Q st.ctl.alloc st.ctl.depth st.ctl.inEnum) : Leaves strict R (valueAtRoot f g h st) := by
  unfold valueAtRoot
  split
  · exact hf st ‹_› hq
  · split
    · exact hg R st (hQR _ _ _ hq)
    · exact hh R st (hQR _ _ _ hq)

theorem leaves_value (hS : Mild strict S) (ha : strict = true → cfg.alloc = true) {Q R : Told}
    (hQR : ∀ a d e, Q a d e → R a d e) (t : Token) (st : St σ) (hq : Q st.ctl.alloc st.ctl.depth st.ctl.inEnum) :
    Leaves strict R (value cfg S t st) :=
  leaves_atRoot (f := .ok) (keeps_toLabel hS ha t) (keeps_toStream hS t) hQR (fun st _ h => keeps_ok strict R st (hQR _ _ _ h)) st hq

theorem leaves_flat {Q R : Told} {f g h : Act σ} (hf : Keeps strict f) (hh : Keeps strict h) (hQR : ∀ a d e, Q a d e → R a d e)
    (hg : ∀ st, Q st.ctl.alloc st.ctl.depth st.ctl.inEnum → Leaves strict R (g st)) (st : St σ)
    (hq : Q st.ctl.alloc st.ctl.depth st.ctl.inEnum) : Leaves strict R (flattenableValue f g h st) := by
  unfold flattenableValue
  split
  · exact hg st hq
  · split
    · exact hf R st (hQR _ _ _ hq)
    · exact hh R st (hQR _ _ _ hq)

theorem leaves_steady (hS : Mild strict S) (ha : strict = true → cfg.alloc = true) {Q R : Told}
    (hQR : ∀ a d e, Q a d e → R a d e) (t : Token) (ht : steady t = true) (hr : Room cfg Q R (asked t)) (st : St σ)
    (hq : Q st.ctl.alloc st.ctl.depth st.ctl.inEnum) : Leaves strict R (call cfg S t st) := by
  have hl := keeps_toLabel (cfg := cfg) hS ha
  have hs := keeps_toStream (cfg := cfg) (strict := strict) hS
  have hb : ∀ (f : Index → Act σ), (∀ i, Keeps strict (f i)) → ∀ st : St σ, Q st.ctl.alloc st.ctl.depth st.ctl.inEnum →
      Leaves strict R (withBegin cfg (asked t) f st) := fun f hf st h =>
    leaves_withBegin _ hf st (hr _ _ _ h).1 (hQR _ _ _ h)
  have he : ∀ (f : Index → Act σ), (∀ i, Keeps strict (f i)) → ∀ st : St σ, Q st.ctl.alloc st.ctl.depth st.ctl.inEnum →
      Leaves strict R (withEnd cfg (asked t) f st) := fun f hf st h => leaves_withEnd _ hf st (hr _ _ _ h).2
  have hi : ∀ (tg : Option Tag) (l : Option Label) (i : Index),
      Keeps strict (withIndexLabel cfg i l fun l => flatBegin cfg S tg l i) := fun tg l i =>
    keeps_withIndexLabel ha i l fun l => keeps_flatBegin hS tg l i
  have hj : ∀ (tg : Option Tag) (l : Option Label) (i : Index),
      Keeps strict (withIndexLabel cfg i l fun l => flatEnd cfg S tg l i) := fun tg l i =>
    keeps_withIndexLabel ha i l fun l => keeps_flatEnd hS tg l i
  cases t with
  | enumBegin m => cases ht
  | taggedBegin m => cases ht
  | taggedEnd m => cases ht
  | mapBegin n => cases ht
  | seqBegin n => cases ht
  | recordBegin m n => cases ht
  | tupleBegin m n => cases ht
  | recordTupleBegin m n => cases ht
  | mapEnd => cases ht
  | seqEnd => cases ht
  | recordEnd m => cases ht
  | tupleEnd m => cases ht
  | recordTupleEnd m => cases ht
  | enumEnd m => exact leaves_atRoot (f := .ok) (hl _) (hs _) hQR (fun st _ h => keeps_ok strict R st (hQR _ _ _ h)) st hq
  | mapKeyBegin =>
    simp only [call]
    refine leaves_flat (hl _) (hs _) hQR (fun st h => ?_) st hq
    exact ((hl _) R st (hQR _ _ _ h)).bind (fun _ _ _ _ h => h) fun st h => h
  | mapKeyEnd =>
    simp only [call]
    refine leaves_flat (hl _) (hs _) hQR (fun st h => ?_) st hq
    exact ((hl _) R st (hQR _ _ _ h)).bind (fun _ _ _ _ h => h) fun st h => h
  | mapValueBegin =>
    refine leaves_flat (hl _) (hs _) hQR (fun st h => ?_) st hq
    unfold mapValueBegin takeLabel withKey
    cases cfg.kind <;> exact hb _ (fun i => keeps_flatBegin hS _ _ i) _ h
  | mapValueEnd => exact leaves_flat (hl _) (hs _) hQR (fun st h => he _ (fun i => keeps_flatEnd hS _ _ i) _ h) st hq
  | seqValueBegin => exact leaves_flat (hl _) (hs _) hQR (fun st h => hb _ (fun i => hi _ _ i) _ h) st hq
  | seqValueEnd => exact leaves_flat (hl _) (hs _) hQR (fun st h => he _ (fun i => hj _ _ i) _ h) st hq
  | recordValueBegin tg l => exact leaves_flat (hl _) (hs _) hQR (fun st h => hb _ (fun i => keeps_flatBegin hS _ _ i) _ h) st hq
  | recordValueEnd tg l => exact leaves_flat (hl _) (hs _) hQR (fun st h => he _ (fun i => keeps_flatEnd hS _ _ i) _ h) st hq
  | tupleValueBegin tg i => exact leaves_flat (hl _) (hs _) hQR (fun st h => hb _ (fun i => hi _ _ i) _ h) st hq
  | tupleValueEnd tg i => exact leaves_flat (hl _) (hs _) hQR (fun st h => he _ (fun i => hj _ _ i) _ h) st hq
  | recordTupleValueBegin tg l i => exact leaves_flat (hl _) (hs _) hQR (fun st h => hb _ (fun i => keeps_flatBegin hS _ _ i) _ h) st hq
  | recordTupleValueEnd tg l i => exact leaves_flat (hl _) (hs _) hQR (fun st h => he _ (fun i => keeps_flatEnd hS _ _ i) _ h) st hq
  | _ => exact leaves_value hS ha hQR _ st hq

theorem leaves_enumBegin (hS : Mild strict S) (ha : strict = true → cfg.alloc = true) {Q R : Told} (m : Meta)
    (hQR : ∀ a d e, d ≠ 0 → Q a d e → R a d e) (h0 : ∀ a e, Q a 0 e → R a 0 true) (st : St σ)
    (hq : Q st.ctl.alloc st.ctl.depth st.ctl.inEnum) : Leaves strict R (call cfg S (.enumBegin m) st) := by
  simp only [call, valueAtRoot]
  split
  · rename_i h
    rw [h] at hq
    have := h0 _ _ hq
    show R _ _ _
    rw [h]
    exact this
  · split
    · exact keeps_toLabel hS ha _ R st (hQR _ _ _ ‹_› hq)
    · exact keeps_toStream hS _ R st (hQR _ _ _ ‹_› hq)

theorem leaves_begin {Q R : Told} {f g h : Act σ} (hf : Keeps strict f) (hh : Keeps strict h)
    (hQR : ∀ a d e, Q a d e → R a (d + 1) e)
    (hg : ∀ st, R st.ctl.alloc st.ctl.depth st.ctl.inEnum → Q st.ctl.alloc (st.ctl.depth - 1) st.ctl.inEnum → Leaves strict R (g st)) (st : St σ)
    (hq : Q st.ctl.alloc st.ctl.depth st.ctl.inEnum) : Leaves strict R (flattenableBegin f g h st) := by
  unfold flattenableBegin
  simp only
  split
  · exact hf R _ (hQR _ _ _ hq)
  · split
    · refine hg _ (hQR _ _ _ hq) ?_
      simpa using hq
    · exact hh R _ (hQR _ _ _ hq)

theorem leaves_leave {M R : Told} (hM : ∀ a d e, M a d e → (cfg.checks = true → d ≠ 0) ∧ R a (d - 1) e) (st : St σ)
    (h : M st.ctl.alloc st.ctl.depth st.ctl.inEnum) : Leaves strict R (leave cfg st) := by
  unfold leave
  rw [if_neg fun hc => (hM _ _ _ h).1 hc.1 hc.2]
  exact (hM _ _ _ h).2

theorem leaves_end {Q M R : Told} {f g h : Act σ} (hf : Keeps strict f) (hh : Keeps strict h)
    (hQM : ∀ a d e, Q a d e → M a d e) (hM : ∀ a d e, M a d e → (cfg.checks = true → d ≠ 0) ∧ R a (d - 1) e)
    (hl : strict = false → ∀ a d e, M a d e → R a d e)
    (hg : ∀ st, Q st.ctl.alloc st.ctl.depth st.ctl.inEnum → Leaves strict M (g st)) (st : St σ)
    (hq : Q st.ctl.alloc st.ctl.depth st.ctl.inEnum) : Leaves strict R (flattenableEnd cfg f g h st) := by
  unfold flattenableEnd
  refine Leaves.bind (Q := M) ?_ hl (leaves_leave hM)
  split
  · exact hf M st (hQM _ _ _ hq)
  · split
    · exact hg st hq
    · exact hh M st (hQM _ _ _ hq)

theorem leaves_begins (hS : Mild strict S) (ha : strict = true → cfg.alloc = true) {Q R : Told}
    (hQR : ∀ a d e, Q a d e → R a (d + 1) e) (t : Token) (ht : begins t = true) (st : St σ)
    (hq : Q st.ctl.alloc st.ctl.depth st.ctl.inEnum) : Leaves strict R (call cfg S t st) := by
  have key : Leaves strict R (opens cfg S t st) :=
    leaves_begin (g := .ok) (keeps_toLabel hS ha t) (keeps_toStream hS t) hQR (fun st h _ => keeps_ok strict R st h) st hq
  cases t <;> first | exact key | cases ht

theorem leaves_ends (hS : Mild strict S) (ha : strict = true → cfg.alloc = true) {Q R : Told}
    (hQ : ∀ a d e, Q a d e → (cfg.checks = true → d ≠ 0) ∧ R a (d - 1) e)
    (hl : strict = false → ∀ a d e, Q a d e → R a d e) (t : Token) (ht : ends t = true) (st : St σ)
    (hq : Q st.ctl.alloc st.ctl.depth st.ctl.inEnum) : Leaves strict R (call cfg S t st) := by
  have key : Leaves strict R (closes cfg S t st) :=
    leaves_end (g := .ok) (keeps_toLabel hS ha t) (keeps_toStream hS t) (fun _ _ _ h => h) hQ hl (fun st h => keeps_ok strict Q st h) st hq
  cases t <;> first | exact key | cases ht

theorem leaves_taggedBegin (hS : Mild strict S) (ha : strict = true → cfg.alloc = true) {Q R : Told} (m : Meta)
    (hQ0 : ∀ a d, Q a d false → R a d false) (hQR : ∀ a d, Q a d true → R a (d + 1) true)
    (hr : ∀ a d e, Q a d e → a.nextBegin cfg.checks m.index ≠ none) (st : St σ)
    (hq : Q st.ctl.alloc st.ctl.depth st.ctl.inEnum) : Leaves strict R (call cfg S (.taggedBegin m) st) := by
  simp only [call]
  cases he : st.ctl.inEnum with
  | true =>
    rw [if_pos rfl]
    refine leaves_begin (Q := fun a d e => Q a d e ∧ e = true) (keeps_toLabel hS ha _) (keeps_toStream hS _)
      (fun a d e h => ?_) (fun st h h' => ?_) st ⟨hq, he⟩
    · obtain ⟨h, rfl⟩ := h
      exact hQR a d h
    · exact leaves_withBegin _ (fun i => keeps_withIndexLabel ha i _ fun l => keeps_flatBegin hS _ l i) st (hr _ _ _ h'.1) h
  | false =>
    rw [if_neg (by simp)]
    rw [he] at hq
    have h := hQ0 _ _ hq
    split
    · show R _ _ _
      rw [he]
      exact h
    · refine leaves_value (Q := R) hS ha (fun _ _ _ h => h) _ st ?_
      rw [he]
      exact h

theorem leaves_taggedEnd (hS : Mild strict S) (ha : strict = true → cfg.alloc = true) {Q M R : Told} (m : Meta)
    (hQ0 : ∀ a d, Q a d false → R a d false) (hQM : ∀ a d e, Q a d e → M a d e)
    (hM : ∀ a d, M a d true → (cfg.checks = true → d ≠ 0) ∧ R a (d - 1) true)
    (hl : strict = false → ∀ a d, M a d true → R a d true) (hr : Room cfg Q M m.index) (st : St σ)
    (hq : Q st.ctl.alloc st.ctl.depth st.ctl.inEnum) : Leaves strict R (call cfg S (.taggedEnd m) st) := by
  simp only [call]
  cases he : st.ctl.inEnum with
  | true =>
    rw [if_pos rfl]
    refine leaves_end (Q := fun a d e => Q a d e ∧ e = true) (M := fun a d e => M a d e ∧ e = true) (keeps_toLabel hS ha _)
      (keeps_toStream hS _) (fun a d e h => ⟨hQM _ _ _ h.1, h.2⟩) (fun a d e h => ?_) (fun hs a d e h => ?_) (fun st h => ?_) st
      ⟨hq, he⟩
    · obtain ⟨h, rfl⟩ := h
      exact hM a d h
    · obtain ⟨h, rfl⟩ := h
      exact hl hs a d h
    · obtain ⟨ix, a, e, h1⟩ := (hr _ _ _ h.1).2
      exact leaves_withEnd _ (fun i => keeps_withIndexLabel ha i _ fun l => keeps_flatEnd hS _ l i) st ⟨ix, a, e, h1, h.2⟩
  | false =>
    rw [if_neg (by simp)]
    rw [he] at hq
    have h := hQ0 _ _ hq
    split
    · show R _ _ _
      rw [he]
      exact h
    · refine leaves_value (Q := R) hS ha (fun _ _ _ h => h) _ st ?_
      rw [he]
      exact h

end

/-! ## Indexes -/

/-- The indexes are not far from where they began. -/
def Near (off : Int) (K : Nat) (a : Alloc) : Prop := a.initial = off ∧ a.current.natAbs ≤ K

theorem near_room {off : Int} {K B : Nat} {a : Alloc} (h : Near off K a) (hK : off.natAbs + B ≤ K) (hm : K + 1 < 2 ^ 63)
    (checks : Bool) (i : Option Index) (hi : ∀ x, i = some x → x.val.natAbs ≤ B) :
    a.nextBegin checks i ≠ none ∧ ∃ ix a', a.nextEnd checks i = some (ix, a') ∧ Near off (K + 1) a' := by
  obtain ⟨rfl, hc⟩ := h
  have hadd : ∀ x y : Int, isIsize (x + y) → addIsize checks x y = some (x + y) := fun x y h => by
    rw [addIsize_eq fun _ => h, wrap_eq h]
  have hto : ∀ x : Int, isIsize x → toIsize (offset x) = some x := fun x h => by
    rw [toIsize_eq, offset_eq h, if_pos h]
  have base : ∃ ix, a.nextBegin checks i = some ix ∧ ((toIsize ix).getD a.current).natAbs ≤ K := by
    cases i with
    | none =>
      refine ⟨_, rfl, ?_⟩
      rw [hto _ (by unfold isIsize; omega)]
      exact hc
    | some x =>
      have hx := hi x rfl
      have hr : isIsize x.val := by unfold isIsize; omega
      have hs : isIsize (x.val + a.initial) := by unfold isIsize; omega
      have hself : ((toIsize x).getD a.current).natAbs ≤ K := by
        rw [toIsize_eq, if_pos hr]
        show x.val.natAbs ≤ K
        omega
      unfold Alloc.nextBegin
      simp only
      rw [toIsize_eq, if_pos hr]
      cases ht : x.tag with
      | none => exact ⟨x, rfl, hself⟩
      | some t =>
        simp only
        split
        · refine ⟨offset (x.val + a.initial), by rw [hadd _ _ hs]; rfl, ?_⟩
          rw [hto _ hs]
          show (x.val + a.initial).natAbs ≤ K
          omega
        · exact ⟨x, rfl, hself⟩
  obtain ⟨ix, h1, h2⟩ := base
  refine ⟨by rw [h1]; simp, ix, ⟨a.initial, (toIsize ix).getD a.current + 1⟩, ?_, rfl, ?_⟩
  · unfold Alloc.nextEnd
    rw [h1]
    simp only
    rw [hadd _ _ (by unfold isIsize; omega)]
  · show ((toIsize ix).getD a.current + 1).natAbs ≤ K + 1
    omega

/-- Without overflow checks there always is an index. -/
theorem unchecked_room {cfg : Cfg} (hc : cfg.checks = false) (i : Option Index) : Room cfg (fun _ _ _ => True) (fun _ _ _ => True) i := by
  intro a d e _
  have hadd : ∀ x y : Int, addIsize cfg.checks x y ≠ none := fun x y => by
    rw [hc, addIsize_eq (by simp)]
    simp
  have hb : a.nextBegin cfg.checks i ≠ none := by
    unfold Alloc.nextBegin
    split
    · split
      · split
        · simpa using hadd _ _
        · simp
      · simp
    · simp
  refine ⟨hb, ?_⟩
  unfold Alloc.nextEnd
  cases h : a.nextBegin cfg.checks i with
  | none => exact absurd h hb
  | some ix =>
    simp only
    cases h2 : addIsize cfg.checks ((toIsize ix).getD a.current) 1 with
    | none => exact absurd h2 (hadd _ _)
    | some c => exact ⟨ix, _, rfl, trivial⟩

theorem unchecked_call {σ : Type} {cfg : Cfg} (hc : cfg.checks = false) {S : Token → σ → Res Unit σ} (hS : Mild false S)
    (t : Token) (st : St σ) : call cfg S t st ≠ .panic := by
  have ha : false = true → cfg.alloc = true := fun h => by cases h
  have hno : ∀ a d e, (fun _ _ _ => True : Told) a d e → (cfg.checks = true → d ≠ 0) ∧ (fun _ _ _ => True : Told) a (d - 1) e :=
    fun _ _ _ _ => ⟨fun h => absurd h (by simp [hc]), trivial⟩
  have key : Leaves false (fun _ _ _ => True) (call cfg S t st) := by
    cases hs : steady t with
    | true => exact leaves_steady (Q := fun _ _ _ => True) hS ha (fun _ _ _ h => h) t hs (unchecked_room hc _) st trivial
    | false =>
      cases hb : begins t with
      | true => exact leaves_begins (Q := fun _ _ _ => True) hS ha (fun _ _ _ h => h) t hb st trivial
      | false =>
        cases he : ends t with
        | true => exact leaves_ends (Q := fun _ _ _ => True) hS ha hno (fun _ _ _ _ h => h) t he st trivial
        | false =>
          cases t with
          | enumBegin m => exact leaves_enumBegin (Q := fun _ _ _ => True) hS ha m (fun _ _ _ _ h => h) (fun _ _ h => h) st trivial
          | taggedBegin m =>
            exact leaves_taggedBegin (Q := fun _ _ _ => True) hS ha m (fun _ _ h => h) (fun _ _ h => h)
              (fun a d e h => (unchecked_room hc m.index a d e h).1) st trivial
          | taggedEnd m =>
            exact leaves_taggedEnd (Q := fun _ _ _ => True) (M := fun _ _ _ => True) hS ha m (fun _ _ h => h) (fun _ _ _ h => h)
              (fun a d h => hno a d true h) (fun _ _ _ h => h) (unchecked_room hc m.index) st trivial
          | _ => simp_all [steady, begins, ends]
  intro h
  rw [h] at key
  exact key

/-! ## Counting -/

/-- Counting along with the calls: whether an enum was begun, and how deep it is. `none` if something is ended at depth
zero. If not `exact` the depth is the least it can be after calls that may have failed. -/
def next (exact : Bool) (t : Token) (e : Bool) (d : Nat) : Option (Bool × Nat) :=
  match t with
  | .enumBegin _ => some (if exact then e || d == 0 else true, d)
  | .taggedBegin _ => some (e, if exact && e then d + 1 else d)
  | .taggedEnd _ => if e then (if d = 0 then none else some (e, d - 1)) else some (e, d)
  | _ =>
    if begins t then some (e, d + 1)
    else if ends t then (if d = 0 then none else some (e, d - 1))
    else some (e, d)

theorem next_steady (exact : Bool) {t : Token} (h : steady t = true) {e : Bool} {d : Nat} : next exact t e d = some (e, d) := by
  cases t <;> first | rfl | cases h

theorem next_begins (exact : Bool) {t : Token} (h : begins t = true) {e : Bool} {d : Nat} :
    next exact t e d = some (e, d + 1) := by
  cases t <;> first | rfl | cases h

theorem next_ends (exact : Bool) {t : Token} (h : ends t = true) {e : Bool} {d : Nat} :
    next exact t e d = if d = 0 then none else some (e, d - 1) := by
  cases t <;> first | rfl | cases h

/-- Some call ends what was not begun. -/
def dips (exact : Bool) : List Token → Bool → Nat → Bool
  | [], _, _ => false
  | t :: ts, e, d =>
    match next exact t e d with
    | none => true
    | some (e, d) => dips exact ts e d

/-- The flattener is as counted. -/
def Counted (exact : Bool) (off : Int) (K : Nat) (e : Bool) (d : Nat) : Told := fun a d' e' =>
  Near off K a ∧ (if exact then d' = d ∧ e' = e else (d : Int) ≤ d' ∧ (e' = true → e = true))

theorem Counted.more {exact : Bool} {off : Int} {K : Nat} {e : Bool} {d : Nat} {a : Alloc} {d' : Int} {e' : Bool}
    (h : Counted exact off K e d a d' e') : Counted exact off (K + 1) e d a d' e' :=
  ⟨⟨h.1.1, Nat.le_succ_of_le h.1.2⟩, h.2⟩

section
variable {σ : Type} {cfg : Cfg} {S : Token → σ → Res Unit σ} {exact : Bool} {off : Int} {K B : Nat}

theorem counted_room {e : Bool} {d : Nat} (hK : off.natAbs + B ≤ K) (hm : K + 1 < 2 ^ 63) (i : Option Index)
    (hi : ∀ x, i = some x → x.val.natAbs ≤ B) :
    Room cfg (Counted exact off K e d) (Counted exact off (K + 1) e d) i := by
  intro a d' e' h
  obtain ⟨h1, ix, a', h2, h3⟩ := near_room h.1 hK hm cfg.checks i hi
  exact ⟨h1, ix, a', h2, h3, h.2⟩

theorem counted_call (hS : Mild exact S) (ha : exact = true → cfg.alloc = true) (hK : off.natAbs + B ≤ K) (hm : K + 1 < 2 ^ 63)
    (t : Token) (hi : ∀ x, asked t = some x → x.val.natAbs ≤ B) {e e' : Bool} {d d' : Nat} (hn : next exact t e d = some (e', d'))
    (st : St σ) (hq : Counted exact off K e d st.ctl.alloc st.ctl.depth st.ctl.inEnum) :
    Leaves exact (Counted exact off (K + 1) e' d') (call cfg S t st) := by
  have hroom := counted_room (cfg := cfg) (exact := exact) (e := e) (d := d) hK hm (asked t) hi
  have down : d ≠ 0 → ∀ (a : Alloc) (x : Int) (y : Bool), Counted exact off (K + 1) e d a x y →
      (cfg.checks = true → x ≠ 0) ∧ Counted exact off (K + 1) e (d - 1) a (x - 1) y := by
    intro hd a x y h
    obtain ⟨h1, h2⟩ := h
    cases exact with
    | true =>
      obtain ⟨h2, h3⟩ := h2
      exact ⟨fun _ => by omega, h1, by omega, h3⟩
    | false =>
      obtain ⟨h2, h3⟩ := h2
      exact ⟨fun _ => by omega, h1, by omega, h3⟩
  have late : exact = false → ∀ (a : Alloc) (x : Int) (y : Bool), Counted exact off (K + 1) e d a x y →
      Counted exact off (K + 1) e (d - 1) a x y := by
    intro hs a x y h
    subst hs
    obtain ⟨h1, h2, h3⟩ := h
    exact ⟨h1, by omega, h3⟩
  cases hs : steady t with
  | true =>
    have : e' = e ∧ d' = d := by
      rw [next_steady exact hs] at hn
      cases hn
      exact ⟨rfl, rfl⟩
    rw [this.1, this.2]
    exact leaves_steady hS ha (fun _ _ _ h => h.more) t hs hroom st hq
  | false =>
    cases hb : begins t with
    | true =>
      have : e' = e ∧ d' = d + 1 := by
        rw [next_begins exact hb] at hn
        cases hn
        exact ⟨rfl, rfl⟩
      rw [this.1, this.2]
      refine leaves_begins hS ha (fun a x y h => ?_) t hb st hq
      obtain ⟨h1, h2⟩ := h.more
      refine ⟨h1, ?_⟩
      cases exact with
      | true => exact ⟨by have := h2.1; omega, h2.2⟩
      | false => exact ⟨by have := h2.1; omega, h2.2⟩
    | false =>
      cases he : ends t with
      | true =>
        have : d ≠ 0 ∧ e' = e ∧ d' = d - 1 := by
          rw [next_ends exact he] at hn
          split at hn
          · cases hn
          · cases hn
            exact ⟨‹_›, rfl, rfl⟩
        rw [this.2.1, this.2.2]
        exact leaves_ends hS ha (fun a x y h => down this.1 a x y h.more) (fun hs a x y h => late hs a x y h.more) t he st hq
      | false =>
        cases t with
        | enumBegin m =>
          simp only [next, Option.some.injEq, Prod.mk.injEq] at hn
          obtain ⟨rfl, rfl⟩ := hn
          refine leaves_enumBegin hS ha m (fun a x y hx h => ?_) (fun a y h => ?_) st hq
          · obtain ⟨h1, h2⟩ := h.more
            refine ⟨h1, ?_⟩
            cases exact with
            | true =>
              obtain ⟨h2, h3⟩ := h2
              refine ⟨h2, ?_⟩
              rw [h3]
              have : (d == 0) = false := by
                rw [beq_eq_false_iff_ne]
                omega
              simp [this]
            | false => exact ⟨h2.1, fun _ => rfl⟩
          · obtain ⟨h1, h2⟩ := h.more
            refine ⟨h1, ?_⟩
            cases exact with
            | true =>
              obtain ⟨h2, h3⟩ := h2
              refine ⟨h2, ?_⟩
              have : d = 0 := by omega
              simp [this]
            | false => exact ⟨h2.1, fun _ => rfl⟩
        | taggedBegin m =>
          simp only [next, Option.some.injEq, Prod.mk.injEq] at hn
          obtain ⟨rfl, rfl⟩ := hn
          refine leaves_taggedBegin hS ha m (fun a x h => ?_) (fun a x h => ?_) (fun a x y h => (hroom a x y h).1) st hq
          · obtain ⟨h1, h2⟩ := h.more
            refine ⟨h1, ?_⟩
            cases exact with
            | true =>
              obtain ⟨h2, h3⟩ := h2
              subst h3
              exact ⟨h2, rfl⟩
            | false => exact h2
          · obtain ⟨h1, h2⟩ := h.more
            refine ⟨h1, ?_⟩
            cases exact with
            | true =>
              obtain ⟨h2, h3⟩ := h2
              subst h3
              exact ⟨by simp; omega, rfl⟩
            | false => exact ⟨by simp; have := h2.1; omega, h2.2⟩
        | taggedEnd m =>
          have h0 : e' = e ∧ (e = false → d' = d) ∧ (e = true → d ≠ 0 ∧ d' = d - 1) := by
            simp only [next] at hn
            cases e with
            | false => simp_all
            | true =>
              simp only [if_true] at hn
              split at hn
              · cases hn
              · simp_all
          obtain ⟨rfl, hf, ht⟩ := h0
          refine leaves_taggedEnd (M := Counted exact off (K + 1) e' d) hS ha m (fun a x h => ?_) (fun a x y h => h.more)
            (fun a x h => ?_) (fun hs a x h => ?_) hroom st hq
          · obtain ⟨h1, h2⟩ := h.more
            refine ⟨h1, ?_⟩
            cases exact with
            | true =>
              obtain ⟨h2, h3⟩ := h2
              exact ⟨by rw [hf h3.symm]; exact h2, h3⟩
            | false =>
              obtain ⟨h2, h3⟩ := h2
              refine ⟨?_, h3⟩
              cases he : e' with
              | false => rw [hf he]; exact h2
              | true => rw [(ht he).2]; omega
          · have he : e' = true := by
              cases exact with
              | true => exact h.2.2.symm
              | false => exact h.2.2 rfl
            rw [(ht he).2]
            exact down (ht he).1 a x true h
          · have he : e' = true := by
              subst hs
              exact h.2.2 rfl
            rw [(ht he).2]
            exact late hs a x true h
        | _ => simp_all [steady, begins, ends]

/-- Ending something at depth zero, with overflow checks. -/
theorem counted_panic (hc : cfg.checks = true) (hS : Mild true S) (ha : cfg.alloc = true) (t : Token) {e : Bool} {d : Nat}
    (hn : next true t e d = none) (st : St σ) (hq : Counted true off K e d st.ctl.alloc st.ctl.depth st.ctl.inEnum) :
    call cfg S t st = .panic := by
  have h0 : d = 0 := by
    by_cases h : d = 0
    · exact h
    · cases t <;> simp [next, begins, ends, h] at hn
      split at hn <;> cases hn
  subst h0
  obtain ⟨-, hd, he⟩ := hq
  have key : ∀ (f g h : Act σ), Keeps true f → Keeps true h → flattenableEnd cfg f g h st = .panic := by
    intro f g h hf hh
    unfold flattenableEnd
    have : Leaves true (fun _ d _ => d = 0) (if st.ctl.inKey then f st else if st.ctl.depth = 1 then g st else h st) := by
      split
      · exact hf (fun _ d _ => d = 0) st hd
      · rw [if_neg (by rw [hd]; decide)]
        exact hh (fun _ d _ => d = 0) st hd
    revert this
    generalize (if st.ctl.inKey then f st else if st.ctl.depth = 1 then g st else h st) = r
    intro hr
    cases r with
    | ok st' =>
      show leave cfg st' = .panic
      unfold leave
      rw [if_pos ⟨hc, hr⟩]
    | err x st' => exact absurd hr.1 (by decide)
    | panic => rfl
  have hl := fun t => keeps_toLabel (cfg := cfg) hS (fun _ => ha) t
  have hs := fun t => keeps_toStream (cfg := cfg) (strict := true) hS t
  cases t with
  | mapEnd => exact key _ _ _ (hl _) (hs _)
  | seqEnd => exact key _ _ _ (hl _) (hs _)
  | recordEnd m => exact key _ _ _ (hl _) (hs _)
  | tupleEnd m => exact key _ _ _ (hl _) (hs _)
  | recordTupleEnd m => exact key _ _ _ (hl _) (hs _)
  | taggedEnd m =>
    have : e = true := by
      cases e with
      | true => rfl
      | false => simp [next] at hn
    simp only [call]
    rw [he, this, if_pos rfl]
    exact key _ _ _ (hl _) (hs _)
  | _ => simp [next, begins, ends] at hn

theorem stuck_fold {τ ε : Type} (c : Token → τ → Res ε τ) (ts : List Token) (st : τ) :
    (ts.foldl (fun s t => (guarded c t s).1) (st, true)).2 = true := by
  induction ts with
  | nil => rfl
  | cons t ts ih => exact ih

theorem guarded_fst {τ ε : Type} (c : Token → τ → Res ε τ) (t : Token) (st : τ) :
    (guarded c t (st, false)).1 = match c t st with
      | .ok s => (s, false)
      | .err _ s => (s, false)
      | .panic => (st, true) := by
  simp only [guarded]
  cases c t st <;> rfl

/-- A panic takes an end too many, whatever the stream answers. -/
theorem counted_fold (hS : Mild exact S) (ha : exact = true → cfg.alloc = true) (ts : List Token)
    (hB : ∀ t ∈ ts, ∀ x, asked t = some x → x.val.natAbs ≤ B) {e : Bool} {d K : Nat} (hK : off.natAbs + B ≤ K)
    (hm : K + ts.length < 2 ^ 63) (st : St σ) (hq : Counted exact off K e d st.ctl.alloc st.ctl.depth st.ctl.inEnum)
    (hp : (ts.foldl (fun s t => (guarded (call cfg S) t s).1) (st, false)).2 = true) : dips exact ts e d = true := by
  induction ts generalizing e d K st with
  | nil => cases hp
  | cons t ts ih =>
    rw [dips]
    cases hn : next exact t e d with
    | none => rfl
    | some x =>
      obtain ⟨e', d'⟩ := x
      rw [List.length_cons] at hm
      have hc := counted_call hS ha hK (by omega) t (hB t (by simp)) hn st hq
      rw [List.foldl_cons] at hp
      have hg := guarded_fst (call cfg S) t st
      revert hc hg
      cases call cfg S t st with
      | ok st' =>
        intro hc hg
        rw [hg] at hp
        exact ih (fun t h => hB t (by simp [h])) (K := K + 1) (by omega) (by omega) st' hc hp
      | err x st' =>
        intro hc hg
        rw [hg] at hp
        exact ih (fun t h => hB t (by simp [h])) (K := K + 1) (by omega) (by omega) st' hc.2 hp
      | panic => exact fun hc => hc.elim

/-- And an end too many is a panic, if nothing failed before. -/
theorem counted_dips (hc : cfg.checks = true) (hS : Mild true S) (ha : cfg.alloc = true) (ts : List Token)
    (hB : ∀ t ∈ ts, ∀ x, asked t = some x → x.val.natAbs ≤ B) {e : Bool} {d K : Nat} (hK : off.natAbs + B ≤ K)
    (hm : K + ts.length < 2 ^ 63) (st : St σ) (hq : Counted true off K e d st.ctl.alloc st.ctl.depth st.ctl.inEnum)
    (hd : dips true ts e d = true) : (ts.foldl (fun s t => (guarded (call cfg S) t s).1) (st, false)).2 = true := by
  induction ts generalizing e d K st with
  | nil => cases hd
  | cons t ts ih =>
    rw [dips] at hd
    rw [List.foldl_cons]
    cases hn : next true t e d with
    | none =>
      have hg := guarded_fst (call cfg S) t st
      rw [counted_panic hc hS ha t hn st hq] at hg
      rw [hg]
      exact stuck_fold _ ts st
    | some x =>
      obtain ⟨e', d'⟩ := x
      rw [hn] at hd
      rw [List.length_cons] at hm
      have hl := counted_call hS (fun _ => ha) hK (by omega) t (hB t (by simp)) hn st hq
      have hg := guarded_fst (call cfg S) t st
      revert hl hg
      cases call cfg S t st with
      | ok st' =>
        intro hl hg
        rw [hg]
        exact ih (fun t h => hB t (by simp [h])) (K := K + 1) (by omega) (by omega) st' hl hd
      | err x st' => exact fun hl => absurd hl.1 (by decide)
      | panic => exact fun hl => hl.elim

end

end Sval.Flatten
