import Verif.Reader.Lemmas
import Verif.Reader.Spec

set_option autoImplicit false

/-!
# The brackets of any text
-/

namespace Sval.Reader

open Act

/-- The brackets among calls, in order. -/
def brackets (c : List Token) : List Op := c.filterMap bracket

/-- How many brackets a text opens at most. -/
def opens (t : Text) : Nat := (t.filter fun c => c == '[' || c == '{').length

theorem opens_cons (c : Char) (t : Text) : opens t ≤ opens (c :: t) := by
  unfold opens
  rw [List.filter_cons]
  split <;> simp

theorem opens_suffix {a b : Text} (h : a <:+ b) : opens a ≤ opens b := (h.filter _).length_le

theorem reals_append (a b : List Op) (st : List Kind) : reals (a ++ b) st = (reals a st).bind (reals b) := by
  induction a generalizing st with
  | nil => rfl
  | cons o a ih =>
    simp only [List.cons_append, reals]
    cases o.real st with
    | none => rfl
    | some st' => exact ih st'

section
variable (checks : Bool)

/-- The build has overflow checks, or there is no need for them. -/
def Fits (st : List Kind) (t : Text) : Prop := checks = true ∨ st.length + opens t ≤ 91

variable {checks} {α β : Type}

/-- With the brackets `st` open, the brackets that code opens and closes are legal, and if it ends well `Q` holds with
the brackets that are open then. -/
def Legal (st : List Kind) (x : Act α) (Q : List Kind → α → Prop) : Prop :=
  ∃ st', reals (brackets x.calls) st = some st' ∧ ∀ a, x.res = .ok a → Q st' a

theorem Legal.panic (st : List Kind) (Q : List Kind → α → Prop) : Legal st .panic Q := ⟨st, rfl, by intro _ h; cases h⟩
theorem Legal.fail (st : List Kind) (Q : List Kind → α → Prop) : Legal st .fail Q := ⟨st, rfl, by intro _ h; cases h⟩
theorem Legal.pure {st : List Kind} {Q : List Kind → α → Prop} {a : α} (h : Q st a) : Legal st (.pure a) Q :=
  ⟨st, rfl, by intro _ e; injection e with e; exact e ▸ h⟩
theorem Legal.call {st : List Kind} {Q : List Kind → Unit → Prop} {t : Token} (ht : bracket t = none) (h : Q st ()) :
    Legal st (.call t) Q := ⟨st, by simp [brackets, Act.call, ht, reals], fun _ _ => h⟩
theorem Legal.bracket {st st' : List Kind} {Q : List Kind → Unit → Prop} {t : Token} {o : Op} (ht : bracket t = some o)
    (ho : o.real st = some st') (h : Q st' ()) : Legal st (.call t) Q :=
  ⟨st', by simp [brackets, Act.call, ht, reals, ho], fun _ _ => h⟩

theorem Legal.bind {st : List Kind} {x : Act α} {f : α → Act β} {Q : List Kind → α → Prop} {R : List Kind → β → Prop}
    (hx : Legal st x Q) (hf : ∀ st' a, Q st' a → Legal st' (f a) R) : Legal st (x >>= f) R := by
  obtain ⟨st', h1, h2⟩ := hx
  obtain ⟨c, r⟩ := x
  cases r with
  | ok a =>
    obtain ⟨st'', h3, h4⟩ := hf st' a (h2 a rfl)
    refine ⟨st'', ?_, h4⟩
    show reals (brackets (c ++ (f a).calls)) st = _
    rw [brackets, List.filterMap_append, reals_append]
    have : reals (List.filterMap Reader.bracket c) st = some st' := h1
    rw [this]; exact h3
  | err => exact ⟨st', h1, by intro _ h; cases h⟩
  | panic => exact ⟨st', h1, by intro _ h; cases h⟩

theorem Legal.mono {st : List Kind} {x : Act α} {Q R : List Kind → α → Prop} (h : Legal st x Q)
    (hq : ∀ st a, Q st a → R st a) : Legal st x R := by
  obtain ⟨st', h1, h2⟩ := h
  exact ⟨st', h1, fun a ha => hq _ _ (h2 a ha)⟩

/-- An operation on counters that stand for a stack. -/
theorem Legal.op {st : List Kind} {Q : List Kind → Stack → Prop} (o : Op) (hc : checks = true ∨ st.length ≤ 91)
    (h : ∀ st', o.real st = some st' → Q st (enc st')) : Legal st (ofRes (o.count checks (enc st))) Q := by
  cases hr : o.count checks (enc st) with
  | ok s' =>
    obtain ⟨st', h1, rfl⟩ := count_enc checks o st s' hc hr
    exact Legal.pure (h st' h1)
  | err _ _ => exact Legal.fail st _
  | panic => exact Legal.panic st _

/-! ## The parts of a round -/

/-- The counters are those of the open brackets, and what is left fits. -/
def Good (checks : Bool) (st : List Kind) (s : St) : Prop := s.stack = enc st ∧ Fits checks st s.rest

/-- A round went well, and everything is closed if it was the last. -/
def GoodB (checks : Bool) (st : List Kind) (p : Bool × St) : Prop := Good checks st p.2 ∧ (p.1 = false → st = [])

theorem Fits.depth {st : List Kind} {t : Text} (h : Fits checks st t) : checks = true ∨ st.length ≤ 91 :=
  h.imp id fun h => by omega

theorem Fits.suffix {st : List Kind} {a b : Text} (h : Fits checks st b) (hs : a <:+ b) : Fits checks st a :=
  h.imp id fun h => by have := opens_suffix hs; omega

theorem Fits.open {st : List Kind} {c : Char} {t : Text} (h : Fits checks st (c :: t)) (hc : c = '[' ∨ c = '{') (k : Kind) :
    Fits checks (k :: st) t :=
  h.imp id fun h => by
    rcases hc with rfl | rfl <;> simp only [opens, List.filter_cons, List.length_cons] at h ⊢ <;> simp at h <;> omega

theorem legal_maybeDone {st : List Kind} {s : St} (h : Good checks st s) : Legal st (maybeDone s) (GoodB checks) := by
  unfold maybeDone
  split
  · exact Legal.pure ⟨h, by simp⟩
  · split
    · rename_i hf
      refine Legal.pure ⟨h, fun _ => ?_⟩
      rw [h.1, enc_finish] at hf
      simpa using hf
    · exact Legal.fail _ _

theorem legal_strBegin {st : List Kind} {s : St} (h : Good checks st s) :
    Legal st (strBegin s) fun st s' => Good checks st s' ∧ s'.rest = s.rest := by
  unfold strBegin
  split
  all_goals first
    | exact Legal.pure ⟨h, rfl⟩
    | exact Legal.bind (Q := fun st' _ => st' = st) (Legal.call rfl rfl) (by rintro _ _ rfl; exact Legal.pure ⟨h, rfl⟩)

theorem legal_valueBegin {st : List Kind} {s : St} (h : Good checks st s) : Legal st (valueBegin s) (Good checks) := by
  unfold valueBegin
  split
  all_goals first
    | exact Legal.pure h
    | exact Legal.panic _ _
    | exact Legal.bind (Q := fun st' _ => st' = st) (Legal.call rfl rfl) (by rintro _ _ rfl; exact Legal.pure h)

theorem legal_valueEnd {st : List Kind} {s : St} (h : Good checks st s) : Legal st (valueEnd s) (Good checks) := by
  unfold valueEnd
  split
  all_goals first
    | exact Legal.pure h
    | exact Legal.panic _ _
    | exact Legal.bind (Q := fun st' _ => st' = st) (Legal.call rfl rfl) (by rintro _ _ rfl; exact Legal.pure h)

theorem legal_mapKeyEnd {st : List Kind} {s : St} (h : Good checks st s) : Legal st (mapKeyEnd s) (Good checks) := by
  unfold mapKeyEnd
  split
  all_goals first
    | exact Legal.panic _ _
    | exact Legal.bind (Q := fun st' _ => st' = st) (Legal.call rfl rfl) (by rintro _ _ rfl; exact Legal.pure h)

theorem legal_nestedBegin {st : List Kind} {s : St} : Legal st (nestedBegin s) fun st' _ => st' = st := by
  unfold nestedBegin
  split
  all_goals first
    | exact Legal.panic _ _
    | exact Legal.pure rfl
    | exact Legal.call rfl rfl

theorem legal_mapBegin {st : List Kind} {s : St} (h : s.stack = enc st) (hf : Fits checks (.map :: st) s.rest) :
    Legal st (mapBegin checks s) (Good checks) := by
  refine Legal.bind legal_nestedBegin ?_
  rintro st' _ hst
  subst hst
  refine Legal.bind (Q := fun st k => st = st' ∧ k = enc (.map :: st')) ?_ ?_
  · rw [h]
    exact Legal.op (.push .map) (hf.depth.imp id fun h => by simp at h; omega)
      (by intro _ e; injection e with e; exact ⟨rfl, by rw [e]⟩)
  · rintro _ _ ⟨rfl, rfl⟩
    exact Legal.bind (Q := fun st _ => st = .map :: _) (Legal.bracket rfl rfl rfl)
      (by rintro _ _ rfl; exact Legal.pure ⟨rfl, hf⟩)

theorem legal_seqBegin {st : List Kind} {s : St} (h : s.stack = enc st) (hf : Fits checks (.seq :: st) s.rest) :
    Legal st (seqBegin checks s) (Good checks) := by
  refine Legal.bind legal_nestedBegin ?_
  rintro st' _ hst
  subst hst
  refine Legal.bind (Q := fun st k => st = st' ∧ k = enc (.seq :: st')) ?_ ?_
  · rw [h]
    exact Legal.op (.push .seq) (hf.depth.imp id fun h => by simp at h; omega)
      (by intro _ e; injection e with e; exact ⟨rfl, by rw [e]⟩)
  · rintro _ _ ⟨rfl, rfl⟩
    exact Legal.bind (Q := fun st _ => st = .seq :: _) (Legal.bracket rfl rfl rfl)
      (by rintro _ _ rfl; exact Legal.pure ⟨rfl, hf⟩)

theorem legal_lastEntry {st : List Kind} {s : St} : Legal st (lastEntry s) fun st' _ => st' = st := by
  unfold lastEntry
  split
  all_goals first
    | exact Legal.panic _ _
    | exact Legal.pure rfl
    | exact Legal.call rfl rfl

theorem legal_lastElem {st : List Kind} {s : St} : Legal st (lastElem s) fun st' _ => st' = st := by
  unfold lastElem
  split
  all_goals first
    | exact Legal.panic _ _
    | exact Legal.pure rfl
    | exact Legal.call rfl rfl

theorem pop_shorter {k : Kind} {st st' : List Kind} (h : (Op.pop k).real st = some st') : st = k :: st' := by
  cases st with
  | nil => cases h
  | cons j st =>
    simp only [Op.real] at h
    split at h
    · injection h with h; rename_i e; rw [e, h]
    · cases h

theorem legal_mapEnd {st : List Kind} {s : St} (h : Good checks st s) : Legal st (mapEnd checks s) (Good checks) := by
  refine Legal.bind legal_lastEntry ?_
  rintro _ _ rfl
  refine Legal.bind (Q := fun st' k => ∃ st'', st' = .map :: st'' ∧ k = enc st'' ∧ Fits checks st'' s.rest) ?_ ?_
  · rw [h.1]
    refine Legal.op (.pop .map) h.2.depth ?_
    intro st' e
    have := pop_shorter e
    subst this
    exact ⟨st', rfl, rfl, h.2.imp id fun h => by simp at h; omega⟩
  · rintro _ _ ⟨st'', rfl, rfl, hf⟩
    exact Legal.bind (Q := fun st' _ => st' = st'') (Legal.bracket (o := .pop .map) (st' := st'') rfl (by simp [Op.real]) rfl)
      (by rintro _ _ rfl; exact Legal.pure ⟨rfl, hf⟩)

theorem legal_seqEnd {st : List Kind} {s : St} (h : Good checks st s) : Legal st (seqEnd checks s) (Good checks) := by
  refine Legal.bind legal_lastElem ?_
  rintro _ _ rfl
  refine Legal.bind (Q := fun st' k => ∃ st'', st' = .seq :: st'' ∧ k = enc st'' ∧ Fits checks st'' s.rest) ?_ ?_
  · rw [h.1]
    refine Legal.op (.pop .seq) h.2.depth ?_
    intro st' e
    have := pop_shorter e
    subst this
    exact ⟨st', rfl, rfl, h.2.imp id fun h => by simp at h; omega⟩
  · rintro _ _ ⟨st'', rfl, rfl, hf⟩
    exact Legal.bind (Q := fun st' _ => st' = st'') (Legal.bracket (o := .pop .seq) (st' := st'') rfl (by simp [Op.real]) rfl)
      (by rintro _ _ rfl; exact Legal.pure ⟨rfl, hf⟩)

theorem legal_strFragment {st : List Kind} (src : Text) :
    Legal st (strFragment src) fun st' x => st' = st ∧ x.2.2 <:+ src := by
  unfold strFragment
  split
  · exact Legal.panic _ _
  · split
    all_goals first
      | exact Legal.panic _ _
      | exact Legal.pure ⟨rfl, (List.suffix_cons _ _).trans (List.suffix_cons _ _)⟩
  · simp only
    split
    · rename_i e; exact Legal.pure ⟨rfl, by rw [← e]; exact List.dropWhile_suffix _⟩
    · rename_i e
      refine Legal.pure ⟨rfl, ?_⟩
      exact (List.suffix_cons _ _).trans (by rw [← e]; exact List.dropWhile_suffix _)
    · exact Legal.pure ⟨rfl, List.nil_suffix⟩

theorem legal_beginStr {st : List Kind} {s : St} (h : Good checks st s) : Legal st (beginStr s) (GoodB checks) := by
  refine Legal.bind (legal_strBegin h) ?_
  rintro st s' ⟨h', _⟩
  refine Legal.bind (legal_strFragment _) ?_
  rintro _ ⟨f, more, r⟩ ⟨rfl, hr⟩
  have hg : Good checks _ { s' with rest := r } := ⟨h'.1, h'.2.suffix hr⟩
  refine Legal.bind (Q := fun st' _ => st' = _) (Legal.call rfl rfl) ?_
  rintro _ _ rfl
  refine Legal.bind (Q := fun st' _ => st' = _) (Legal.call rfl rfl) ?_
  rintro _ _ rfl
  split
  · refine Legal.bind (Q := fun st' _ => st' = _) (Legal.call rfl rfl) ?_
    rintro _ _ rfl
    exact legal_maybeDone hg
  · exact Legal.pure ⟨hg, by simp⟩

theorem legal_resumeStr {st : List Kind} {s : St} (h : Good checks st s) : Legal st (resumeStr s) (GoodB checks) := by
  refine Legal.bind (legal_strFragment _) ?_
  rintro _ ⟨f, more, r⟩ ⟨rfl, hr⟩
  refine Legal.bind (Q := fun st' _ => st' = _) (Legal.call rfl rfl) ?_
  rintro _ _ rfl
  split
  · refine Legal.bind (Q := fun st' _ => st' = _) (Legal.call rfl rfl) ?_
    rintro _ _ rfl
    exact legal_maybeDone ⟨h.1, h.2.suffix hr⟩
  · exact Legal.pure ⟨⟨h.1, h.2.suffix hr⟩, by simp⟩

theorem legal_word {st : List Kind} {s : St} (h : Good checks st s) (w : Text) (t : Token) (ht : bracket t = none) :
    Legal st (word w t s) (GoodB checks) := by
  unfold word
  split
  · refine Legal.bind (legal_valueBegin (checks := checks) ⟨h.1, h.2.suffix (List.drop_suffix _ _)⟩) ?_
    intro st s' h'
    refine Legal.bind (Q := fun st' _ => st' = st) (Legal.call ht rfl) ?_
    rintro _ _ rfl
    exact legal_maybeDone h'
  · exact Legal.panic _ _

theorem legal_number {st : List Kind} {s : St} (h : Good checks st s) : Legal st (number s) (GoodB checks) := by
  refine Legal.bind (legal_valueBegin (checks := checks) ⟨h.1, h.2.suffix (List.dropWhile_suffix _)⟩) ?_
  intro st s' h'
  refine Legal.bind (Q := fun st' _ => st' = _) (Legal.call rfl rfl) ?_
  rintro _ _ rfl
  refine Legal.bind (Q := fun st' _ => st' = _) (Legal.call rfl rfl) ?_
  rintro _ _ rfl
  refine Legal.bind (Q := fun st' _ => st' = _) (Legal.call rfl rfl) ?_
  rintro _ _ rfl
  refine Legal.bind (Q := fun st' _ => st' = _) (Legal.call rfl rfl) ?_
  rintro _ _ rfl
  refine Legal.bind (Q := fun st' _ => st' = _) (Legal.call rfl rfl) ?_
  rintro _ _ rfl
  refine Legal.bind (Q := fun st' _ => st' = _) (Legal.call rfl rfl) ?_
  rintro _ _ rfl
  refine Legal.bind (Q := fun st' _ => st' = _) (Legal.call rfl rfl) ?_
  rintro _ _ rfl
  exact legal_maybeDone h'

theorem legal_goOn {st : List Kind} {x : Act St} (h : Legal st x (Good checks)) : Legal st (goOn x) (GoodB checks) :=
  Legal.bind h fun _ _ h => Legal.pure ⟨h, by simp⟩

theorem legal_scan {st : List Kind} {s : St} (t : Text) (h : s.stack = enc st) (hf : Fits checks st t) :
    Legal st (scan checks s t) (GoodB checks) := by
  induction t with
  | nil => exact legal_maybeDone ⟨h, hf⟩
  | cons c r ih =>
    have ih := ih (hf.suffix (List.suffix_cons _ _))
    have here : Good checks st { s with rest := c :: r } := ⟨h, hf⟩
    have after : Good checks st { s with rest := r } := ⟨h, hf.suffix (List.suffix_cons _ _)⟩
    unfold scan
    simp only
    split
    · exact legal_beginStr after
    · exact legal_goOn (legal_mapBegin h (hf.open (.inr rfl) _))
    · exact Legal.bind (legal_mapEnd after) fun _ _ h => legal_maybeDone h
    · exact legal_goOn (legal_seqBegin h (hf.open (.inl rfl) _))
    · exact Legal.bind (legal_seqEnd after) fun _ _ h => legal_maybeDone h
    · exact legal_goOn (legal_mapKeyEnd after)
    · exact legal_goOn (legal_valueEnd after)
    · exact legal_word here _ _ rfl
    · exact legal_word here _ _ rfl
    · exact legal_word here _ _ rfl
    · exact ih
    · exact ih
    · exact ih
    · exact ih
    · exact legal_number here
    · split
      · exact legal_number here
      · exact Legal.panic _ _

theorem legal_resume {st : List Kind} {s : St} (h : Good checks st s) : Legal st (resume checks s) (GoodB checks) := by
  unfold resume
  split
  · exact legal_resumeStr h
  · exact legal_scan _ h.1 h.2

theorem legal_readFrom (n : Nat) {st : List Kind} {s : St} (hn : s.rest.length < n) (h : Good checks st s) :
    Legal st (readFrom checks s) fun st _ => st = [] := by
  induction n generalizing st s with
  | zero => omega
  | succ n ih =>
    rw [readFrom_eq]
    obtain ⟨st', h1, h2⟩ := legal_resume h
    have hb : Legal st (resume checks s) fun st' p => GoodB checks st' p ∧ (p.1 = true → p.2.rest.length < s.rest.length) :=
      ⟨st', h1, fun a ha => ⟨h2 a ha, fun hp => by
        obtain ⟨b, s'⟩ := a
        simp only at hp
        subst hp
        exact resume_rest checks ha⟩⟩
    refine Legal.bind hb ?_
    rintro st' ⟨b, s'⟩ ⟨hg, hl⟩
    cases b with
    | true => exact ih (by have h1 : s'.rest.length < s.rest.length := hl rfl; show s'.rest.length < n; omega) hg.1
    | false => exact Legal.pure (hg.2 rfl)

theorem legal_read (t : Text) (h : checks = true ∨ opens t ≤ 91) : Legal [] (read checks t) fun st _ => st = [] :=
  legal_readFrom _ (Nat.lt_succ_self _) ⟨rfl, h.imp id fun h => by show 0 + opens t ≤ 91; omega⟩

end

end Sval.Reader
