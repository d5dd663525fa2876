import Verif.Reader.Model

set_option autoImplicit false

/-!
# Rounds of the reader
-/

namespace Sval.Reader

namespace Act
variable {α β γ : Type}

/-- Calls made before. -/
def pre (c : List Token) (x : Act α) : Act α := ⟨c ++ x.calls, x.res⟩

@[simp] theorem bind_def (x : Act α) (f : α → Act β) : (x >>= f) = x.bind f := rfl
@[simp] theorem pure_def (a : α) : (Pure.pure a : Act α) = Act.pure a := rfl
@[simp] theorem pure_bind (a : α) (f : α → Act β) : (Act.pure a).bind f = f a := rfl
@[simp] theorem call_bind (t : Token) (f : Unit → Act β) : (Act.call t).bind f = (f ()).pre [t] := rfl
@[simp] theorem fail_bind (f : α → Act β) : (Act.fail : Act α).bind f = .fail := rfl
@[simp] theorem panic_bind (f : α → Act β) : (Act.panic : Act α).bind f = .panic := rfl

@[simp] theorem pre_bind (c : List Token) (x : Act α) (f : α → Act β) : (x.pre c).bind f = (x.bind f).pre c := by
  simp only [bind, pre]
  split <;> simp

@[simp] theorem pre_pre (c d : List Token) (x : Act α) : (x.pre d).pre c = x.pre (c ++ d) := by
  simp [pre]

@[simp] theorem pre_nil (x : Act α) : x.pre [] = x := rfl

theorem bind_assoc (x : Act α) (f : α → Act β) (g : β → Act γ) : (x.bind f).bind g = x.bind fun a => (f a).bind g := by
  obtain ⟨c, r⟩ := x
  cases r with
  | ok a =>
    simp only [bind]
    split <;> simp
  | err => rfl
  | panic => rfl

@[simp] theorem pre_res (c : List Token) (x : Act α) : (x.pre c).res = x.res := rfl
@[simp] theorem pre_calls (c : List Token) (x : Act α) : (x.pre c).calls = c ++ x.calls := rfl

/-- What the result of a `bind` comes from. -/
theorem bind_ok {x : Act α} {f : α → Act β} {b : β} (h : (x.bind f).res = .ok b) :
    ∃ a, x.res = .ok a ∧ (f a).res = .ok b := by
  obtain ⟨c, r⟩ := x
  cases r with
  | ok a => exact ⟨a, rfl, h⟩
  | err => cases h
  | panic => cases h

end Act

open Act

section
variable (checks : Bool)

/-! ## Every round gets on -/

theorem strBegin_rest {s s' : St} (h : (strBegin s).res = .ok s') : s'.rest = s.rest := by
  unfold strBegin at h
  split at h <;> (injection h with h; rw [← h])

theorem valueBegin_rest {s s' : St} (h : (valueBegin s).res = .ok s') : s'.rest = s.rest := by
  unfold valueBegin at h
  split at h <;> first | (injection h with h; rw [← h]) | cases h

theorem valueEnd_rest {s s' : St} (h : (valueEnd s).res = .ok s') : s'.rest = s.rest := by
  unfold valueEnd at h
  split at h <;> first | (injection h with h; rw [← h]) | cases h

theorem mapKeyEnd_rest {s s' : St} (h : (mapKeyEnd s).res = .ok s') : s'.rest = s.rest := by
  unfold mapKeyEnd at h
  split at h <;> first | (injection h with h; rw [← h]) | cases h

theorem mapBegin_rest {s s' : St} (h : (mapBegin checks s).res = .ok s') : s'.rest = s.rest := by
  obtain ⟨_, _, h⟩ := bind_ok h
  obtain ⟨_, _, h⟩ := bind_ok h
  obtain ⟨_, _, h⟩ := bind_ok h
  injection h with h; rw [← h]

theorem seqBegin_rest {s s' : St} (h : (seqBegin checks s).res = .ok s') : s'.rest = s.rest := by
  obtain ⟨_, _, h⟩ := bind_ok h
  obtain ⟨_, _, h⟩ := bind_ok h
  obtain ⟨_, _, h⟩ := bind_ok h
  injection h with h; rw [← h]

theorem mapEnd_rest {s s' : St} (h : (mapEnd checks s).res = .ok s') : s'.rest = s.rest := by
  unfold mapEnd at h
  obtain ⟨_, _, h⟩ := bind_ok h
  obtain ⟨_, _, h⟩ := bind_ok h
  obtain ⟨_, _, h⟩ := bind_ok h
  injection h with h; rw [← h]

theorem seqEnd_rest {s s' : St} (h : (seqEnd checks s).res = .ok s') : s'.rest = s.rest := by
  unfold seqEnd at h
  obtain ⟨_, _, h⟩ := bind_ok h
  obtain ⟨_, _, h⟩ := bind_ok h
  obtain ⟨_, _, h⟩ := bind_ok h
  injection h with h; rw [← h]

theorem maybeDone_rest {s s' : St} {b : Bool} (h : (maybeDone s).res = .ok (b, s')) : s'.rest = s.rest := by
  unfold maybeDone at h
  split at h
  · injection h with h; injection h with _ h; rw [← h]
  · split at h
    · injection h with h; injection h with _ h; rw [← h]
    · cases h

theorem strFragment_rest {src f r : Text} {b : Bool} (h : (strFragment src).res = .ok (f, b, r)) :
    r.length < src.length := by
  unfold strFragment at h
  split at h
  · cases h
  · split at h <;> first | (injection h with h; injection h with _ h; injection h with _ h; subst h; simp only [List.length_cons]; omega) | cases h
  · rename_i h1 h2
    have hl : (src.takeWhile isPlain).length + (src.dropWhile isPlain).length = src.length := by
      rw [← List.length_append, List.takeWhile_append_dropWhile]
    simp only at h
    split at h
    · rename_i r' e
      injection h with h; injection h with _ h; injection h with _ h; subst h
      cases src with
      | nil => exact absurd rfl h1
      | cons c src =>
        by_cases hc : isPlain c = true
        · rw [List.takeWhile_cons, if_pos hc, e, List.length_cons] at hl; omega
        · rw [List.dropWhile_cons, if_neg hc] at e
          injection e with e _
          exact (h2 src (by rw [e])).elim
    · rename_i e
      injection h with h; injection h with _ h; injection h with _ h; subst h
      rw [e, List.length_cons] at hl; omega
    · rename_i e
      injection h with h; injection h with _ h; injection h with _ h; subst h
      cases src with
      | nil => exact absurd rfl h1
      | cons c src => simp

theorem beginStr_rest {s s' : St} {b : Bool} (h : (beginStr s).res = .ok (b, s')) : s'.rest.length < s.rest.length := by
  obtain ⟨s1, h1, h⟩ := bind_ok h
  obtain ⟨⟨f, more, r⟩, h2, h⟩ := bind_ok h
  have := strFragment_rest h2
  rw [strBegin_rest h1] at this
  simp only [bind_def, call_bind, pre_res] at h
  split at h
  · simp only [pre_res] at h
    rw [maybeDone_rest h]; exact this
  · injection h with h; injection h with _ h; rw [← h]; exact this

theorem resumeStr_rest {s s' : St} {b : Bool} (h : (resumeStr s).res = .ok (b, s')) : s'.rest.length < s.rest.length := by
  obtain ⟨⟨f, more, r⟩, h2, h⟩ := bind_ok h
  have := strFragment_rest h2
  simp only [bind_def, call_bind, pre_res] at h
  split at h
  · simp only [pre_res] at h
    rw [maybeDone_rest h]; exact this
  · injection h with h; injection h with _ h; rw [← h]; exact this

theorem word_rest {w : Text} {t : Token} {s s' : St} {b : Bool} (hw : w ≠ []) (h : (word w t s).res = .ok (b, s')) :
    s'.rest.length < s.rest.length := by
  unfold word at h
  split at h
  · rename_i hp
    obtain ⟨s1, h1, h⟩ := bind_ok h
    simp only [bind_def, call_bind, pre_res] at h
    rw [maybeDone_rest h, valueBegin_rest h1]
    obtain ⟨x, hx⟩ := List.isPrefixOf_iff_prefix.1 hp
    have : 0 < w.length := List.length_pos_iff.2 hw
    simp [← hx]; omega
  · cases h

theorem number_rest {s s' : St} {b : Bool} {c : Char} {r : Text} (hs : s.rest = c :: r) (hc : isNumberChar c = true)
    (h : (number s).res = .ok (b, s')) : s'.rest.length < s.rest.length := by
  obtain ⟨s1, h1, h⟩ := bind_ok h
  simp only [bind_def, call_bind, pre_res] at h
  rw [maybeDone_rest h, valueBegin_rest h1]
  simp only [hs, List.dropWhile_cons, hc, if_true]
  have hl : (r.takeWhile isNumberChar).length + (r.dropWhile isNumberChar).length = r.length := by
    rw [← List.length_append, List.takeWhile_append_dropWhile]
  simp; omega

theorem goOn_rest {x : Act St} {s' : St} {b : Bool} (h : (goOn x).res = .ok (b, s')) : b = true ∧ x.res = .ok s' := by
  obtain ⟨s1, h1, h⟩ := bind_ok h
  injection h with h; injection h with ha hb
  exact ⟨ha.symm, hb ▸ h1⟩

theorem scan_rest (s s' : St) (src : Text) (h : (scan checks s src).res = .ok (true, s')) : s'.rest.length < src.length := by
  induction src with
  | nil =>
    unfold scan maybeDone at h
    simp only [ne_eq, not_true_eq_false, if_false] at h
    split at h
    · injection h with h; injection h with h _; cases h
    · cases h
  | cons c r ih =>
    unfold scan at h
    simp only at h
    split at h
    · exact Nat.lt_succ_of_lt (beginStr_rest h)
    · rw [mapBegin_rest checks (goOn_rest h).2]; simp
    · obtain ⟨s1, h1, h⟩ := bind_ok h
      rw [maybeDone_rest h, mapEnd_rest checks h1]; simp
    · rw [seqBegin_rest checks (goOn_rest h).2]; simp
    · obtain ⟨s1, h1, h⟩ := bind_ok h
      rw [maybeDone_rest h, seqEnd_rest checks h1]; simp
    · rw [mapKeyEnd_rest (goOn_rest h).2]; simp
    · rw [valueEnd_rest (goOn_rest h).2]; simp
    · exact word_rest (by simp) h
    · exact word_rest (by simp) h
    · exact word_rest (by simp) h
    · exact Nat.lt_succ_of_lt (ih h)
    · exact Nat.lt_succ_of_lt (ih h)
    · exact Nat.lt_succ_of_lt (ih h)
    · exact Nat.lt_succ_of_lt (ih h)
    · exact number_rest rfl rfl h
    · split at h
      · rename_i hd
        exact number_rest rfl (by simp only [isNumberChar, hd, Bool.true_or]) h
      · cases h

theorem resume_rest {s s' : St} (h : (resume checks s).res = .ok (true, s')) : s'.rest.length < s.rest.length := by
  unfold resume at h
  split at h
  · exact resumeStr_rest h
  · exact scan_rest checks _ _ _ h

/-! ## All rounds -/

/-- Enough rounds for what is left. -/
theorem loop_ends (s : St) (n : Nat) (h : s.rest.length < n) :
    ∃ x, loop checks n s = some x ∧ ∀ m, s.rest.length < m → loop checks m s = some x := by
  induction n generalizing s with
  | zero => omega
  | succ n ih =>
    cases hr : (resume checks s).res with
    | err =>
      refine ⟨⟨(resume checks s).calls, .err⟩, by simp only [loop, hr], fun m hm => ?_⟩
      cases m with
      | zero => omega
      | succ m => simp only [loop, hr]
    | panic =>
      refine ⟨⟨(resume checks s).calls, .panic⟩, by simp only [loop, hr], fun m hm => ?_⟩
      cases m with
      | zero => omega
      | succ m => simp only [loop, hr]
    | ok p =>
      obtain ⟨b, s'⟩ := p
      cases b with
      | false =>
        refine ⟨(resume checks s).bind fun _ => .pure (), by simp only [loop, hr], fun m hm => ?_⟩
        cases m with
        | zero => omega
        | succ m => simp only [loop, hr]
      | true =>
        have hl := resume_rest checks hr
        obtain ⟨x, h1, h2⟩ := ih s' (by omega)
        refine ⟨(resume checks s).bind fun _ => x, by simp only [loop, hr, h1, Option.map_some], fun m hm => ?_⟩
        cases m with
        | zero => omega
        | succ m => simp only [loop, hr, h2 m (by omega), Option.map_some]

/-- All rounds from a state on. -/
def readFrom (s : St) : Act Unit := (loop checks (s.rest.length + 1) s).getD .panic

/-- What comes after a round. -/
def next (p : Bool × St) : Act Unit := if p.1 then readFrom checks p.2 else .pure ()

theorem readFrom_eq (s : St) : readFrom checks s = (resume checks s).bind (next checks) := by
  conv => lhs; unfold readFrom
  have hb : (resume checks s).bind (next checks) = match (resume checks s).res with
      | .ok p => ⟨(resume checks s).calls ++ (next checks p).calls, (next checks p).res⟩
      | .err => ⟨(resume checks s).calls, .err⟩
      | .panic => ⟨(resume checks s).calls, .panic⟩ := by
    unfold Act.bind
    cases (resume checks s).res <;> rfl
  rw [hb]
  cases hr : (resume checks s).res with
  | err => simp only [loop, hr, Option.getD_some]
  | panic => simp only [loop, hr, Option.getD_some]
  | ok p =>
    obtain ⟨b, s'⟩ := p
    cases b with
    | false =>
      have : next checks (false, s') = .pure () := rfl
      simp only [loop, hr, Option.getD_some, this, Act.bind]
    | true =>
      have hl := resume_rest checks hr
      obtain ⟨x, h1, h2⟩ := loop_ends checks s' _ (Nat.lt_succ_self _)
      have : next checks (true, s') = x := by
        simp only [next, if_true, readFrom]
        rw [h1]; rfl
      simp only [this]
      simp only [loop, hr, h2 _ hl, Option.map_some, Option.getD_some, Act.bind]

theorem read_eq (src : Text) : read checks src = readFrom checks (St.new src) := rfl

/-- The end of a value is the end of a round, if something is left, or of everything. -/
theorem maybeDone_next (s : St) (h : s.inStr = false) : (maybeDone s).bind (next checks) = readFrom checks s := by
  rw [readFrom_eq, resume, h]
  simp only [Bool.false_eq_true, if_false]
  by_cases hr : s.rest = []
  · have : { s with rest := [] } = s := by cases s; simp_all
    rw [hr, scan, this]
  · unfold maybeDone
    rw [if_pos hr]
    simp only [pure_def, pure_bind, next, if_true]
    rw [readFrom_eq, resume, h]
    rfl

theorem goOn_next (x : Act St) : (goOn x).bind (next checks) = x.bind (readFrom checks) := by
  unfold goOn
  simp only [bind_def]
  rw [bind_assoc]
  congr 1

end

end Sval.Reader
