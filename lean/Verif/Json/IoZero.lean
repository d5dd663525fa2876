import Verif.Json.Io

set_option autoImplicit false

/-!
# Writers that answer `Ok(0)`

`json/src/to_io.rs:21-22` stops at `Ok(0)` and drops the rest of that text. What the writer has is what a
string has, with a piece left out for each `Ok(0)`.
-/

namespace Sval.Json

/-- How many of these answers are `Ok(0)`. -/
def zeros (as : List Ans) : Nat := as.countP (· == .wrote 0)

/-- The answers the writer has given when `stream_to_io_write` returns. -/
def given (env : Env) (p : Prog) (answers : List Ans) : List Ans :=
  answers.take (answers.length - (toFmt ioWriter env p ⟨answers, [], none⟩).2.answers.length)

theorem zeros_pos {as : List Ans} : .wrote 0 ∈ as ↔ 0 < zeros as := by
  unfold zeros
  rw [List.countP_pos_iff]
  constructor
  · intro h; exact ⟨_, h, by simp⟩
  · rintro ⟨a, h, ha⟩
    rw [beq_iff_eq] at ha
    rw [← ha]
    exact h

theorem zeros_append (as bs : List Ans) : zeros (as ++ bs) = zeros as + zeros bs := by
  simp [zeros]

theorem take_given {as used rest : List Ans} (h : as = used ++ rest) : as.take (as.length - rest.length) = used := by
  subst h
  simp

theorem ioLoop_zero (err : Option Nat) (as : List Ans) (buf got : Bytes) :
    (∃ used rest part, as = used ++ rest ∧ part.Sublist buf ∧ part.length + zeros used ≤ buf.length ∧ (zeros used = 0 → part = buf) ∧
      (∀ e, .error e ∉ used) ∧ ioLoop err as buf got = .ok ⟨rest, got ++ part, err⟩) ∨
    (∃ used rest part e, as = used ++ .error e :: rest ∧ (part <+: buf ∧ part.length < buf.length) ∧ zeros used = 0 ∧ (∀ e, .error e ∉ used) ∧
      ioLoop err as buf got = .err () ⟨rest, got ++ part, some e⟩) := by
  induction as generalizing buf got with
  | nil => cases buf <;> exact .inl ⟨[], [], _, rfl, List.Sublist.refl _, by simp [zeros], fun _ => rfl, by simp, by simp [ioLoop]⟩
  | cons a as ih =>
    cases buf with
    | nil => exact .inl ⟨[], a :: as, [], rfl, List.Sublist.refl _, by simp [zeros], fun _ => rfl, by simp, by simp [ioLoop]⟩
    | cons b buf =>
      cases a with
      | wrote n =>
        by_cases hn : n = 0
        · subst hn
          exact .inl ⟨[.wrote 0], as, [], rfl, List.nil_sublist _, by simp [zeros], by simp [zeros], by simp, by simp [ioLoop]⟩
        · have hz : ∀ l, zeros (.wrote n :: l) = zeros l := fun l => by simp [zeros, hn]
          simp only [ioLoop, if_neg hn]
          rcases ih ((b :: buf).drop n) (got ++ (b :: buf).take n) with ⟨used, rest, part, h1, h2, h3, h4, h5, h6⟩ | ⟨used, rest, part, e, h1, h2, h3, h4, h5⟩
          · refine .inl ⟨.wrote n :: used, rest, (b :: buf).take n ++ part, by rw [h1]; rfl, ?_, ?_, fun h => ?_, by simpa using h5, by rw [h6, List.append_assoc]⟩
            · conv => rhs; rw [← List.take_append_drop n (b :: buf)]
              exact (List.Sublist.refl _).append h2
            · have := congrArg List.length (List.take_append_drop n (b :: buf))
              rw [hz, List.length_append]
              rw [List.length_append] at this
              omega
            · rw [hz] at h
              rw [h4 h, List.take_append_drop]
          · refine .inr ⟨.wrote n :: used, rest, (b :: buf).take n ++ part, e, by rw [h1]; rfl, ?_, by rw [hz, h3], by simpa using h4, by rw [h5, List.append_assoc]⟩
            obtain ⟨⟨q, hq⟩, hlt⟩ := h2
            refine ⟨⟨q, by rw [List.append_assoc, hq, List.take_append_drop]⟩, ?_⟩
            have := congrArg List.length (List.take_append_drop n (b :: buf))
            rw [List.length_append] at this ⊢
            omega
      | interrupted =>
        have hz : ∀ l, zeros (.interrupted :: l) = zeros l := fun l => by simp [zeros]
        simp only [ioLoop]
        rcases ih (b :: buf) got with ⟨used, rest, part, h1, h2, h3, h4, h5, h6⟩ | ⟨used, rest, part, e, h1, h2, h3, h4, h5⟩
        · exact .inl ⟨.interrupted :: used, rest, part, by rw [h1]; rfl, h2, by rw [hz]; exact h3, by rw [hz]; exact h4, by simpa using h5, h6⟩
        · exact .inr ⟨.interrupted :: used, rest, part, e, by rw [h1]; rfl, h2, by rw [hz]; exact h3, by simpa using h4, h5⟩
      | error e => exact .inr ⟨[], as, [], e, rfl, ⟨List.nil_prefix, by simp⟩, rfl, by simp, by simp [ioLoop]⟩

/-- The writer has got what the string has but for a piece for each `Ok(0)`, and has not failed. -/
def Short (as : List Ans) (o : Io) (t : Text) : Prop :=
  ∃ used, as = used ++ o.answers ∧ (∀ e, .error e ∉ used) ∧ o.err = none ∧ o.got.Sublist (utf8 t) ∧
    o.got.length + zeros used ≤ (utf8 t).length ∧ (zeros used = 0 → o.got = utf8 t)

/-- The writer has failed at the last answer it gave, having got some of what the string gets, but not all. -/
def ShortFailed (as : List Ans) (o : Io) (t : Text) : Prop :=
  ∃ used e, as = used ++ .error e :: o.answers ∧ (∀ e, .error e ∉ used) ∧ o.err = some e ∧ o.got.Sublist (utf8 t) ∧
    o.got.length + zeros used < (utf8 t).length ∧ (zeros used = 0 → o.got <+: utf8 t)

theorem sim_zero (as : List Ans) (t : Text) : Sim (Short as) (ShortFailed as) (ioWriter t) (strWriter t) := by
  constructor
  · rintro ⟨as1, got, err⟩ b ⟨used, h1, h2, h3, h4, h5, h6⟩
    simp only at h1 h3 h4 h5 h6
    subst h3
    show Pair _ _ (ioLoop none as1 (utf8 t) got) (.ok (b ++ t))
    rcases ioLoop_zero none as1 (utf8 t) got with ⟨u, r, part, g1, g2, g3, g4, g5, g6⟩ | ⟨u, r, part, e, g1, g2, g3, g4, g5⟩
    · rw [g6]
      refine ⟨used ++ u, by rw [h1, g1, List.append_assoc], ?_, rfl, ?_, ?_, ?_⟩
      · intro e h
        rcases List.mem_append.1 h with h | h
        · exact h2 e h
        · exact g5 e h
      · rw [utf8_append]; exact h4.append g2
      · simp only [utf8_append, List.length_append, zeros_append]
        omega
      · intro h
        rw [zeros_append] at h
        rw [utf8_append, h6 (by omega), g4 (by omega)]
    · rw [g5]
      refine ⟨used ++ u, e, by simp only [h1, g1, List.append_assoc], ?_, rfl, ?_, ?_, ?_⟩
      · intro e h
        rcases List.mem_append.1 h with h | h
        · exact h2 e h
        · exact g4 e h
      · rw [utf8_append]; exact h4.append g2.1.sublist
      · have := g2.2
        simp only [utf8_append, List.length_append, zeros_append]
        omega
      · intro h
        rw [zeros_append] at h
        simp only [utf8_append, h6 (by omega)]
        exact (List.prefix_append_right_inj _).2 g2.1
  · rintro a b ⟨used, e, h1, h2, h3, h4, h5, h6⟩
    refine ⟨used, e, h1, h2, h3, ?_, ?_, fun h => ?_⟩
    · rw [utf8_append]; exact h4.trans (List.sublist_append_left _ _)
    · rw [utf8_append, List.length_append]; omega
    · exact (h6 h).trans (by rw [utf8_append]; exact List.prefix_append _ _)

theorem ioLoop_noError (err : Option Nat) (as : List Ans) (he : ∀ e, .error e ∉ as) (buf got : Bytes) :
    ∃ o, ioLoop err as buf got = .ok o := by
  rcases ioLoop_zero err as buf got with ⟨_, _, _, _, _, _, _, _, h⟩ | ⟨used, rest, _, e, h, _⟩
  · exact ⟨_, h⟩
  · exact absurd (by simp [h]) (he e)

theorem sim_zero_ok (as : List Ans) (he : ∀ e, .error e ∉ as) (t : Text) :
    Sim (Short as) (fun _ _ => False) (ioWriter t) (strWriter t) := by
  constructor
  · intro a b h
    have hp := (sim_zero as t).both a b h
    obtain ⟨used, h1, _⟩ := h
    obtain ⟨o, ho⟩ := ioLoop_noError a.err a.answers (fun e h => he e (by rw [h1]; exact List.mem_append_right _ h)) (utf8 t) a.got
    have : ioWriter t a = .ok o := ho
    rw [this] at hp ⊢
    exact hp
  · intro a b h
    exact h.elim

end Sval.Json
