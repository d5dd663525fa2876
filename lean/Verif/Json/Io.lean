import Verif.Json.Sim

set_option autoImplicit false

/-!
# `sval_json`: `stream_to_io_write` and `stream_to_vec`
-/

namespace Sval.Json

/-! ## The model -/

/-- What an `io::Write` answers to one call of `write`. `wrote n` is `Ok(min n len)`: the contract of
`Write::write` excludes counts larger than the buffer. `error e` is any error but `Interrupted`. -/
inductive Ans where
  | wrote (n : Nat)
  | interrupted
  | error (e : Nat)
deriving DecidableEq, Repr

/-- `IoToFmt`, `json/src/to_io.rs:12-15`. The writer answers with `answers`, then accepts whatever it
is given; `got` are the bytes it has accepted. Writers that answer `Interrupted` for ever, for which
`write_str` does not return, are not covered. -/
structure Io where
  answers : List Ans
  got : Bytes
  err : Option Nat
deriving DecidableEq, Repr

/-- The loop of `write_str`, `json/src/to_io.rs:18-36`. -/
def ioLoop (err : Option Nat) : List Ans → Bytes → Bytes → Res Unit Io
  | as, [], got => .ok ⟨as, got, err⟩
  | [], b :: buf, got => .ok ⟨[], got ++ b :: buf, err⟩
  | .wrote n :: as, b :: buf, got =>
    if n = 0 then .ok ⟨as, got, err⟩
    else ioLoop err as ((b :: buf).drop n) (got ++ (b :: buf).take n)
  | .interrupted :: as, b :: buf, got => ioLoop err as (b :: buf) got
  | .error e :: as, _ :: _, got => .err () ⟨as, got, some e⟩

/-- `write_str` of `IoToFmt`. -/
def ioWriter : Writer Io := fun t o => ioLoop o.err o.answers (utf8 t) o.got

/-- How `stream_to_io_write` ends. -/
inductive IoEnded where
  | ok
  | io (e : Nat)
  | invalidKey
  | generic
  | panic
deriving DecidableEq, Repr

/-- `stream_to_io_write`, `json/src/to_io.rs:11-51`: the result and what the writer got. -/
def toIo (env : Env) (p : Prog) (answers : List Ans) : IoEnded × Bytes :=
  let r := toFmt ioWriter env p ⟨answers, [], none⟩
  (match r.1 with
   | .ok => .ok
   | .panic => .panic
   | .invalidKey =>
     match r.2.err with
     | some e => .io e
     | none => .invalidKey
   | .generic =>
     match r.2.err with
     | some e => .io e
     | none => .generic, r.2.got)

/-- `stream_to_vec`, `json/src/to_vec.rs:10-15`; `Vec` accepts every byte. -/
def toVec (env : Env) (p : Prog) : Option Bytes :=
  match toIo env p [] with
  | (.ok, b) => some b
  | _ => none

/-! ## Programs on two writers -/

section
variable {ω υ : Type} {w : Writer ω} {x : Writer υ} {ρ φ : ω → υ → Prop} (env : Env)

/-- The first writer failed with `a`; the second goes on. -/
def Behind (φ : ω → υ → Prop) (a : St ω) (s : St υ × Bool) : Prop :=
  (∃ b, FR φ a b) ∧ (s.2 = false → FR φ a s.1)

theorem behind_exec (hw : ∀ t, Sim ρ φ (w t) (x t)) (a : St ω) (p : Prog) (W : Wrapper) (s : St υ × Bool) (h : Behind φ a s) :
    Behind φ a (exec (stepP x env) p W s).1 := by
  refine exec_inv _ (Behind φ a) (fun t s h => ?_) p W s h
  refine ⟨h.1, fun hn => ?_⟩
  obtain ⟨s, pn⟩ := s
  cases pn with
  | true => simp [stepP] at hn
  | false =>
    have := (simCall hw env t).only a s (h.2 rfl)
    simp only [stepP, Bool.false_eq_true, if_false] at hn ⊢
    cases hc : call x env t s with
    | ok s' => rw [hc] at this; exact this
    | err e s' => rw [hc] at this; exact this
    | panic => simp [hc] at hn

theorem panicked_exec (p : Prog) (W : Wrapper) (s : St ω × Bool) (h : s.2 = true) :
    (exec (stepP w env) p W s).1.2 = true := by
  refine exec_inv _ (fun s => s.2 = true) (fun t s h => ?_) p W s h
  simp [stepP, h]

/-- How the two runs may differ. -/
def Both (ρ φ : ω → υ → Prop) (r : (St ω × Bool) × Bool) (q : (St υ × Bool) × Bool) : Prop :=
  (r.1.2 = true ∧ q.1.2 = true) ∨
  (r.1.2 = false ∧ q.1.2 = false ∧ r.2 = q.2 ∧ SR ρ r.1.1 q.1.1) ∨
  (r.1.2 = false ∧ r.2 = false ∧ Behind φ r.1.1 q.1)

theorem both_call (hw : ∀ t, Sim ρ φ (w t) (x t)) (t : Token) (a : St ω) (b : St υ) (h : SR ρ a b) :
    Both ρ φ (stepP w env t (a, false)) (stepP x env t (b, false)) ∧
      ((stepP w env t (a, false)).1.2 = true → (stepP w env t (a, false)).2 = false) := by
  have := (simCall hw env t).both a b h
  simp only [stepP, Bool.false_eq_true, if_false]
  cases ha : call w env t a with
  | ok a' =>
    cases hb : call x env t b with
    | ok b' => rw [ha, hb] at this; exact ⟨.inr (.inl ⟨rfl, rfl, rfl, this⟩), by simp⟩
    | err e b' => rw [ha, hb] at this; exact this.elim
    | panic => rw [ha, hb] at this; exact this.elim
  | err e a' =>
    cases hb : call x env t b with
    | ok b' => rw [ha, hb] at this; exact ⟨.inr (.inr ⟨rfl, rfl, ⟨b', this⟩, fun _ => this⟩), by simp⟩
    | err e b' =>
      rw [ha, hb] at this
      rcases this with this | this
      · exact ⟨.inr (.inl ⟨rfl, rfl, rfl, this⟩), by simp⟩
      · exact ⟨.inr (.inr ⟨rfl, rfl, ⟨b', this⟩, fun _ => this⟩), by simp⟩
    | panic =>
      rw [ha, hb] at this
      exact ⟨.inr (.inr ⟨rfl, rfl, this, by simp⟩), by simp⟩
  | panic =>
    cases hb : call x env t b with
    | ok b' => rw [ha, hb] at this; exact this.elim
    | err e b' => rw [ha, hb] at this; exact this.elim
    | panic => exact ⟨.inl ⟨rfl, rfl⟩, by simp⟩

/-- What follows a step of code that uses `?`. -/
theorem both_bind (hw : ∀ t, Sim ρ φ (w t) (x t)) (k : Bool → Prog) (hk : k false = .ret false) (W : Wrapper)
    (ih : ∀ a b, SR ρ a b → Both ρ φ (exec (stepP w env) (k true) W (a, false)) (exec (stepP x env) (k true) W (b, false)))
    (r : (St ω × Bool) × Bool) (q : (St υ × Bool) × Bool) (h : Both ρ φ r q) :
    Both ρ φ (exec (stepP w env) (k r.2) W r.1) (exec (stepP x env) (k q.2) W q.1) := by
  rcases h with ⟨h1, h2⟩ | ⟨h1, h2, h3, h4⟩ | ⟨h1, h2, h3⟩
  · exact .inl ⟨panicked_exec env _ _ _ h1, panicked_exec env _ _ _ h2⟩
  · obtain ⟨⟨a, pa⟩, ra⟩ := r
    obtain ⟨⟨b, pb⟩, rb⟩ := q
    simp only at h1 h2 h3 h4
    subst h1; subst h2; subst h3
    cases ra with
    | true => exact ih a b h4
    | false => simp only [hk]; exact .inr (.inl ⟨rfl, rfl, rfl, h4⟩)
  · rw [h2, hk]
    exact .inr (.inr ⟨h1, rfl, behind_exec env hw r.1.1 _ _ _ h3⟩)

theorem both_exec (hw : ∀ t, Sim ρ φ (w t) (x t)) (p : Prog) (hp : p.Propagates) (W : Wrapper) (a : St ω) (b : St υ)
    (h : SR ρ a b) : Both ρ φ (exec (stepP w env) p W (a, false)) (exec (stepP x env) p W (b, false)) := by
  induction p generalizing W a b with
  | ret ok => exact .inr (.inl ⟨rfl, rfl, rfl, h⟩)
  | call t k ih =>
    obtain ⟨hk, hk'⟩ := hp
    exact both_bind env hw k hk W (fun a b h => ih true hk' W a b h) _ _ (both_call env hw _ a b h).1
  | value v k ihv ih =>
    obtain ⟨hv, hk, hk'⟩ := hp
    exact both_bind env hw k hk W (fun a b h => ih true hk' W a b h) _ _ (ihv hv _ a b h)
  | valueComputed v k ihv ih =>
    obtain ⟨hv, hk, hk'⟩ := hp
    exact both_bind env hw k hk W (fun a b h => ih true hk' W a b h) _ _ (ihv hv _ a b h)

/-- The two runs go the same way. -/
def Lock (ρ : ω → υ → Prop) (r : (St ω × Bool) × Bool) (q : (St υ × Bool) × Bool) : Prop :=
  r.1.2 = q.1.2 ∧ r.2 = q.2 ∧ SR ρ r.1.1 q.1.1

/-- If neither writer fails before the other, any code whatever gives the same on both. -/
theorem lock_exec (hw : ∀ t, Sim ρ (fun _ _ => False) (w t) (x t)) (p : Prog) (W : Wrapper) (s : St ω × Bool) (s' : St υ × Bool)
    (hn : s.2 = s'.2) (h : SR ρ s.1 s'.1) : Lock ρ (exec (stepP w env) p W s) (exec (stepP x env) p W s') := by
  induction p generalizing W s s' with
  | ret ok => exact ⟨hn, rfl, h⟩
  | call t k ih =>
    have hl : Lock ρ (stepP w env (W.tok t) s) (stepP x env (W.tok t) s') := by
      obtain ⟨a, pa⟩ := s
      obtain ⟨b, pb⟩ := s'
      simp only at hn h
      subst hn
      cases pa with
      | true => exact ⟨rfl, rfl, h⟩
      | false =>
        have := (simCall hw env (W.tok t)).both a b h
        simp only [stepP, Bool.false_eq_true, if_false]
        cases ha : call w env (W.tok t) a with
        | ok a' =>
          cases hb : call x env (W.tok t) b with
          | ok b' => rw [ha, hb] at this; exact ⟨rfl, rfl, this⟩
          | err e b' => rw [ha, hb] at this; exact this.elim
          | panic => rw [ha, hb] at this; exact this.elim
        | err e a' =>
          cases hb : call x env (W.tok t) b with
          | ok b' => rw [ha, hb] at this; exact this.elim
          | err e b' =>
            rw [ha, hb] at this
            rcases this with this | this
            · exact ⟨rfl, rfl, this⟩
            · exact this.elim
          | panic => rw [ha, hb] at this; exact this.choose_spec.elim
        | panic =>
          cases hb : call x env (W.tok t) b with
          | ok b' => rw [ha, hb] at this; exact this.elim
          | err e b' => rw [ha, hb] at this; exact this.elim
          | panic => exact ⟨rfl, rfl, h⟩
    simp only [exec]
    rw [hl.2.1]
    exact ih _ _ _ _ hl.1 hl.2.2
  | value v k ihv ih =>
    have hl := ihv W.valueTarget s s' hn h
    simp only [exec]
    rw [hl.2.1]
    exact ih _ _ _ _ hl.1 hl.2.2
  | valueComputed v k ihv ih =>
    have hl := ihv W.computedTarget s s' hn h
    simp only [exec]
    rw [hl.2.1]
    exact ih _ _ _ _ hl.1 hl.2.2
end

/-! ## The writer -/

/-- Answers that say nothing was written. -/
def NoZero (as : List Ans) : Prop := .wrote 0 ∉ as

theorem ioLoop_spec (err : Option Nat) (as : List Ans) (buf got : Bytes) (hz : NoZero as) :
    (∃ as', as' <:+ as ∧ ioLoop err as buf got = .ok ⟨as', got ++ buf, err⟩) ∨
    (∃ as' e p, as' <:+ as ∧ .error e ∈ as ∧ p <+: buf ∧ ioLoop err as buf got = .err () ⟨as', got ++ p, some e⟩) := by
  induction as generalizing buf got with
  | nil =>
    cases buf with
    | nil => exact .inl ⟨[], List.suffix_refl _, by simp [ioLoop]⟩
    | cons b buf => exact .inl ⟨[], List.suffix_refl _, by simp [ioLoop]⟩
  | cons a as ih =>
    have hz' : NoZero as := fun h => hz (List.mem_cons_of_mem _ h)
    have suf : ∀ {as'}, as' <:+ as → as' <:+ a :: as := fun h => h.trans (List.suffix_cons _ _)
    cases buf with
    | nil => exact .inl ⟨a :: as, List.suffix_refl _, by simp [ioLoop]⟩
    | cons b buf =>
      cases a with
      | wrote n =>
        by_cases hn : n = 0
        · subst hn; exact absurd (by simp) hz
        · simp only [ioLoop, if_neg hn]
          rcases ih ((b :: buf).drop n) (got ++ (b :: buf).take n) hz' with ⟨as', h1, h2⟩ | ⟨as', e, p, h1, h2, h3, h4⟩
          · exact .inl ⟨as', suf h1, by rw [h2, List.append_assoc, List.take_append_drop]⟩
          · refine .inr ⟨as', e, (b :: buf).take n ++ p, suf h1, List.mem_cons_of_mem _ h2, ?_, by rw [h4, List.append_assoc]⟩
            obtain ⟨q, hq⟩ := h3
            exact ⟨q, by rw [List.append_assoc, hq, List.take_append_drop]⟩
      | interrupted =>
        simp only [ioLoop]
        rcases ih (b :: buf) got hz' with ⟨as', h1, h2⟩ | ⟨as', e, p, h1, h2, h3, h4⟩
        · exact .inl ⟨as', suf h1, h2⟩
        · exact .inr ⟨as', e, p, suf h1, List.mem_cons_of_mem _ h2, h3, h4⟩
      | error e => exact .inr ⟨as, e, [], List.suffix_cons _ _, by simp, List.nil_prefix, by simp [ioLoop]⟩

/-- The io writer has got the bytes the string has. -/
def InStep (as : List Ans) (o : Io) (t : Text) : Prop := o.answers <:+ as ∧ o.err = none ∧ o.got = utf8 t

/-- The io writer has failed, with a prefix. -/
def Failed (as : List Ans) (o : Io) (t : Text) : Prop := ∃ e, .error e ∈ as ∧ o.err = some e ∧ o.got <+: utf8 t

theorem sim_io (as : List Ans) (hz : NoZero as) (t : Text) : Sim (InStep as) (Failed as) (ioWriter t) (strWriter t) := by
  constructor
  · rintro ⟨as1, got, err⟩ b ⟨h1, h2, h3⟩
    simp only at h1 h2 h3
    subst h2 h3
    have hz1 : NoZero as1 := fun h => hz (h1.subset h)
    rcases ioLoop_spec none as1 (utf8 t) (utf8 b) hz1 with ⟨as', g1, g2⟩ | ⟨as', e, p, g1, g2, g3, g4⟩
    · show Pair _ _ (ioLoop none as1 (utf8 t) (utf8 b)) (.ok (b ++ t))
      rw [g2]
      exact ⟨g1.trans h1, rfl, by simp [utf8_append]⟩
    · show Pair _ _ (ioLoop none as1 (utf8 t) (utf8 b)) (.ok (b ++ t))
      rw [g4]
      refine ⟨e, h1.subset g2, rfl, ?_⟩
      simp only [utf8_append]
      exact (List.prefix_append_right_inj _).2 g3
  · rintro a b ⟨e, h1, h2, h3⟩
    exact ⟨e, h1, h2, h3.trans (by rw [utf8_append]; exact List.prefix_append _ _)⟩

theorem sim_io_ok (as : List Ans) (hz : NoZero as) (he : ∀ e, .error e ∉ as) (t : Text) :
    Sim (InStep as) (fun _ _ => False) (ioWriter t) (strWriter t) := by
  refine ⟨?_, fun _ _ h => h.elim⟩
  intro a b h
  have h1 := (sim_io as hz t).both a b h
  cases hr : ioWriter t a with
  | ok a' => rw [hr] at h1; exact h1
  | err e a' => rw [hr] at h1; obtain ⟨e, h2, _⟩ := h1; exact absurd h2 (he e)
  | panic => rw [hr] at h1; exact h1

end Sval.Json
