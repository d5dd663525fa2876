import Verif.Json.IoZero
import Verif.Props.Json

set_option autoImplicit false

/-!
# C25, exactly

What `stream_to_io_write` gives to writers that answer as they like, `Ok(0)` included.
-/

namespace Sval
open Json

/-- The writer has `got` these bytes, was meant to get `all`, and answered `as`: it lacks at least a byte for each
`Ok(0)` it answered, lacks nothing if it never did, and has nothing it was not meant to get. -/
def Misses (got all : Bytes) (as : List Ans) : Prop :=
  got.Sublist all ∧ got.length + as.countP (· == .wrote 0) ≤ all.length ∧ (got = all ↔ .wrote 0 ∉ as)

private theorem lacks_of {as : List Ans} {o : Io} {t : Text} (h : Short as o t) :
    Misses o.got (utf8 t) (as.take (as.length - o.answers.length)) := by
  obtain ⟨used, h1, _, _, h4, h5, h6⟩ := h
  rw [take_given h1]
  refine ⟨h4, h5, fun h hm => ?_, fun h => h6 ?_⟩
  · have := zeros_pos.1 hm
    rw [h] at h5
    omega
  · have : ¬ 0 < zeros used := fun hp => h (zeros_pos.2 hp)
    omega

/-- C25, exactly, for code that uses `?`. Whatever the writer answers:
- if `stream_to_io_write` reports success, so does `stream_to_string`, and the writer has got the UTF-8 of that
  string just if it never answered `Ok(0)`; for each such answer it lacks at least one byte, and the rest is in order;
- if it reports an I/O error, that error is the last answer of the writer, and what it has got is some of what
  streaming to a string writes, but not all, for each `Ok(0)` another byte less, and a prefix unless the writer answered `Ok(0)`;
- if it reports any other error, streaming to a string ends with the same error, and the writer has got what that
  writes just if it never answered `Ok(0)`. -/
theorem C25_exact (env : Env) (p : Prog) (hp : p.Propagates) (answers : List Ans) :
    let s := toFmt strWriter env p []
    let gave := given env p answers
    match toIo env p answers with
    | (.ok, got) => ∃ t, Json.toString env p = some t ∧ Misses got (utf8 t) gave
    | (.io e, got) => gave.getLast? = some (.error e) ∧
        (s.1 ≠ .panic → got.Sublist (utf8 s.2) ∧ got.length + zeros gave < (utf8 s.2).length ∧ (.wrote 0 ∉ gave → got <+: utf8 s.2))
    | (.invalidKey, got) => s.1 = .invalidKey ∧ Misses got (utf8 s.2) gave
    | (.generic, got) => s.1 = .generic ∧ Misses got (utf8 s.2) gave
    | (.panic, _) => s.1 = .panic := by
  have h := both_exec env (sim_zero answers) p hp .base { out := ⟨answers, [], none⟩ } { out := [] }
    ⟨rfl, rfl, rfl, rfl, rfl, [], rfl, by simp, rfl, List.Sublist.refl _, by simp [zeros], fun _ => rfl⟩
  simp only [given, toIo, Json.toString, toFmt]
  generalize exec (stepP ioWriter env) p .base ({ out := ⟨answers, [], none⟩ }, false) = r at h
  generalize exec (stepP strWriter env) p .base ({ out := [] }, false) = q at h
  obtain ⟨⟨a, pa⟩, ra⟩ := r
  obtain ⟨⟨b, pb⟩, rb⟩ := q
  rcases h with ⟨h1, h2⟩ | ⟨h1, h2, h3, h4⟩ | ⟨h1, h2, h3⟩
  · cases h1; cases h2; simp
  · cases h1; cases h2; cases h3
    obtain ⟨_, _, _, _, e5, hs⟩ := h4
    simp only at e5 hs
    have hl := lacks_of hs
    obtain ⟨_, _, _, e6, _⟩ := hs
    cases ra <;> cases hb : b.badKey <;> simp [e5, e6, hb, hl]
  · cases h1; cases h2
    obtain ⟨⟨b', used, e, g1, g2, g3, _⟩, h4⟩ := h3
    simp only at g1 g3
    have hg : answers.take (answers.length - a.out.answers.length) = used ++ [.error e] := take_given (by rw [g1]; simp)
    have hx : (if a.badKey = true then Ended.invalidKey else Ended.generic) = .invalidKey ∨
        (if a.badKey = true then Ended.invalidKey else Ended.generic) = .generic := by split <;> simp
    have hfin : (used ++ [Ans.error e]).getLast? = some (.error e) ∧
        ((if pb = true then (Ended.panic, b.out) else if rb = true then (Ended.ok, b.out) else
        (if b.badKey = true then Ended.invalidKey else Ended.generic, b.out)).1 ≠ .panic → a.out.got.Sublist (utf8
        (if pb = true then (Ended.panic, b.out) else if rb = true then (Ended.ok, b.out) else
        (if b.badKey = true then Ended.invalidKey else Ended.generic, b.out)).2) ∧ a.out.got.length + zeros (used ++ [.error e]) < (utf8
        (if pb = true then (Ended.panic, b.out) else if rb = true then (Ended.ok, b.out) else
        (if b.badKey = true then Ended.invalidKey else Ended.generic, b.out)).2).length ∧ (.wrote 0 ∉ used ++ [Ans.error e] → a.out.got <+: utf8
        (if pb = true then (Ended.panic, b.out) else if rb = true then (Ended.ok, b.out) else
        (if b.badKey = true then Ended.invalidKey else Ended.generic, b.out)).2)) := by
      refine ⟨by simp, fun hne => ?_⟩
      cases pb with
      | true => simp at hne
      | false =>
        obtain ⟨used', e', k1, _, k3, k4, k5, k6⟩ := h4 rfl
        have he : e' = e := by
          have := k3.symm.trans g3
          simpa using this
        subst he
        have hu : used' = used := by
          have := g1.symm.trans k1
          simpa using this.symm
        subst hu
        have hz : .wrote 0 ∉ used' ++ [Ans.error e'] → zeros used' = 0 := fun h => by
          have : ¬ 0 < zeros used' := fun hp => h (List.mem_append_left _ (zeros_pos.2 hp))
          omega
        have k7 : zeros (used' ++ [Ans.error e']) = zeros used' := by rw [zeros_append]; simp [zeros]
        cases rb <;> exact ⟨by simpa using k4, by rw [k7]; simpa using k5, fun h => by simpa using k6 (hz h)⟩
    rcases hx with hx | hx <;> simp only [hx, g3, Bool.false_eq_true, if_false, hg] <;> exact hfin

/-- C25, exactly, for any code, when the writer does not fail: the code ends as it does streaming to a string, and the
writer has got the UTF-8 of what that writes but for at least one byte for each `Ok(0)` it answered. -/
theorem C25_exact_no_errors (env : Env) (p : Prog) (answers : List Ans) (he : ∀ e, .error e ∉ answers) :
    (toIo env p answers).1 = (match (toFmt strWriter env p []).1 with
      | .ok => .ok | .invalidKey => .invalidKey | .generic => .generic | .panic => .panic) ∧
    Misses (toIo env p answers).2 (utf8 (toFmt strWriter env p []).2) (given env p answers) := by
  have h := lock_exec env (sim_zero_ok answers he) p .base ({ out := ⟨answers, [], none⟩ }, false) ({ out := [] }, false) rfl
    ⟨rfl, rfl, rfl, rfl, rfl, [], rfl, by simp, rfl, List.Sublist.refl _, by simp [zeros], fun _ => rfl⟩
  simp only [given, toIo, toFmt]
  generalize exec (stepP ioWriter env) p .base ({ out := ⟨answers, [], none⟩ }, false) = r at h
  generalize exec (stepP strWriter env) p .base ({ out := [] }, false) = q at h
  obtain ⟨⟨a, pa⟩, ra⟩ := r
  obtain ⟨⟨b, pb⟩, rb⟩ := q
  obtain ⟨h1, h2, _, _, _, _, e5, hs⟩ := h
  simp only at h1 h2 e5 hs
  subst h1 h2
  have hl := lacks_of hs
  obtain ⟨_, _, _, e6, _⟩ := hs
  cases pa <;> cases ra <;> cases hb : b.badKey <;> simp [e5, e6, hb, hl]

/-- Two answers of `Ok(0)`, one of them for one character, and an answer that is never given. -/
example : toIo anyEnv (valueOf (.seq none [.bool true, .bool false])) [.wrote 1, .wrote 2, .wrote 0, .wrote 0, .wrote 9, .wrote 9, .wrote 0] =
      (.ok, utf8 (t! "[trfalse]")) ∧
    given anyEnv (valueOf (.seq none [.bool true, .bool false])) [.wrote 1, .wrote 2, .wrote 0, .wrote 0, .wrote 9, .wrote 9, .wrote 0] =
      [.wrote 1, .wrote 2, .wrote 0, .wrote 0, .wrote 9, .wrote 9] := by
  decide +kernel

/-- And a failure after an `Ok(0)`. -/
example : toIo anyEnv (valueOf (.seq none [.bool true, .bool false])) [.wrote 1, .wrote 0, .error 4, .wrote 9] =
      (.io 4, utf8 (t! "[")) ∧
    given anyEnv (valueOf (.seq none [.bool true, .bool false])) [.wrote 1, .wrote 0, .error 4, .wrote 9] =
      [.wrote 1, .wrote 0, .error 4] := by
  decide +kernel

end Sval
