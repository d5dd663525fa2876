import Verif.Test.Spec

set_option autoImplicit false

/-!
# C58: assertions on the calls of a value

The full statement is: `assert_tokens` returns if and only if the value streams without an error exactly the calls that
are listed. It is false, because `==` on calls is weaker than "exactly" on labels, indexes and zeros (`C58_fails_hint`,
`C58_fails_zero`), and because a float that is not a number is never what was listed (`C58_fails_nan`). `C58_exact` is
what it comes to for every value, one that reacts to errors or streams other values included, and every list.
-/

namespace Sval.Test

/-! ## Lemmas -/

theorem exec_push (p : Prog) (w : Wrapper) (l : List Token) :
    exec push p w (l.map token) =
      ((exec (recorder fun _ _ => true) p w l).1.map token, (exec (recorder fun _ _ => true) p w l).2) := by
  induction p generalizing w l with
  | ret b => rfl
  | call t k ih =>
    have h := ih true w (l ++ [w.tok t])
    simpa [exec, push, recorder] using h
  | value v k ihv ihk => simp only [exec, ihv, ihk]
  | valueComputed v k ihv ihk => simp only [exec, ihv, ihk]

theorem exec_push_nil (p : Prog) : exec push p .base [] = ((callsOf p).1.map token, (callsOf p).2) := exec_push p .base []

theorem eqTokens_iff (as bs : List Token) : eqTokens as (bs.map token) = true ↔
    as.map plain = bs.map plain ∧ ∀ t ∈ as, isNan t = false := by
  induction as generalizing bs with
  | nil => cases bs <;> simp [eqTokens]
  | cons a as ih => cases bs with
    | nil => simp [eqTokens]
    | cons b bs =>
      simp only [List.map_cons, eqTokens, Bool.and_eq_true, token_iff, ih, List.cons.injEq, List.mem_cons, forall_eq_or_imp]
      exact and_and_and_comm

theorem callsOf_ofToks (ts : List Token) : callsOf (Prog.ofToks ts) = (ts, true) := by
  have h : ∀ l, exec (recorder fun _ _ => true) (Prog.ofToks ts) .base l = (l ++ ts, true) := by
    induction ts with
    | nil => simp [Prog.ofToks, exec]
    | cons t ts ih => intro l; simp [Prog.ofToks, exec, recorder, ih, Wrapper.tok]
  exact h []

theorem isNan_plain (t : Token) : isNan (plain t) = isNan t := by
  cases t <;> try rfl
  all_goals simp only [plain]; split <;> rename_i h <;> simp [isNan, h]

/-! ## Theorems -/

/-- **C58**, exactly: `assert_tokens` returns if and only if the value streams without an error, its calls and the list
are the same apart from hints of labels and indexes and signs of zeros, and none listed is a float that is not a number. -/
theorem C58_exact (p : Prog) (ts : List Token) : assertTokens p ts = true ↔
    (callsOf p).2 = true ∧ (callsOf p).1.map plain = ts.map plain ∧ ∀ t ∈ ts, isNan t = false := by
  simp only [assertTokens, exec_push_nil]
  split <;> rename_i h
  · simp only [eqTokens_iff, h, true_and]
    exact ⟨fun ⟨a, b⟩ => ⟨a.symm, b⟩, fun ⟨a, b⟩ => ⟨a.symm, b⟩⟩
  · simp [h]

/-- **C58**, what holds of the full statement: a value is accepted with its own calls if they have no float that is not
a number, and the number of calls, their kinds and everything but the parts that `plain` leaves out must be as listed. -/
theorem C58_partial (p : Prog) :
    ((∀ t ∈ (callsOf p).1, isNan t = false) → (assertTokens p (callsOf p).1 = true ↔ (callsOf p).2 = true)) ∧
    (∀ ts, assertTokens p ts = true → (callsOf p).2 = true ∧ ts.length = (callsOf p).1.length ∧
      ∀ i (h : i < ts.length) (h' : i < (callsOf p).1.length), plain ts[i] = plain (callsOf p).1[i]) := by
  constructor
  · intro hn
    rw [C58_exact]
    exact ⟨fun h => h.1, fun h => ⟨h, rfl, hn⟩⟩
  · intro ts h
    obtain ⟨h1, h2, -⟩ := (C58_exact p ts).mp h
    refine ⟨h1, by simpa using (congrArg List.length h2).symm, fun i hi hi' => ?_⟩
    have := congrArg (·[i]?) h2
    simpa [hi, hi'] using this.symm

/-- `assert_valid` and `assert_invalid` return exactly for the values that stream without and with an error. -/
theorem C58_valid (p : Prog) :
    (assertValid p = true ↔ (callsOf p).2 = true) ∧ (assertInvalid p = true ↔ (callsOf p).2 = false) := by
  simp only [assertValid, assertInvalid, exec_push_nil]
  constructor <;> cases (callsOf p).2 <;> simp

/-- What is shown of a list of calls in a message is streamed as these very calls. -/
theorem C58_shown (ts : List Token) : callsOf (asValue ts) = (ts, true) := callsOf_ofToks ts

/-- **C58**, as stated, fails: calls that differ in the hint of a label or an index pass. -/
theorem C58_fails_hint : ∃ p ts, assertTokens p ts = true ∧ (callsOf p).1 ≠ ts :=
  ⟨Prog.ofToks [.tag ⟨none, some ((Label.new (t! "a")).withTag tags.VALUE_IDENT), none⟩],
    [.tag ⟨none, some (Label.new (t! "a")), none⟩], by decide, by decide⟩

/-- **C58**, as stated, fails: `0.0` passes for `-0.0`. -/
theorem C58_fails_zero : ∃ p ts, assertTokens p ts = true ∧ (callsOf p).1 ≠ ts :=
  ⟨Prog.ofToks [.f64 0x8000000000000000], [.f64 0], by decide, by decide⟩

/-- **C58**, as stated, fails: a value that streams a float that is not a number passes with no list at all. -/
theorem C58_fails_nan : ∃ p, (callsOf p).2 = true ∧ ∀ ts, assertTokens p ts = false := by
  refine ⟨Prog.ofToks [.f32 0x7fc00000], by decide, fun ts => ?_⟩
  rw [← Bool.not_eq_true, C58_exact, callsOf_ofToks]
  rintro ⟨-, h, hn⟩
  match ts, h, hn with
  | [], h, _ => simp at h
  | [t], h, hn =>
    have hp : plain (.f32 0x7fc00000) = plain t := by simpa using h
    have ht := hn t (by simp)
    rw [← isNan_plain, ← hp] at ht
    exact absurd ht (by decide)
  | a :: b :: ts, h, _ => simp at h

/-- A record with a label that is not `'static`, asserted with one that is. -/
example : assertTokens
    (Prog.ofToks [.recordBegin {} (some 1), .recordValueBegin none (Label.newComputed (t! "a")), .int .i32 3,
      .recordValueEnd none (Label.newComputed (t! "a")), .recordEnd {}])
    [.recordBegin {} (some 1), .recordValueBegin none (Label.new (t! "a")), .int .i32 3,
      .recordValueEnd none (Label.new (t! "a")), .recordEnd {}] = true := by decide

/-- Another width of integer, a fragment that is not borrowed and a missing size do not pass. -/
example : assertTokens (Prog.ofToks [.int .i32 3]) [.int .i64 3] = false ∧
    assertTokens (Prog.ofToks [.textBegin (some 1), .textFragment (t! "a"), .textEnd])
      [.textBegin (some 1), .textFragmentComputed (t! "a"), .textEnd] = false ∧
    assertTokens (Prog.ofToks [.seqBegin none, .seqEnd]) [.seqBegin (some 0), .seqEnd] = false := by decide

/-- A value that fails is not valid, whatever it streamed. -/
example : assertInvalid (.call .null fun _ => .ret false) = true ∧
    assertTokens (.call .null fun _ => .ret false) [.null] = false := by decide

end Sval.Test
