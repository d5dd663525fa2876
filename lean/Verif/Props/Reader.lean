import Verif.Reader.Brackets
import Verif.Reader.Compact

set_option autoImplicit false

/-!
# C41, C53, C54, C55, C56, C65: the experimental JSON reader
-/

namespace Sval

open Reader

/-! ## C41: the depth counters -/

namespace Reader

/-- Runs of pushes, of either kind in turn. -/
def pushes : Kind → List Nat → List Op
  | _, [] => []
  | .seq, n :: ns => List.replicate n (.push .seq) ++ pushes .map ns
  | .map, n :: ns => List.replicate n (.push .map) ++ pushes .seq ns

/-- A hundred and one pushes, the last one of a sequence, that fill its counter. -/
def fill : List Op :=
  pushes .seq [1, 1, 1, 1, 2, 1, 2, 4, 1, 2, 1, 1, 1, 2, 2, 1, 4, 1, 2, 2, 1, 5, 1, 2, 1, 1, 2, 1, 2, 1, 3, 1, 1, 1, 1, 1, 2, 2, 1, 4,
    2, 1, 1, 1, 1, 1, 1, 1, 1, 1, 1, 1, 1, 1, 1, 1, 1, 1, 1, 1, 1, 1, 1, 1, 1, 1, 1, 1, 1, 1, 1, 1, 1]

end Reader

/-- C41 in builds with overflow checks: as long as the counters do not refuse, they say what a stack of brackets says. -/
theorem C41_checked (h : List Op) (s : Stack) (hs : counts true h .new = .ok s) :
    ∃ st, reals h [] = some st ∧ s.position = innermost st ∧ s.finish = st.isEmpty := by
  suffices ∀ st, counts true h (enc st) = .ok s → ∃ st', reals h st = some st' ∧ s = enc st' by
    obtain ⟨st, h1, rfl⟩ := this [] hs
    exact ⟨st, h1, enc_position st, enc_finish st⟩
  clear hs
  induction h with
  | nil => intro st hs; cases hs; exact ⟨st, rfl, rfl⟩
  | cons o os ih =>
    intro st hs
    cases hc : o.count true (enc st) with
    | ok s' =>
      obtain ⟨st', h1, rfl⟩ := count_enc true o st s' (.inl rfl) hc
      simp only [counts, hc, Res.bind] at hs
      obtain ⟨st'', h2, h3⟩ := ih st' hs
      exact ⟨st'', by simp [reals, h1, h2], h3⟩
    | err e s' => simp [counts, hc, Res.bind] at hs
    | panic => simp [counts, hc, Res.bind] at hs

example : (counts true [.push .map, .push .seq, .push .seq, .pop .seq] .new).toOption.map (fun s => (s.position, s.finish)) =
    some (.seqElem, false) := by decide +kernel

namespace Reader

/-- Is there room for every bracket a history opens, until it does something illegal? The counters of the brackets that
are open, and one more, must add up to what a `u64` can hold. -/
def roomy : List Op → List Kind → Prop
  | [], _ => True
  | .push k :: os, st => (enc st).map + (enc st).seq + 1 < 2 ^ 64 ∧ roomy os (k :: st)
  | .pop _ :: _, [] => True
  | .pop k :: os, j :: st => k = j → roomy os st

/-- The brackets that are open had room. -/
def held : List Kind → Prop
  | [] => True
  | _ :: st => (enc st).map + (enc st).seq + 1 < 2 ^ 64 ∧ held st

theorem counts_roomy (checks : Bool) (h : List Op) : ∀ st st', held st → roomy h st → reals h st = some st' →
    counts checks h (enc st) = .ok (enc st') := by
  induction h with
  | nil => intro st st' _ _ hr; cases hr; rfl
  | cons o os ih =>
    intro st st' hh hm hr
    match o, st with
    | .push k, st =>
      simp only [counts, (push_room checks k st).1 hm.1, Res.bind]
      exact ih (k :: st) st' ⟨hm.1, hh⟩ hm.2 hr
    | .pop k, [] => cases hr
    | .pop k, j :: st =>
      by_cases hk : k = j
      · subst hk
        simp only [reals, Op.real, if_true, Option.bind_some] at hr
        simp only [counts, pop_room checks k st hh.1, Res.bind]
        exact ih st st' hh.2 (hm rfl) hr
      · simp [reals, Op.real, hk] at hr

theorem roomy_counts (h : List Op) : ∀ st s, counts true h (enc st) = .ok s → roomy h st := by
  induction h with
  | nil => intros; trivial
  | cons o os ih =>
    intro st s hs
    cases hc : o.count true (enc st) with
    | err e s' => simp [counts, hc, Res.bind] at hs
    | panic => simp [counts, hc, Res.bind] at hs
    | ok s' =>
      simp only [counts, hc, Res.bind] at hs
      obtain ⟨st', h1, rfl⟩ := count_enc true o st s' (.inl rfl) hc
      have := ih st' s hs
      match o, st with
      | .push k, st =>
        cases h1
        refine ⟨?_, this⟩
        by_cases hr : (enc st).map + (enc st).seq + 1 < 2 ^ 64
        · exact hr
        · exact absurd hc ((push_room true k st).2 hr rfl _)
      | .pop k, [] => trivial
      | .pop k, j :: st =>
        intro hk
        simp only [Op.real, hk, if_true] at h1
        cases h1
        exact this

end Reader

/-- C41 for histories with room for every bracket they open, in any build: a legal one is accepted, and the counters say
what a stack of brackets says. -/
theorem C41_room (checks : Bool) (h : List Op) (st : List Kind) (hr : reals h [] = some st) (hm : roomy h []) :
    ∃ s, counts checks h .new = .ok s ∧ s.position = innermost st ∧ s.finish = st.isEmpty :=
  ⟨enc st, counts_roomy checks h [] st trivial hm hr, enc_position st, enc_finish st⟩

/-- C41 in builds with overflow checks: the counters accept what is legal and has room, and nothing else. -/
theorem C41_exact (h : List Op) : (∃ s, counts true h .new = .ok s) ↔ (∃ st, reals h [] = some st) ∧ roomy h [] := by
  constructor
  · rintro ⟨s, hs⟩
    obtain ⟨st, h1, _⟩ := C41_checked h s hs
    exact ⟨⟨st, h1⟩, roomy_counts h [] s hs⟩
  · rintro ⟨⟨st, h1⟩, h2⟩
    obtain ⟨s, hs, _⟩ := C41_room true h st h1 h2
    exact ⟨s, hs⟩

/-- There is room for brackets of one kind only, however many there are: a thousand here. -/
example : (counts true (List.replicate 1000 (.push .map)) .new).toOption.map (fun s => (s.map, s.seq)) = some (1000, 0) := by
  decide +kernel

/-- C41, as far as it holds: the counters accept what a stack of brackets accepts, refuse what it refuses, and say what it
says, in any build, as long as there are never more than 91 brackets open. Deeper than that a history can be refused
although it is legal, and builds without overflow checks can accept one that is not (`C41_fails`). -/
theorem C41_partial (checks : Bool) (h : List Op) (hd : depth h [] ≤ 91) :
    (∀ st, reals h [] = some st → ∃ s, counts checks h .new = .ok s ∧ s.position = innermost st ∧ s.finish = st.isEmpty) ∧
    (reals h [] = none → ∃ s, counts checks h .new = .err () s) := by
  suffices ∀ st, depth h st ≤ 91 → (∀ st', reals h st = some st' → counts checks h (enc st) = .ok (enc st')) ∧
      (reals h st = none → ∃ s, counts checks h (enc st) = .err () s) by
    obtain ⟨h1, h2⟩ := this [] hd
    exact ⟨fun st hr => ⟨enc st, h1 st hr, enc_position st, enc_finish st⟩, h2⟩
  clear hd
  induction h with
  | nil => intro st _; refine ⟨fun st' h => ?_, fun h => ?_⟩ <;> cases h; rfl
  | cons o os ih =>
    intro st hd
    have hf := count_fits checks o st (by simp only [depth] at hd; omega)
    cases hr : o.real st with
    | none =>
      rw [hr] at hf
      obtain ⟨s', hf⟩ := hf
      simp [reals, hr, counts, hf, Res.bind]
    | some st' =>
      rw [hr] at hf
      have hd' : depth os st' ≤ 91 := by simp only [depth, hr] at hd; omega
      have hl : st'.length ≤ depth os st' := by cases os <;> simp only [depth] <;> omega
      simp only [reals, hr, counts, hf (by omega), Res.bind, Option.bind_some]
      exact ih st' hd'

example : depth [.push .map, .push .seq, .pop .map] [] = 2 ∧ reals [.push .map, .push .seq, .pop .map] [] = none ∧
    reals [.push .map, .push .seq, .pop .seq] [] = some [.map] := by decide +kernel

/-- C41 fails. Some legal history of 92 pushes is refused in every build, so 91 is as deep as `C41_partial` can be. Some
legal history of 102 pushes panics in builds with overflow checks; without them it leaves counters that name the wrong
bracket, and then the wrong bracket can be closed. -/
theorem C41_fails :
    (∀ checks, ∃ s, counts checks (pushes .seq (List.replicate 92 1)) .new = .err () s) ∧
    counts true (fill ++ [.push .map]) .new = .panic ∧
    (∃ s, counts false (fill ++ [.push .map]) .new = .ok s ∧ s.position = .seqElem) ∧
    (∃ st, reals (fill ++ [.push .map]) [] = some (.map :: st)) ∧
    (∃ s, counts false (fill ++ [.push .map, .pop .seq]) .new = .ok s) ∧
    reals (fill ++ [.push .map, .pop .seq]) [] = none := by
  have hok (r : Res Unit Stack) (h : r.toOption.isSome = true) : ∃ s, r = .ok s := by
    cases r with
    | ok s => exact ⟨s, rfl⟩
    | _ => cases h
  refine ⟨fun checks => ?_, by decide +kernel, ?_, ?_, hok _ (by decide +kernel), by decide +kernel⟩
  · cases checks
    · have h : counts false (pushes .seq (List.replicate 92 1)) .new = .err () ⟨7540113804746346428, 12200160415121876737⟩ := by
        decide +kernel
      exact ⟨_, h⟩
    · have h : counts true (pushes .seq (List.replicate 92 1)) .new = .err () ⟨7540113804746346428, 12200160415121876737⟩ := by
        decide +kernel
      exact ⟨_, h⟩
  · obtain ⟨s, hs⟩ := hok (counts false (fill ++ [.push .map]) .new) (by decide +kernel)
    refine ⟨s, hs, ?_⟩
    have : (counts false (fill ++ [.push .map]) .new).toOption.map Stack.position = some .seqElem := by decide +kernel
    rw [hs] at this
    exact Option.some.inj this
  · have h : (reals (fill ++ [.push .map]) []).bind List.head? = some .map := by decide +kernel
    cases hr : reals (fill ++ [.push .map]) [] with
    | none => rw [hr] at h; cases h
    | some st =>
      rw [hr] at h
      cases st with
      | nil => cases h
      | cons k st => cases h; exact ⟨st, rfl⟩

/-! ## C53: documents are read as what they are -/

/-- C53, as far as it holds: the calls made for a document are those of its value, if the text is `plain` and the
counters of the reader have `room` for its brackets. They have for every document nested no deeper than 91 (`C53_nesting`),
and for deeper ones with arrays only or objects only (`C53_arrays`). Text that is not `plain` panics (`C53_exact`), text
without room is refused if the build has overflow checks (`C53_checked`). -/
theorem C53_partial (checks : Bool) (j : Json.J) (t : Text) (h : Json.Doc j t) (hp : plain false t = true)
    (hl : room 0 0 j = true) :
    ∃ v, Tree j v ∧ ∀ (σ : Type) (S : Token → σ → Res Unit σ) (s : σ), stream checks S t s = drive S (valueOf v) s := by
  rcases read_doc checks j t h with ⟨v, _, h1, _, _, h3⟩ | ⟨h1, _⟩ | ⟨h1, _⟩
  · refine ⟨v, h1, fun σ S s => ?_⟩
    rw [valueOf, drive_ofToks, stream, h3]
    cases run S (toks v) s <;> rfl
  · rw [hp] at h1; cases h1
  · rw [hl] at h1; cases h1

/-- There is room for every document nested no deeper than 91. -/
theorem C53_nesting (j : Json.J) (h : nesting j ≤ 91) : room 0 0 j = true := nesting_room j [] (by simpa using h)

/-- What becomes of a document there is room for. -/
theorem C53_exact (checks : Bool) (j : Json.J) (t : Text) (h : Json.Doc j t) (hl : room 0 0 j = true) :
    ((read checks t).res = .ok () ↔ plain false t = true) ∧ ((read checks t).res = .panic ↔ plain false t = false) := by
  rcases read_doc checks j t h with ⟨v, _, _, h2, _, h3⟩ | ⟨h1, h2⟩ | ⟨h1, _⟩
  · simp [h2, h3]
  · simp [h1, h2]
  · rw [hl] at h1; cases h1

/-- What becomes of any document in builds with overflow checks: it is read if it is `plain` and there is room for it, and
then the calls are those of its value; the others are refused or panic. -/
theorem C53_checked (j : Json.J) (t : Text) (h : Json.Doc j t) :
    ((read true t).res = .ok () ↔ plain false t = true ∧ room 0 0 j = true) ∧
    ((read true t).res = .ok () → ∃ v, Tree j v ∧ (read true t).calls = toks v) := by
  rcases read_doc true j t h with ⟨v, h0, h1, h2, _, h3⟩ | ⟨h1, h2⟩ | ⟨h1, h2⟩
  · rw [h3]
    exact ⟨by simp [h0, h2], fun _ => ⟨v, h1, rfl⟩⟩
  · simp [h1, h2]
  · simp [h1, h2 rfl]

/-- What becomes of any document in any build: it is read if it is `plain` and the counters can hold it, and then the calls
are those of its value. The others are refused or panic: whatever the counters do, no document is read as another value. -/
theorem C53_builds (checks : Bool) (j : Json.J) (t : Text) (h : Json.Doc j t) :
    ((read checks t).res = .ok () ↔ plain false t = true ∧ holds checks 0 0 j = true) ∧
    ((read checks t).res = .ok () → ∃ v, Tree j v ∧ (read checks t).calls = toks v) := by
  rcases read_doc_exact checks j t h with ⟨v, h0, h1, h2, _, h3⟩ | ⟨h1, h2⟩ | ⟨h1, h2⟩
  · rw [h3]
    exact ⟨by simp [h0, h2], fun _ => ⟨v, h1, rfl⟩⟩
  · simp [h1, h2]
  · simp [h1, h2]

/-- The counters can hold what there is room for; with overflow checks nothing else. -/
theorem C53_holds (j : Json.J) : holds true 0 0 j = room 0 0 j ∧ (room 0 0 j = true → ∀ checks, holds checks 0 0 j = true) :=
  ⟨(holds_room true j 0 0).2, fun h checks => (holds_room checks j 0 0).1 h (by decide) (by decide)⟩

namespace Reader

/-- An empty array in this many others. -/
def arrays : Nat → Json.J
  | 0 => .arr []
  | n + 1 => .arr [arrays n]

end Reader

/-- There is room for arrays nested as deep as any memory allows. -/
theorem C53_arrays (n : Nat) (h : n < 2 ^ 64 - 1) : room 0 0 (arrays n) = true := by
  suffices ∀ k, k + n + 1 < 2 ^ 64 → room 0 k (arrays n) = true from this 0 (by omega)
  clear h
  induction n with
  | zero => intro k h; simp only [arrays, room, rooms, Bool.and_true, decide_eq_true_eq]; omega
  | succ n ih =>
    intro k h
    simp only [arrays, room, rooms, Bool.and_true, Bool.and_eq_true, decide_eq_true_eq]
    exact ⟨by omega, ih _ (by omega)⟩

/-- A document. -/
def readSample : Text := t! " {\"a\": [1, -2.5e3, \"x\\ny\"], \"\": {}, \"b\": [[], null, true]} "

example : (Json.parse readSample).isSome = true ∧ plain false readSample = true ∧
    (Json.parse readSample).map nesting = some 3 ∧ (Json.parse readSample).map (room 0 0) = some true := by decide +kernel

/-- What it is read as. -/
def readSampleV : V :=
  .map none [
    (.text none [.borrowed (t! "a")], .seq none [numV (t! "1"), numV (t! "-2.5e3"),
      .text none [.borrowed (t! "x"), .borrowed (t! "\n"), .borrowed (t! "y")]]),
    (.text none [.borrowed []], .map none []),
    (.text none [.borrowed (t! "b")], .seq none [.seq none [], .null, .bool true])]

example : (read true readSample).calls = toks readSampleV ∧ (read true readSample).res = .ok () := by decide +kernel

namespace Reader

/-- The text of brackets opened. -/
def opening : List Op → Text
  | [] => []
  | .push .seq :: os => '[' :: opening os
  | .push .map :: os => (t! "{\"\":") ++ opening os
  | _ :: os => opening os

/-- The text of the same brackets closed. -/
def closing (os : List Op) : Text :=
  (os.map fun o => if o = .push .seq then ']' else '}').reverse

/-- An object in 91 arrays and objects in turn. -/
def deep : Text := opening (pushes .seq (List.replicate 91 1)) ++ (t! "{}") ++ closing (pushes .seq (List.replicate 91 1))

end Reader

/-- C53 fails: there are documents the reader panics on, for an escape or an exponent, and documents it refuses. The last
one is nested 92 deep, so 91 in `C53_nesting` is the best possible. -/
theorem C53_fails (checks : Bool) :
    (∃ j, Json.Doc j (t! "\"\\t\"") ∧ (read checks (t! "\"\\t\"")).res = .panic) ∧
    (∃ j, Json.Doc j (t! "1E5") ∧ (read checks (t! "1E5")).res = .panic) ∧
    (∃ j, Json.Doc j deep ∧ nesting j = 92 ∧ plain false deep = true ∧ (read checks deep).res = .err) := by
  have hj (t : Text) (h : (Json.parse t).isSome = true) : ∃ j, Json.Doc j t := by
    obtain ⟨j, hj⟩ := Option.isSome_iff_exists.1 h
    exact ⟨j, (Json.parse_iff j t).1 hj⟩
  refine ⟨?_, ?_, ?_⟩
  · obtain ⟨j, h⟩ := hj (t! "\"\\t\"") (by decide +kernel)
    exact ⟨j, h, by cases checks <;> decide +kernel⟩
  · obtain ⟨j, h⟩ := hj (t! "1E5") (by decide +kernel)
    exact ⟨j, h, by cases checks <;> decide +kernel⟩
  · obtain ⟨j, h⟩ := hj deep (by decide +kernel)
    have hn : (Json.parse deep).map nesting = some 92 := by decide +kernel
    rw [(Json.parse_iff j deep).2 h] at hn
    exact ⟨j, h, Option.some.inj hn, by decide +kernel, by cases checks <;> decide +kernel⟩

/-- Without overflow checks the counters hold an object with nothing but `1` in it where there is no room for one, but no
array, and no object in an object; with checks none of them. -/
example :
    let inside (x : Text) := opening fill ++ x ++ closing fill
    (read false (inside (t! "{\"a\":1}"))).res = .ok () ∧ (read false (inside (t! "{\"a\":{}}"))).res = .panic ∧
    (read false (inside (t! "[]"))).res = .err ∧ (read true (inside (t! "{\"a\":1}"))).res = .panic ∧
    ((Json.parse (inside (t! "{\"a\":1}"))).map fun j => (room 0 0 j, holds true 0 0 j, holds false 0 0 j)) = some (false, false, true) ∧
    ((Json.parse (inside (t! "{\"a\":{}}"))).map fun j => (room 0 0 j, holds false 0 0 j)) = some (false, false) := by
  decide +kernel

/-! ## C54: reading ends -/

/-- C54: on any text the loop ends, within one round for each character and one more. -/
theorem C54 (checks : Bool) (t : Text) :
    ∃ x, loop checks (t.length + 1) (St.new t) = some x ∧ ∀ n, t.length < n → loop checks n (St.new t) = some x :=
  loop_ends checks (St.new t) (t.length + 1) (Nat.lt_succ_self _)

/-- Each round but the last one moves on. -/
theorem C54_moves (checks : Bool) (s s' : St) (h : (resume checks s).res = .ok (true, s')) : s'.rest.length < s.rest.length :=
  resume_rest checks h

example : ((loop true 5 (St.new (t! "[1 2"))).map Act.res) = some .err := by decide +kernel

/-! ## C55: text that is not a document -/

/-- C55, as far as it holds: whatever the text, brackets are closed in the order they were opened, and if reading succeeds
all of them are closed. For builds without overflow checks this is for text with no more than 91 brackets (see
`C55_fails`). Missing: text that is not JSON otherwise can be accepted, or panic; `C55_exact` in `Props/ReaderLoose.lean` says which. -/
theorem C55_partial (checks : Bool) (t : Text) (h : checks = true ∨ opens t ≤ 91) :
    ∃ st, reals ((read checks t).calls.filterMap bracket) [] = some st ∧ ((read checks t).res = .ok () → st = []) := by
  obtain ⟨st, h1, h2⟩ := legal_read t h
  exact ⟨st, h1, fun h => h2 () h⟩

example : opens (t! "[{\"a\": [1 2]}, 3 {}]") = 4 ∧ (read false (t! "[{\"a\": [1 2]}, 3 {}]")).res = .ok () := by decide +kernel

namespace Reader

/-- Text in which an object is never closed. -/
def open1 : Text := opening fill ++ (t! "{\"\":{}") ++ closing fill

end Reader

/-- C55 fails: text that is not JSON is accepted, or panics; without overflow checks even brackets that do not match are
accepted. -/
theorem C55_fails :
    (∀ checks, ∀ t ∈ [t! "", t! "[1 2]", t! "[1,]", t! "\"abc", t! "1 2", t! "01-", t! "[{} {}]"],
      (∀ j, ¬ Json.Doc j t) ∧ (read checks t).res = .ok ()) ∧
    (∀ checks, ∀ t ∈ [t! "x", t! "}", t! "nul", t! "[}", t! "{{}}", t! "{[]:1}", t! "{1:2}", t! "{\"a\" 1}", t! "[1:2]", t! "1,2"], (∀ j, ¬ Json.Doc j t) ∧ (read checks t).res = .panic) ∧
    (read false open1).res = .ok () ∧ reals ((read false open1).calls.filterMap bracket) [] = none := by
  have hj (t : Text) (h : Json.parse t = none) (j : Json.J) : ¬ Json.Doc j t := by
    intro hd
    rw [(Json.parse_iff j t).2 hd] at h
    cases h
  refine ⟨fun checks t ht => ⟨?_, ?_⟩, fun checks t ht => ⟨?_, ?_⟩, by decide +kernel, by decide +kernel⟩
  · exact hj t (by revert t; decide +kernel)
  · revert t; cases checks <;> decide +kernel
  · exact hj t (by revert t; decide +kernel)
  · revert t; cases checks <;> decide +kernel

/-! ## C56: read and write -/

/-- C56, as far as it holds: a document read and written by the JSON formatter is the same document. Where reading itself
fails see `C53_exact`. -/
theorem C56_partial (checks : Bool) (env : Json.Env) (j : Json.J) (t : Text) (h : Json.Doc j t) (hp : plain false t = true)
    (hl : room 0 0 j = true) :
    ∃ s, stream checks (Json.call Json.strWriter env) t { out := [] } = .done true s ∧ Json.Doc j s.out := by
  obtain ⟨v, h1, h2⟩ := C53_partial checks j t h hp hl
  obtain ⟨v', a1, a2, a3, _, _⟩ := same_tree env j v h1
  obtain ⟨u, s, b1, b2, b3⟩ := Json.run_value env v' j a2 a3
  refine ⟨s, ?_, b2 ▸ b3⟩
  rw [h2, valueOf, drive_ofToks, a1, b1]
  rfl

example (env : Json.Env) : (run (Json.call Json.strWriter env) (read false readSample).calls { out := [] }).toOption.map Json.St.out =
    some (t! "{\"a\":[1,-2.5e3,\"x\\ny\"],\"\":{},\"b\":[[],null,true]}") := by
  rfl

/-! ## C65: the text of a document that is read and written -/

/-- C65, as far as it holds: reading a document and writing it with the JSON formatter gives its text without the
whitespace between its parts, and the same every further time.

Missing: the documents that cannot be read, see `C53_exact` and `C53_fails`. -/
theorem C65_partial (checks : Bool) (env : Json.Env) (j : Json.J) (t : Text) (h : Json.Doc j t) (hp : plain false t = true)
    (hl : room 0 0 j = true) :
    (∃ s, stream checks (Json.call Json.strWriter env) t { out := [] } = .done true s ∧ s.out = squeeze false t) ∧
    (∃ s, stream checks (Json.call Json.strWriter env) (squeeze false t) { out := [] } = .done true s ∧ s.out = squeeze false t) := by
  have key : ∀ t, Json.Doc j t → plain false t = true →
      ∃ s, stream checks (Json.call Json.strWriter env) t { out := [] } = .done true s ∧ s.out = squeeze false t := by
    intro t h hp
    rcases read_doc checks j t h with ⟨v, _, h1, _, hq, h3⟩ | ⟨h1, _⟩ | ⟨h1, _⟩
    · obtain ⟨v', a1, a2, a3, _, a5⟩ := same_tree env j v h1
      obtain ⟨s, b1, b2⟩ := Json.run_text env v' j a2 a3
      refine ⟨s, ?_, by rw [b2, a5, hq]⟩
      have : run (Json.call Json.strWriter env) (toks v) { out := [] } = .ok s := by rw [a1, b1]
      simp only [stream, h3, this]
    · rw [hp] at h1; cases h1
    · rw [hl] at h1; cases h1
  refine ⟨key t h hp, ?_⟩
  obtain ⟨s, h1, h2⟩ := key t h hp
  obtain ⟨s', h1', h2'⟩ := C56_partial checks env j t h hp hl
  rw [h1] at h1'
  cases h1'
  rw [h2] at h2'
  have := key _ h2' (by rw [plain_squeeze, hp])
  rwa [squeeze_idem] at this

/-- C65 for the output of the formatter: what it writes for a value (of those `C63_partial` is about) comes out the same
when it is read and written again, if no JSON is copied into it. What can be read is stated of the text, see
`C53_exact`. -/
theorem C65_value_partial (checks : Bool) (env : Json.Env) (v : V) (j : Json.J) (hj : Json.value env v = some j)
    (hs : Json.safe v = true) (hr : noRaw v = true) (t : Text) (ht : Json.toString env (valueOf v) = some t)
    (hp : plain false t = true) (hl : room 0 0 j = true) :
    ∃ s, stream checks (Json.call Json.strWriter env) t { out := [] } = .done true s ∧ s.out = t := by
  obtain ⟨s, b1, b2⟩ := Json.run_text env v j hj hs
  obtain ⟨u, s', c1, c2, c3⟩ := Json.run_value env v j hj hs
  rw [b1] at c1
  cases c1
  rw [valueOf, Json.toString_eq, b1] at ht
  cases ht
  obtain ⟨⟨s', d1, d2⟩, _⟩ := C65_partial checks env j s.out (c2 ▸ c3) hp hl
  refine ⟨s', d1, ?_⟩
  rw [d2, b2]
  exact squeeze_valueT env v j hj hs hr

example : squeeze false readSample = t! "{\"a\":[1,-2.5e3,\"x\\ny\"],\"\":{},\"b\":[[],null,true]}" := by decide +kernel

/-- A value with a key that is a number, text to be escaped, and an enum variant. -/
def rewritten : V := .map none
  [(.int .u8 1, .text none [.borrowed (t! "a \" b"), .computed (t! "\n")]),
   (.text none [.computed (t! "k k")], .enum {} (.tagged { label := some (Label.new (t! "V")) } (.seq (some 2) [.null, .bool true])))]

example (env : Json.Env) : (Json.value env rewritten).map (room 0 0) = some true ∧ Json.safe rewritten = true ∧ noRaw rewritten = true ∧
    Json.toString env (valueOf rewritten) = some (t! "{\"1\":\"a \\\" b\\n\",\"k k\":{\"V\":[null,true]}}") ∧
    plain false (t! "{\"1\":\"a \\\" b\\n\",\"k k\":{\"V\":[null,true]}}") = true := by
  refine ⟨rfl, by decide +kernel, by decide +kernel, ?_, by decide +kernel⟩
  rw [valueOf, Json.toString_eq]
  rfl

/-- Without the condition on copied JSON it is false: the whitespace in it is lost. -/
theorem C65_fails (checks : Bool) (env : Json.Env) : ∃ v t s, Json.safe v = true ∧ (Json.value env v).isSome = true ∧
    Json.toString env (valueOf v) = some t ∧
    stream checks (Json.call Json.strWriter env) t { out := [] } = .done true s ∧ s.out ≠ t := by
  have hj : (Json.parse (t! "[ ]")).isSome = true := by decide +kernel
  obtain ⟨j, hj⟩ := Option.isSome_iff_exists.1 hj
  have hn : (Json.parse (t! "[ ]")).map (room 0 0) = some true := by decide +kernel
  rw [hj] at hn
  have hn : room 0 0 j = true := by simpa using hn
  obtain ⟨⟨s, h1, h2⟩, _⟩ := C65_partial checks env j (t! "[ ]") ((Json.parse_iff j _).1 hj) (by decide +kernel) hn
  refine ⟨.tagged { tag := some tags.JSON_VALUE } (.text none [.borrowed (t! "[ ]")]), t! "[ ]", s, by decide +kernel,
    by show (Json.parse (t! "[ ]")).isSome = true; rw [hj]; rfl, ?_, h1, by rw [h2]; decide +kernel⟩
  rw [valueOf, Json.toString_eq]
  rfl

end Sval
