import Verif.Json.Inv

set_option autoImplicit false

/-!
# How text is split does not matter

`join v` is `v` with every text and every binary in one piece, except what is tagged NUMBER and is not a number, or is
one of the numbers the formatter gets wrong.
-/

namespace Sval.Json

/-- Text that is a number, and not one of those the formatter gets wrong. -/
def numOk (v : V) : Bool :=
  match textOf v with
  | some t => (numberKey t).isSome && !zeroExp t
  | none => false

mutual
def join : V → V
  | .text _ fs => .text none [.computed (fragsText fs)]
  | .binary _ fs => .binary none [.computed (fragsBytes fs)]
  | .seq n xs => .seq n (joins xs)
  | .map n kvs => .map n (joinKVs kvs)
  | .tagged m v => if m.tag = some tags.NUMBER && !numOk v then .tagged m v else .tagged m (join v)
  | .enum m v => .enum m (join v)
  | .record m n fs => .record m n (joinRec fs)
  | .tuple m n fs => .tuple m n (joinTup fs)
  | .recordTuple m n fs => .recordTuple m n (joinRT fs)
  | .hint t v => .hint t (join v)
  | v => v
def joins : List V → List V
  | [] => []
  | x :: xs => join x :: joins xs
def joinKVs : List (V × V) → List (V × V)
  | [] => []
  | (k, v) :: r => (join k, join v) :: joinKVs r
def joinRec : List (Option Tag × Label × V) → List (Option Tag × Label × V)
  | [] => []
  | (t, l, v) :: r => (t, l, join v) :: joinRec r
def joinTup : List (Option Tag × Index × V) → List (Option Tag × Index × V)
  | [] => []
  | (t, i, v) :: r => (t, i, join v) :: joinTup r
def joinRT : List (Option Tag × Label × Index × V) → List (Option Tag × Label × Index × V)
  | [] => []
  | (t, l, i, v) :: r => (t, l, i, join v) :: joinRT r
end

variable (env : Env)

/-- The same effect, outside of numbers. -/
def Same (ts ts' : List Token) : Prop := ∀ s : St Text, notNum s →
  run (call strWriter env) ts' s = run (call strWriter env) ts s ∧
    ∀ s', run (call strWriter env) ts s = .ok s' → notNum s'

variable {env}

theorem Same.app {a a' b b' : List Token} (h : Same env a a') (h' : Same env b b') : Same env (a ++ b) (a' ++ b') := by
  intro s hs
  obtain ⟨h1, h2⟩ := h s hs
  rw [run_append, run_append, h1]
  cases hr : run (call strWriter env) a s with
  | ok s1 => exact h' s1 (h2 s1 hr)
  | err e s1 => exact ⟨rfl, fun s' h => by cases h⟩
  | panic => exact ⟨rfl, fun s' h => by cases h⟩

theorem Same.nil : Same env [] [] := fun s hs => ⟨rfl, fun s' h => by cases h; exact hs⟩

theorem Same.one (t : Token) (h : ∀ m, t = .taggedBegin m → m.tag ≠ some tags.NUMBER) : Same env [t] [t] := by
  intro s hs
  refine ⟨rfl, fun s' hr => ?_⟩
  rw [run_cons, Res.bind_run_nil] at hr
  exact ((notNum_closed strWriter).call env t fun m hm hn => absurd hn (h m hm)).okR hr hs

theorem Same.cons {a a' : List Token} (t : Token) (h : ∀ m, t = .taggedBegin m → m.tag ≠ some tags.NUMBER)
    (h' : Same env a a') : Same env (t :: a) (t :: a') := Same.app (Same.one t h) h'

theorem Same.frags (fs gs : List (Frag Text)) (h : fragsText fs = fragsText gs) :
    Same env (fs.map textFragTok) (gs.map textFragTok) := by
  intro s hs
  cases hh : s.handler with
  | none =>
    rw [run_frags_plain env fs s hh, run_frags_plain env gs s hh, h]
    exact ⟨rfl, fun s' h => by cases h; intro n; simp [hh]⟩
  | some x =>
    cases x with
    | native =>
      rw [run_frags_native env fs s hh, run_frags_native env gs s hh, h]
      exact ⟨rfl, fun s' h => by cases h; intro n; simp [hh]⟩
    | number n => exact absurd hh (hs n)

theorem taggedEnd_notNum (m : Meta) (hm : m.tag = some tags.NUMBER) (s s' : St Text)
    (h : call strWriter env (.taggedEnd m) s = .ok s') : notNum s' := by
  rw [call_one env _ _ rfl] at h
  simp only [step, taggedEnd, hm, Option.some.injEq, show ¬ tags.NUMBER = tags.JSON_TEXT by decide,
    show ¬ tags.NUMBER = tags.JSON_VALUE by decide, if_false, if_true] at h
  have c := notNum_closed (ω := Text) strWriter
  have key : Pres (fun s s' : St Text => notNum s → notNum s')
      (fun s => (if s.empty then tagStep strWriter m s else .ok s).bind fun s => tagEnd m s) :=
    .bind c.trans (.ite (fun s : St Text => s.empty = true) (c.tagStep m) c.skip) (c.tagEnd m)
  have h0 : notNum { s with quoted := true, handler := none } := by intro n; simp
  cases hh : s.handler with
  | none => rw [hh] at h; exact key.okR h h0
  | some x =>
    cases x with
    | native => rw [hh] at h; exact key.okR h h0
    | number n =>
      rw [hh] at h
      simp only [wr, numEnd, strWriter] at h
      cases ha : n.atStart
      · rw [ha] at h; exact key.okR h h0
      · rw [ha] at h
        exact key.okR (s := ⟨s.tagged, s.empty, true, none, s.badKey, s.out ++ ['0']⟩) h (by intro n; simp)

/-- What the handler makes of a number does not depend on how it is split. -/
theorem number_split {t u : Text} (h : numberKey t = some u) (hz : zeroExp t = false) :
    ∃ (z : Bool) (p : Text), ∀ (fs : List Text) (o : Text), fs.flatten = t →
      ∃ st : NumSt, numFrags strWriter fs ({}, o) = .ok (st, o ++ p) ∧ st.atStart = z := by
  unfold numberKey at h
  split at h
  · rename_i n hn
    obtain ⟨h1, h2⟩ := pNumber_sound hn
    have hz' : ¬ n.ZeroExp := by rw [← zeroExp_iff hn, hz]; simp
    obtain ⟨h3, _⟩ := Num.norm_spec n h1 hz'
    refine ⟨(after {} n.text).atStart, emits {} n.text, fun fs o hf => ⟨after {} n.text, ?_, rfl⟩⟩
    have := numFrags_clean fs {} o rfl (by rw [hf, ← h2]; exact h3)
    rwa [hf, ← h2] at this
  · split at h
    · rename_i hn
      obtain ⟨a, c, r, h1, h2, h3⟩ := isNan_split hn
      refine ⟨false, t! "null", fun fs o hf => ?_⟩
      obtain ⟨st, h4, h5⟩ := numFrags_special fs a r c h2 h3 (hf.trans h1) {} o rfl rfl
      exact ⟨st, h5, h4⟩
    · cases h

theorem taggedBegin_handler (m : Meta) (hm : m.tag = some tags.NUMBER) (s s1 : St Text) (hs : notNum s)
    (h : call strWriter env (.taggedBegin m) s = .ok s1) : s1.handler = some (.number {}) ∨ s1.handler = some .native := by
  rw [call_one env _ _ rfl] at h
  simp only [step, taggedBegin, hm, Option.some.injEq, show ¬ tags.NUMBER = tags.JSON_TEXT by decide,
    show ¬ tags.NUMBER = tags.JSON_VALUE by decide, if_false, if_true] at h
  have key (s s1 : St Text) (h : (tagBegin strWriter m s).bind (fun s => .ok { s with empty := true }) = .ok s1) :
      s1.handler = s.handler := by
    obtain ⟨tg, em, q, hd, bk, o⟩ := s
    unfold tagBegin at h
    cases tg
    · simp only [Bool.false_eq_true, if_false, Res.bind] at h
      cases h; rfl
    · simp only [if_true] at h
      split at h
      · cases q <;> simp [tagMapBeginLabel, mapBegin, mapKeyBegin, mapKeyEnd, wr, strWriter, Res.bind, escapeStr_str] at h
        cases h; rfl
      · split at h
        · cases q <;> simp [tagMapBeginIndex, mapBegin, mapKeyBegin, mapKeyEnd, scalar, wr, strWriter, Res.bind] at h
          cases h; rfl
        · cases h; rfl
  rw [key _ _ h]
  cases hh : s.handler with
  | none => left; rfl
  | some x =>
    cases x with
    | native => right; rfl
    | number n => exact absurd hh (hs n)

theorem text_number (n : Option Nat) (fs : List (Frag Text)) (tg em q bk : Bool) (o : Text) (st : NumSt) (o' : Text)
    (h : numFrags strWriter (fs.map Frag.content) ({}, if q then o ++ ['"'] else o) = .ok (st, o')) :
    run (call strWriter env) (toks (.text n fs)) ⟨tg, em, q, some (.number {}), bk, o⟩ =
      .ok ⟨tg, false, q, some (.number st), bk, if q then o' ++ ['"'] else o'⟩ := by
  simp only [toks, run_cons]
  rw [call_one env _ _ rfl]
  cases q
  · simp only [step, textBegin, Bool.false_eq_true, if_false, Res.bind]
    simp only [Bool.false_eq_true, if_false] at h
    rw [run_append, run_number' env fs _ _ _ _ _ _ _ _ h]
    simp only [run_cons, run_nil, Res.bind]
    rw [call_one env _ _ rfl]
    simp only [step, textEnd, Bool.false_eq_true, if_false]
  · simp only [step, textBegin, if_true, Res.bind, wr_str]
    simp only [if_true] at h
    rw [run_append, run_number' env fs _ _ _ _ _ _ _ _ h]
    simp only [run_cons, run_nil, Res.bind]
    rw [call_one env _ _ rfl]
    simp only [step, textEnd, if_true, wr_str]

theorem text_native (n : Option Nat) (fs : List (Frag Text)) (tg em q bk : Bool) (o : Text) :
    run (call strWriter env) (toks (.text n fs)) ⟨tg, em, q, some .native, bk, o⟩ =
      .ok ⟨tg, false, q, some .native, bk, o ++ quote q (fragsText fs)⟩ := by
  simp only [toks, run_cons]
  rw [call_one env _ _ rfl]
  cases q
  · simp only [step, textBegin, Bool.false_eq_true, if_false, Res.bind]
    rw [run_append, run_native']
    simp only [run_cons, run_nil, Res.bind]
    rw [call_one env _ _ rfl]
    simp only [step, textEnd, Bool.false_eq_true, if_false, quote]
  · simp only [step, textBegin, if_true, Res.bind, wr_str]
    rw [run_append, run_native']
    simp only [run_cons, run_nil, Res.bind]
    rw [call_one env _ _ rfl]
    simp [step, textEnd, wr_str, quote]

/-- A number that is split differently, outside of numbers. -/
theorem number_same (m : Meta) (v v' : V) (t : Text) (hm : m.tag = some tags.NUMBER) (ht : textOf v = some t)
    (ht' : textOf v' = some t) (hv : numOk v = true) (s : St Text) (hs : notNum s) :
    run (call strWriter env) (toks (.tagged m v')) s = run (call strWriter env) (toks (.tagged m v)) s := by
  simp only [numOk, ht, Bool.and_eq_true, Bool.not_eq_true', Option.isSome_iff_exists] at hv
  obtain ⟨⟨u, hu⟩, hz⟩ := hv
  obtain ⟨z, p, hz⟩ := number_split hu hz
  obtain ⟨n, fs, hf, hr⟩ := textOf_run env ht
  obtain ⟨n', fs', hf', hr'⟩ := textOf_run env ht'
  simp only [toks, run_cons]
  cases hb : call strWriter env (.taggedBegin m) s with
  | ok s1 =>
    simp only [Res.bind]
    rw [run_append, run_append, hr, hr']
    have hd := taggedBegin_handler m hm s s1 hs hb
    have hfl : (fs.map Frag.content).flatten = t := hf
    have hfl' : (fs'.map Frag.content).flatten = t := hf'
    obtain ⟨tg, em, q, hd1, bk, o⟩ := s1
    rcases hd with hd | hd
    · have hd : hd1 = some (.number {}) := hd
      subst hd
      obtain ⟨st, a1, a2⟩ := hz (fs.map Frag.content) (if q then o ++ ['"'] else o) hfl
      obtain ⟨st', b1, b2⟩ := hz (fs'.map Frag.content) (if q then o ++ ['"'] else o) hfl'
      rw [text_number n fs tg em q bk o _ _ a1, text_number n' fs' tg em q bk o _ _ b1]
      simp only [Res.bind, run_cons, run_nil]
      rw [call_one env _ _ rfl, call_one env _ _ rfl]
      simp only [step, taggedEnd, hm, Option.some.injEq, show ¬ tags.NUMBER = tags.JSON_TEXT by decide,
        show ¬ tags.NUMBER = tags.JSON_VALUE by decide, if_false, if_true, wr, numEnd, a2, b2]
    · have hd : hd1 = some .native := hd
      subst hd
      rw [text_native n fs, text_native n' fs', hf, hf']
  | err e s1 => rfl
  | panic => rfl

theorem textOf_join (v : V) (t : Text) (h : textOf v = some t) : textOf (join v) = some t := by
  induction v using V.ind with
  | text n fs => cases h; simp [join, textOf, fragsText, Frag.content]
  | hint tg v ih => exact ih h
  | _ => cases h

theorem binary_join (n : Option Nat) (fs : List (Frag Bytes)) (s : St Text) :
    run (call strWriter env) (toks (.binary none [.computed (fragsBytes fs)])) s = run (call strWriter env) (toks (.binary n fs)) s := by
  rw [binary_run, binary_run]
  have : fragsBytes [Frag.computed (fragsBytes fs)] = fragsBytes fs := by simp [fragsBytes, Frag.content]
  rw [this]
  rfl

theorem toks_notNum (ts : List Token) (h : ∀ m, .taggedBegin m ∈ ts → m.tag ≠ some tags.NUMBER) : Same env ts ts := by
  induction ts with
  | nil => exact .nil
  | cons t ts ih =>
    exact .cons t (fun m hm => h m (by simp [hm])) (ih fun m hm => h m (by simp [hm]))

theorem same_join (v : V) : Same env (toks v) (toks (join v)) := by
  have other : ∀ t : Token, (∀ m, t ≠ .taggedBegin m) → ∀ m, t = .taggedBegin m → m.tag ≠ some tags.NUMBER :=
    fun t h m hm => absurd hm (h m)
  induction v using V.ind with
  | null => exact .one _ (by simp)
  | bool b => exact .one _ (by simp)
  | int t v => exact .one _ (by simp)
  | f32 b => exact .one _ (by simp)
  | f64 b => exact .one _ (by simp)
  | tag m => exact .one _ (by simp)
  | text n fs =>
    have hb : Same env [.textBegin n] [.textBegin none] := fun s hs => Same.one (.textBegin n) (by simp) s hs
    exact .app hb (.app (Same.frags fs [.computed (fragsText fs)] (by simp [fragsText, Frag.content])) (.one _ (by simp)))
  | binary n fs =>
    intro s hs
    refine ⟨binary_join n fs s, ?_⟩
    refine (toks_notNum (toks (.binary n fs)) (fun m hm => ?_) s hs).2
    simp only [toks, List.mem_cons, List.mem_append, List.mem_map] at hm
    rcases hm with h | ⟨f, _, h⟩ | h | h
    · cases h
    · cases f <;> cases h
    · cases h
    · cases h
  | seq n xs ih =>
    have : Same env (toksSeq xs) (toksSeq (joins xs)) := by
      induction xs with
      | nil => exact .nil
      | cons x xs ihx =>
        exact .cons _ (by simp) (.app (ih x (by simp)) (.cons _ (by simp) (ihx fun y hy => ih y (by simp [hy]))))
    exact .cons _ (by simp) (.app this (.one _ (by simp)))
  | map n kvs ih =>
    have : Same env (toksMap kvs) (toksMap (joinKVs kvs)) := by
      induction kvs with
      | nil => exact .nil
      | cons kv kvs ihx =>
        exact .cons _ (by simp) (.app (ih kv (by simp)).1 (.cons _ (by simp) (.cons _ (by simp)
          (.app (ih kv (by simp)).2 (.cons _ (by simp) (ihx fun y hy => ih y (by simp [hy])))))))
    exact .cons _ (by simp) (.app this (.one _ (by simp)))
  | record m n fs ih =>
    have : Same env (toksRec fs) (toksRec (joinRec fs)) := by
      induction fs with
      | nil => exact .nil
      | cons f fs ihx =>
        exact .cons _ (by simp) (.app (ih f (by simp)) (.cons _ (by simp) (ihx fun y hy => ih y (by simp [hy]))))
    exact .cons _ (by simp) (.app this (.one _ (by simp)))
  | tuple m n fs ih =>
    have : Same env (toksTup fs) (toksTup (joinTup fs)) := by
      induction fs with
      | nil => exact .nil
      | cons f fs ihx =>
        exact .cons _ (by simp) (.app (ih f (by simp)) (.cons _ (by simp) (ihx fun y hy => ih y (by simp [hy]))))
    exact .cons _ (by simp) (.app this (.one _ (by simp)))
  | recordTuple m n fs ih =>
    have : Same env (toksRT fs) (toksRT (joinRT fs)) := by
      induction fs with
      | nil => exact .nil
      | cons f fs ihx =>
        exact .cons _ (by simp) (.app (ih f (by simp)) (.cons _ (by simp) (ihx fun y hy => ih y (by simp [hy]))))
    exact .cons _ (by simp) (.app this (.one _ (by simp)))
  | enum m v ih => exact .cons _ (by simp) (.app ih (.one _ (by simp)))
  | hint t v ih => exact .cons _ (by simp) ih
  | tagged m v ih =>
    by_cases hm : m.tag = some tags.NUMBER
    · intro s hs
      constructor
      · rw [join]
        split
        · rfl
        · rename_i hn
          simp only [hm, decide_true, Bool.true_and, Bool.not_eq_true', Bool.not_eq_false] at hn
          cases ht : textOf v with
          | none => simp [numOk, ht] at hn
          | some t => exact number_same m v (join v) t hm ht (textOf_join v t ht) hn s hs
      · intro s' hr
        have : toks (.tagged m v) = (.taggedBegin m :: toks v) ++ [.taggedEnd m] := by simp [toks]
        rw [this, run_append] at hr
        cases h1 : run (call strWriter env) (.taggedBegin m :: toks v) s with
        | ok s1 =>
          rw [h1] at hr
          have hr : run (call strWriter env) [.taggedEnd m] s1 = .ok s' := hr
          rw [run_cons, Res.bind_run_nil] at hr
          exact taggedEnd_notNum m hm s1 s' hr
        | err e s1 => rw [h1] at hr; cases hr
        | panic => rw [h1] at hr; cases hr
    · rw [join, if_neg (by simp [hm])]
      exact .cons _ (fun m' h => by cases h; exact hm) (.app ih (.one _ (by simp)))

/-- Runs that agree end alike. -/
theorem toFmt_congr (ts ts' : List Token) (h : run (call strWriter env) ts { out := [] } = run (call strWriter env) ts' { out := [] }) :
    toString env (Prog.ofToks ts) = toString env (Prog.ofToks ts') ∧
      (toFmt strWriter env (Prog.ofToks ts) []).1 = (toFmt strWriter env (Prog.ofToks ts') []).1 := by
  refine ⟨by rw [toString_eq, toString_eq, h], ?_⟩
  cases hr : run (call strWriter env) ts' { out := [] } with
  | ok s => rw [toFmt_ok _ _ _ _ _ hr, toFmt_ok _ _ _ _ _ (h.trans hr)]
  | err e s => rw [toFmt_err _ _ _ _ _ hr, toFmt_err _ _ _ _ _ (h.trans hr)]
  | panic => rw [toFmt_panic _ _ _ _ hr, toFmt_panic _ _ _ _ (h.trans hr)]

end Sval.Json
