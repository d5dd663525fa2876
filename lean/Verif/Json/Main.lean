import Verif.Json.Run
import Verif.Json.Text

set_option autoImplicit false

/-!
# The formatter writes what `value` says
-/

namespace Sval.Json

variable (env : Env)

/-! ## Texts -/

theorem Doc.val {j : J} {t : Text} (h : Val j t) : Doc j t := ⟨[], t, [], rfl, h, rfl, by simp⟩

/-- Further elements. -/
def Tail : List J → Text → Prop
  | [], t => t = []
  | x :: xs, t => ∃ r, t = ',' :: r ∧ Elems (x :: xs) r

def MTail : List (Text × J) → Text → Prop
  | [], t => t = []
  | x :: xs, t => ∃ r, t = ',' :: r ∧ Members (x :: xs) r

theorem elems_cons {x : J} {xs : List J} {t r : Text} (h : Doc x t) (h' : Tail xs r) : Elems (x :: xs) (t ++ r) := by
  obtain ⟨w, u, w', h1, h2, h3, rfl⟩ := h
  cases xs with
  | nil =>
    simp only [Tail] at h'
    subst h'
    exact ⟨w, u, w', h1, h2, h3, by simp⟩
  | cons y ys =>
    obtain ⟨r', rfl, h'⟩ := h'
    exact ⟨w, u, w', r', h1, h2, h3, h', by simp⟩

/-- Further pieces. -/
def tails (ts : List Text) : Text := ts.flatMap (',' :: ·)

theorem commas_cons (t : Text) (ts : List Text) : commas (t :: ts) = t ++ tails ts := by
  induction ts generalizing t with
  | nil => simp [commas, tails]
  | cons u ts ih => rw [commas, ih]; · simp [tails]
                    · simp

theorem members_cons {k k' : Text} {x : J} {xs : List (Text × J)} {t r : Text} (hk : StrLit k' k) (h : Doc x t)
    (h' : MTail xs r) : Members ((k, x) :: xs) (keyLit k' ++ (t ++ r)) := by
  obtain ⟨w, u, w', h1, h2, h3, rfl⟩ := h
  cases xs with
  | nil =>
    simp only [MTail] at h'
    subst h'
    exact ⟨[], k', [], w, u, w', rfl, hk, rfl, h1, h2, h3, by simp [keyLit]⟩
  | cons y ys =>
    obtain ⟨r', rfl, h'⟩ := h'
    exact ⟨[], k', [], w, u, w', r', rfl, hk, rfl, h1, h2, h3, h', by simp [keyLit]⟩

theorem doc_wrap {k k' : Text} {j : J} {t : Text} (hk : StrLit k' k) (h : Doc j t) :
    Doc (.obj [(k, j)]) (('{' :: keyLit k') ++ (t ++ ['}'])) := by
  refine .val ⟨keyLit k' ++ (t ++ []), members_cons hk h rfl, by simp⟩

/-! ## Names -/

theorem tagBegin_skip (m : Meta) (s : St Text) (h : s.tagged = false ∨ idOf m = none) :
    tagBegin strWriter m s = .ok { s with tagged := false } := by
  obtain ⟨tg, em, q, hd, bk, o⟩ := s
  cases tg with
  | false => rfl
  | true =>
    rcases h with h | h
    · cases h
    · rw [idOf_eq] at h
      unfold tagBegin
      cases hl : m.label with
      | some l => rw [hl] at h; cases h
      | none =>
        rw [hl] at h
        cases hi : ixI64 m.index with
        | some i => rw [hi] at h; cases h
        | none => rfl

theorem tagBegin_skip' (m : Meta) (tg em q : Bool) (hd : Option Handler) (bk : Bool) (o : Text)
    (h : tg = false ∨ idOf m = none) : tagBegin strWriter m ⟨tg, em, q, hd, bk, o⟩ = .ok ⟨false, em, q, hd, bk, o⟩ :=
  tagBegin_skip m ⟨tg, em, q, hd, bk, o⟩ h

theorem tagBegin_open (m : Meta) (s : St Text) (k : Text) (ht : s.tagged = true) (hq : s.quoted = true)
    (hk : idOf m = some k) : ∃ k' e, StrLit k' k ∧ k' = nameT m ∧
      tagBegin strWriter m s = .ok { s with tagged := false, quoted := true, empty := e, out := s.out ++ ('{' :: keyLit k') } := by
  have hk0 := hk
  obtain ⟨tg, em, q, hd, bk, o⟩ := s
  cases ht; cases hq
  rw [idOf_eq] at hk
  unfold tagBegin
  cases hl : m.label with
  | some l =>
    rw [hl] at hk; cases hk
    refine ⟨escape l.text, true, escape_lit _, by simp [nameT, hl, escape_eq], ?_⟩
    simp [tagMapBeginLabel, mapBegin, mapKeyBegin, mapKeyEnd, wr, strWriter, Res.bind, escapeStr_str, keyLit]
  | none =>
    rw [hl] at hk
    cases hi : ixI64 m.index with
    | none => rw [hi] at hk; cases hk
    | some i =>
      rw [hi] at hk; cases hk
      refine ⟨intDec i, false, raw_lit _ (intDec_raw i), by simp [nameT, hl, hk0], ?_⟩
      simp [tagMapBeginIndex, mapBegin, mapKeyBegin, mapKeyEnd, scalar, wr, strWriter, Res.bind, keyLit]

theorem tagEnd_eq (m : Meta) (s : St Text) : tagEnd m s = .ok { s with tagged := (idOf m).isSome } := by
  rw [tagEnd, hasId_eq]

/-! ## Calls that arrive as they are -/

theorem Res.bind_run_nil (r : Res Unit (St Text)) :
    r.bind (run (call strWriter env) []) = r := by cases r <;> rfl

theorem call_one (t : Token) (s : St Text) (h : Low.tok jsonCaps t = [t]) :
    call strWriter env t s = step strWriter env t s := by
  rw [call, h, run_cons]
  cases step strWriter env t s <;> rfl

/-! ## Specially tagged text -/

theorem run_native' (fs : List (Frag Text)) (tg em q bk : Bool) (o : Text) :
    run (call strWriter env) (fs.map textFragTok) ⟨tg, em, q, some .native, bk, o⟩ =
      .ok ⟨tg, em, q, some .native, bk, o ++ fragsText fs⟩ := run_frags_native env fs _ rfl

theorem run_plain' (fs : List (Frag Text)) (tg em q bk : Bool) (o : Text) :
    run (call strWriter env) (fs.map textFragTok) ⟨tg, em, q, none, bk, o⟩ =
      .ok ⟨tg, em, q, none, bk, o ++ escape (fragsText fs)⟩ := run_frags_plain env fs _ rfl

theorem run_number' (fs : List (Frag Text)) (tg em q bk : Bool) (n n' : NumSt) (o o' : Text)
    (h : numFrags strWriter (fs.map Frag.content) (n, o) = .ok (n', o')) :
    run (call strWriter env) (fs.map textFragTok) ⟨tg, em, q, some (.number n), bk, o⟩ =
      .ok ⟨tg, em, q, some (.number n'), bk, o'⟩ := run_frags_number env fs _ n n' o' rfl h

/-- Text tagged NUMBER comes out as the handler of numbers has it. -/
theorem special_number_of (m : Meta) (v : V) (s : St Text) (u : Text) (n : Option Nat) (fs : List (Frag Text))
    (hm : m.tag = some tags.NUMBER)
    (hrun : ∀ s, run (call strWriter env) (toks v) s = run (call strWriter env) (toks (.text n fs)) s)
    (hu : ∃ st p, numFrags strWriter (fs.map Frag.content) ({}, s.out) = .ok (st, s.out ++ p) ∧
      p ++ (if st.atStart then ['0'] else []) = u)
    (hh : s.handler = none) (hs : s.tagged = false ∨ idOf m = none) :
    run (call strWriter env) (toks (.tagged m v)) s =
      .ok { s with tagged := (idOf m).isSome, quoted := true, handler := none, empty := false, out := s.out ++ u } := by
  obtain ⟨tg, em, q, hd, bk, o⟩ := s
  cases hh
  obtain ⟨st, p, h1, h2⟩ := hu
  simp only [toks, run_cons]
  rw [call_one env _ _ rfl]
  simp only [step, taggedBegin, hm, Option.some.injEq, show ¬ tags.NUMBER = tags.JSON_TEXT by decide,
    show ¬ tags.NUMBER = tags.JSON_VALUE by decide, if_false, if_true, Option.isNone_none]
  rw [tagBegin_skip' m _ _ _ _ _ _ hs]
  simp only [Res.bind, run_append, hrun]
  simp only [toks, run_cons]
  rw [call_one env _ _ rfl]
  simp only [step, textBegin, Bool.false_eq_true, if_false, Res.bind]
  rw [run_append, run_number' env fs _ _ _ _ _ _ _ _ h1]
  simp only [run_cons, run_nil, Res.bind]
  rw [call_one env _ _ rfl]
  simp only [step, textEnd, Bool.false_eq_true, if_false]
  rw [call_one env _ _ rfl]
  simp only [step, taggedEnd, hm, Option.some.injEq, show ¬ tags.NUMBER = tags.JSON_TEXT by decide,
    show ¬ tags.NUMBER = tags.JSON_VALUE by decide, if_false, if_true, wr, numEnd, strWriter]
  rw [← h2]
  cases st.atStart <;> simp [Res.bind, tagEnd_eq]

theorem special_number (m : Meta) (v : V) (s : St Text) (t u : Text) (hm : m.tag = some tags.NUMBER) (ht : textOf v = some t)
    (hu : numberKey t = some u) (hz : zeroExp t = false) (hh : s.handler = none) (hs : s.tagged = false ∨ idOf m = none) :
    run (call strWriter env) (toks (.tagged m v)) s =
      .ok { s with tagged := (idOf m).isSome, quoted := true, handler := none, empty := false, out := s.out ++ u } := by
  obtain ⟨n, fs, hf, hrun⟩ := textOf_run env ht
  exact special_number_of env m v s u n fs hm hrun (number_frags hu hz (fs.map Frag.content) hf s.out) hh hs

theorem special_raw (m : Meta) (v : V) (s : St Text) (t : Text)
    (hm : m.tag = some tags.JSON_VALUE ∨ m.tag = some tags.JSON_NUMBER) (ht : textOf v = some t)
    (hs : s.tagged = false ∨ idOf m = none) :
    run (call strWriter env) (toks (.tagged m v)) s =
      .ok { s with tagged := (idOf m).isSome, quoted := true, handler := none, empty := false, out := s.out ++ t } := by
  obtain ⟨tg, em, q, hd, bk, o⟩ := s
  obtain ⟨n, fs, hf, hrun⟩ := textOf_run env ht
  simp only [toks, run_cons]
  rw [call_one env _ _ rfl]
  rcases hm with hm | hm
  all_goals
    simp only [step, taggedBegin, hm, Option.some.injEq, show ¬ tags.JSON_VALUE = tags.JSON_TEXT by decide,
      show ¬ tags.JSON_NUMBER = tags.JSON_TEXT by decide, show ¬ tags.JSON_NUMBER = tags.JSON_VALUE by decide,
      show ¬ tags.JSON_NUMBER = tags.NUMBER by decide, if_false, if_true]
    rw [tagBegin_skip' m _ _ _ _ _ _ hs]
    simp only [Res.bind, run_append, hrun]
    simp only [toks, run_cons]
    rw [call_one env _ _ rfl]
    simp only [step, textBegin, Bool.false_eq_true, if_false, Res.bind]
    rw [run_append, run_native']
    simp only [run_cons, run_nil, Res.bind]
    rw [call_one env _ _ rfl]
    simp only [step, textEnd, Bool.false_eq_true, if_false]
    rw [call_one env _ _ rfl]
    simp only [step, taggedEnd, hm, Option.some.injEq, show ¬ tags.JSON_VALUE = tags.JSON_TEXT by decide,
      show ¬ tags.JSON_NUMBER = tags.JSON_TEXT by decide, show ¬ tags.JSON_NUMBER = tags.JSON_VALUE by decide,
      show ¬ tags.JSON_NUMBER = tags.NUMBER by decide, if_false, if_true, Res.bind, Bool.false_eq_true, tagEnd_eq, hf]

/-- Quotes unless in a key. -/
def quote (q : Bool) (t : Text) : Text := if q then '"' :: (t ++ ['"']) else t

theorem special_text_aux (m : Meta) (v : V) (s s1 : St Text) (t : Text) (hm : m.tag = some tags.JSON_TEXT)
    (ht : textOf v = some t) (h1 : tagBegin strWriter m { s with handler := some .native } = .ok { s1 with handler := some .native }) :
    run (call strWriter env) (toks (.tagged m v)) s =
      .ok { s1 with tagged := (idOf m).isSome, handler := none, empty := false, out := s1.out ++ quote s1.quoted t } := by
  obtain ⟨tg, em, q, hd, bk, o⟩ := s1
  obtain ⟨n, fs, hf, hrun⟩ := textOf_run env ht
  simp only [toks, run_cons]
  rw [call_one env _ _ rfl]
  simp only [step, taggedBegin, hm, if_true]
  rw [h1]
  simp only [Res.bind, run_append, hrun]
  simp only [toks, run_cons]
  rw [call_one env _ _ rfl]
  cases q
  · simp only [step, textBegin, Bool.false_eq_true, if_false, Res.bind]
    rw [run_append, run_native']
    simp only [run_cons, run_nil, Res.bind]
    rw [call_one env _ _ rfl]
    simp only [step, textEnd, Bool.false_eq_true, if_false]
    rw [call_one env _ _ rfl]
    simp only [step, taggedEnd, hm, if_true, Res.bind, Bool.false_eq_true, if_false, tagEnd_eq, hf, quote]
  · simp only [step, textBegin, if_true, Res.bind, wr, strWriter]
    rw [run_append, run_native']
    simp only [run_cons, run_nil, Res.bind]
    rw [call_one env _ _ rfl]
    simp only [step, textEnd, if_true, wr, strWriter]
    rw [call_one env _ _ rfl]
    simp only [step, taggedEnd, hm, if_true, Res.bind, Bool.false_eq_true, if_false, tagEnd_eq, hf, quote]
    simp

/-! ## What is to be shown -/

/-- In value position: quoted, and no variant name pending unless the value has none. -/
def PV (v : V) : Prop := ∀ j, value env v = some j → safe v = true → ∀ tg em bk o, (tg = false ∨ named v = false) →
  ∃ t tg', run (call strWriter env) (toks v) ⟨tg, em, true, none, bk, o⟩ = .ok ⟨tg', false, true, none, bk, o ++ t⟩ ∧ Doc j t ∧
    t = valueT env v

/-- In an enum: the brace of a named variant is still open. -/
def PX (v : V) : Prop := ∀ j, variant env v = some j → safeVariant v = true → ∀ em bk o,
  ∃ t, run (call strWriter env) (toks v) ⟨true, em, true, none, bk, o⟩ = .ok ⟨named v, false, true, none, bk, o ++ t⟩ ∧
    Doc j (t ++ if named v then ['}'] else []) ∧ (t ++ if named v then ['}'] else []) = variantT env v

/-- As a key. -/
def PK (v : V) : Prop := ∀ u, keyText env v = some u → safeKey v = true → ∀ em bk o,
  ∃ t q, run (call strWriter env) (toks v) ⟨false, em, false, none, bk, o⟩ = .ok ⟨named v, false, q, none, bk, o ++ t⟩ ∧
    StrLit t u ∧ t = keyT env v

/-- In an enum that is a key. -/
def PKX (v : V) : Prop := ∀ u, keyVariant env v = some u → safeKey v = true → ∀ em bk o,
  ∃ t q, run (call strWriter env) (toks v) ⟨true, em, false, none, bk, o⟩ = .ok ⟨false, false, q, none, bk, o ++ t⟩ ∧
    StrLit t u ∧ t = keyT env v

/-! ## Bodies of containers -/

theorem consO_some {α : Type} {x : Option α} {xs : Option (List α)} {r : List α} (h : consO x xs = some r) :
    ∃ y ys, x = some y ∧ xs = some ys ∧ r = y :: ys := by
  cases x with
  | none => cases h
  | some y =>
    cases xs with
    | none => cases h
    | some ys => cases h; exact ⟨y, ys, rfl, rfl, rfl⟩

theorem pairO_some {k : Option Text} {j : Option J} {r : Text × J} (h : pairO k j = some r) :
    ∃ y z, k = some y ∧ j = some z ∧ r = (y, z) := by
  cases k with
  | none => cases h
  | some y =>
    cases j with
    | none => cases h
    | some z => cases h; exact ⟨y, z, rfl, rfl, rfl⟩

theorem call_seqValueBegin_first (tg bk : Bool) (o : Text) :
    call strWriter env .seqValueBegin ⟨tg, true, true, none, bk, o⟩ = .ok ⟨false, true, true, none, bk, o⟩ := rfl
theorem call_seqValueBegin_next (tg bk : Bool) (o : Text) :
    call strWriter env .seqValueBegin ⟨tg, false, true, none, bk, o⟩ = .ok ⟨false, false, true, none, bk, o ++ [',']⟩ := rfl
theorem call_seqValueEnd (s : St Text) : call strWriter env .seqValueEnd s = .ok s := rfl
theorem call_tupleValueBegin (t : Option Tag) (i : Index) (s : St Text) :
    call strWriter env (.tupleValueBegin t i) s = call strWriter env .seqValueBegin s := rfl
theorem call_tupleValueEnd (t : Option Tag) (i : Index) (s : St Text) :
    call strWriter env (.tupleValueEnd t i) s = .ok s := rfl

theorem seq_tail (xs : List V) (ih : ∀ x ∈ xs, PV env x) (js : List J) (hj : values env xs = some js) (hs : safes xs = true)
    (tg bk : Bool) (o : Text) : ∃ t tg', run (call strWriter env) (toksSeq xs) ⟨tg, false, true, none, bk, o⟩ =
      .ok ⟨tg', false, true, none, bk, o ++ t⟩ ∧ Tail js t ∧ t = tails (valuesT env xs) := by
  induction xs generalizing js tg o with
  | nil => cases hj; exact ⟨[], tg, by simp [toksSeq], rfl, rfl⟩
  | cons x xs ihx =>
    obtain ⟨y, ys, h1, h2, rfl⟩ := consO_some hj
    rw [safes, Bool.and_eq_true] at hs
    obtain ⟨t1, tg1, r1, d1, e1⟩ := ih x (by simp) y h1 hs.1 false false bk (o ++ [',']) (.inl rfl)
    obtain ⟨t2, tg2, r2, d2, e2⟩ := ihx (fun x hx => ih x (by simp [hx])) ys h2 hs.2 tg1 (o ++ [','] ++ t1)
    refine ⟨',' :: (t1 ++ t2), tg2, ?_, ⟨_, rfl, elems_cons d1 d2⟩, by rw [e1, e2]; rfl⟩
    simp only [toksSeq, run_cons, run_append, call_seqValueBegin_next, Res.bind, r1, call_seqValueEnd, r2]
    simp

theorem seq_body (xs : List V) (ih : ∀ x ∈ xs, PV env x) (js : List J) (hj : values env xs = some js) (hs : safes xs = true)
    (tg bk : Bool) (o : Text) : ∃ t tg' em, run (call strWriter env) (toksSeq xs) ⟨tg, true, true, none, bk, o⟩ =
      .ok ⟨tg', em, true, none, bk, o ++ t⟩ ∧ Elems js t ∧ t = commas (valuesT env xs) := by
  cases xs with
  | nil => cases hj; exact ⟨[], tg, true, by simp [toksSeq], rfl, rfl⟩
  | cons x xs =>
    obtain ⟨y, ys, h1, h2, rfl⟩ := consO_some hj
    rw [safes, Bool.and_eq_true] at hs
    obtain ⟨t1, tg1, r1, d1, e1⟩ := ih x (by simp) y h1 hs.1 false true bk o (.inl rfl)
    obtain ⟨t2, tg2, r2, d2, e2⟩ := seq_tail env xs (fun x hx => ih x (by simp [hx])) ys h2 hs.2 tg1 bk (o ++ t1)
    refine ⟨t1 ++ t2, tg2, false, ?_, elems_cons d1 d2, by rw [e1, e2, valuesT, commas_cons]⟩
    simp only [toksSeq, run_cons, run_append, call_seqValueBegin_first, Res.bind, r1, call_seqValueEnd, r2]
    simp

/-- The body of a tuple runs as that of a sequence. -/
theorem tup_run (fs : List (Option Tag × Index × V)) (s : St Text) :
    run (call strWriter env) (toksTup fs) s = run (call strWriter env) (toksSeq (fs.map (·.2.2))) s := by
  induction fs generalizing s with
  | nil => rfl
  | cons f fs ih =>
    obtain ⟨t, i, v⟩ := f
    simp only [toksTup, List.map_cons, toksSeq, run_cons]
    rw [call_tupleValueBegin]
    congr 1; funext s
    rw [run_append, run_append]
    congr 1; funext s
    rw [run_cons, run_cons, call_tupleValueEnd, call_seqValueEnd]
    exact ih s

theorem items_values (fs : List (Option Tag × Index × V)) : items env fs = values env (fs.map (·.2.2)) := by
  induction fs with
  | nil => rfl
  | cons f fs ih => obtain ⟨t, i, v⟩ := f; simp only [items, List.map_cons, values, ih]

theorem itemsT_valuesT (fs : List (Option Tag × Index × V)) : itemsT env fs = valuesT env (fs.map (·.2.2)) := by
  induction fs with
  | nil => rfl
  | cons f fs ih => obtain ⟨t, i, v⟩ := f; simp only [itemsT, List.map_cons, valuesT, ih]

theorem safeItems_safes (fs : List (Option Tag × Index × V)) : safeItems fs = safes (fs.map (·.2.2)) := by
  induction fs with
  | nil => rfl
  | cons f fs ih => obtain ⟨t, i, v⟩ := f; simp only [safeItems, List.map_cons, safes, ih]

/-! ### Records -/

theorem labelText_lit {l : Label} {k : Text} (h : labelText l = some k) :
    ∃ k', StrLit k' k ∧ k' = labelT l ∧ ∀ s : St Text,
      (if l.tag = some tags.VALUE_IDENT then wr (strWriter l.text) s else wr (escapeStr strWriter l.text) s) =
        .ok { s with out := s.out ++ k' } := by
  unfold labelText at h
  split at h
  · cases h
  · rename_i hn
    cases h
    by_cases ht : l.tag = some tags.VALUE_IDENT
    · have hr : l.text.all rawOk = true := by
        cases hr : l.text.all rawOk
        · exact absurd ⟨ht, hr⟩ hn
        · rfl
      exact ⟨l.text, raw_lit _ hr, by rw [labelT, if_pos ht], fun s => by rw [if_pos ht]; rfl⟩
    · exact ⟨escape l.text, escape_lit _, by rw [labelT, if_neg ht, escape_eq], fun s => by rw [if_neg ht]; simp [wr, escapeStr_str]⟩

theorem wr_str (t : Text) (s : St Text) : wr (strWriter t) s = .ok { s with out := s.out ++ t } := rfl

theorem call_recordValueBegin {l : Label} {k' : Text} (h : ∀ s : St Text,
      (if l.tag = some tags.VALUE_IDENT then wr (strWriter l.text) s else wr (escapeStr strWriter l.text) s) =
        .ok { s with out := s.out ++ k' }) (t : Option Tag) (tg em bk : Bool) (o : Text) :
    call strWriter env (.recordValueBegin t l) ⟨tg, em, true, none, bk, o⟩ =
      .ok ⟨false, em, true, none, bk, o ++ ((if em then [] else [',']) ++ keyLit k')⟩ := by
  rw [call_one env _ _ rfl]
  simp only [step, recordValueBegin]
  by_cases hv : l.tag = some tags.VALUE_IDENT
  · have := h ⟨false, false, false, none, false, []⟩
    simp only [if_pos hv, wr_str, List.nil_append, Res.ok.injEq, St.mk.injEq, true_and] at this
    cases em <;> simp [if_pos hv, wr_str, Res.bind, keyLit, this]
  · simp only [if_neg hv] at h ⊢
    cases em <;> simp [wr_str, Res.bind, keyLit, h]

theorem call_recordValueEnd (t : Option Tag) (l : Label) (s : St Text) :
    call strWriter env (.recordValueEnd t l) s = .ok s := rfl

theorem rec_tail (fs : List (Option Tag × Label × V)) (ih : ∀ f ∈ fs, PV env f.2.2) (js : List (Text × J))
    (hj : fields env fs = some js) (hs : safeFields fs = true) (tg bk : Bool) (o : Text) :
    ∃ t tg', run (call strWriter env) (toksRec fs) ⟨tg, false, true, none, bk, o⟩ =
      .ok ⟨tg', false, true, none, bk, o ++ t⟩ ∧ MTail js t ∧ t = tails (fieldsT env fs) := by
  induction fs generalizing js tg o with
  | nil => cases hj; exact ⟨[], tg, by simp [toksRec], rfl, rfl⟩
  | cons f fs ihx =>
    obtain ⟨tag, l, x⟩ := f
    obtain ⟨y, ys, h1, h2, rfl⟩ := consO_some hj
    obtain ⟨k, j, h3, h4, rfl⟩ := pairO_some h1
    rw [safeFields, Bool.and_eq_true] at hs
    obtain ⟨k', hk, he, hc⟩ := labelText_lit h3
    have hb := call_recordValueBegin env hc tag tg false bk o
    obtain ⟨t1, tg1, r1, d1, e1⟩ := ih (tag, l, x) (by simp) j h4 hs.1 false false bk (o ++ ([','] ++ keyLit k')) (.inl rfl)
    obtain ⟨t2, tg2, r2, d2, e2⟩ := ihx (fun x hx => ih x (by simp [hx])) ys h2 hs.2 tg1 (o ++ ([','] ++ keyLit k') ++ t1)
    refine ⟨',' :: (keyLit k' ++ (t1 ++ t2)), tg2, ?_, ⟨_, rfl, members_cons hk d1 d2⟩, by rw [e1, e2, he]; simp [fieldsT, tails]⟩
    simp only [toksRec, run_cons, run_append, hb, Res.bind, Bool.false_eq_true, if_false, r1, call_recordValueEnd, r2]
    simp

theorem rec_body (fs : List (Option Tag × Label × V)) (ih : ∀ f ∈ fs, PV env f.2.2) (js : List (Text × J))
    (hj : fields env fs = some js) (hs : safeFields fs = true) (tg bk : Bool) (o : Text) :
    ∃ t tg' em, run (call strWriter env) (toksRec fs) ⟨tg, true, true, none, bk, o⟩ =
      .ok ⟨tg', em, true, none, bk, o ++ t⟩ ∧ Members js t ∧ t = commas (fieldsT env fs) := by
  cases fs with
  | nil => cases hj; exact ⟨[], tg, true, by simp [toksRec], rfl, rfl⟩
  | cons f fs =>
    obtain ⟨tag, l, x⟩ := f
    obtain ⟨y, ys, h1, h2, rfl⟩ := consO_some hj
    obtain ⟨k, j, h3, h4, rfl⟩ := pairO_some h1
    rw [safeFields, Bool.and_eq_true] at hs
    obtain ⟨k', hk, he, hc⟩ := labelText_lit h3
    have hb := call_recordValueBegin env hc tag tg true bk o
    obtain ⟨t1, tg1, r1, d1, e1⟩ := ih (tag, l, x) (by simp) j h4 hs.1 false true bk (o ++ ([] ++ keyLit k')) (.inl rfl)
    obtain ⟨t2, tg2, r2, d2, e2⟩ := rec_tail env fs (fun x hx => ih x (by simp [hx])) ys h2 hs.2 tg1 bk (o ++ ([] ++ keyLit k') ++ t1)
    refine ⟨keyLit k' ++ (t1 ++ t2), tg2, false, ?_, members_cons hk d1 d2, by rw [e1, e2, he, fieldsT, commas_cons]; simp⟩
    simp only [toksRec, run_cons, run_append, hb, Res.bind, if_true, r1, call_recordValueEnd, r2]
    simp

/-- A record tuple without its indexes. -/
def unRT (fs : List (Option Tag × Label × Index × V)) : List (Option Tag × Label × V) := fs.map fun f => (f.1, f.2.1, f.2.2.2)

theorem call_recordTupleBegin (m : Meta) (n : Option Nat) (s : St Text) :
    call strWriter env (.recordTupleBegin m n) s = call strWriter env (.recordBegin m n) s := rfl
theorem call_recordTupleEnd (m : Meta) (s : St Text) :
    call strWriter env (.recordTupleEnd m) s = call strWriter env (.recordEnd m) s := rfl
theorem call_recordTupleValueBegin (t : Option Tag) (l : Label) (i : Index) (s : St Text) :
    call strWriter env (.recordTupleValueBegin t l i) s = call strWriter env (.recordValueBegin t l) s := rfl
theorem call_recordTupleValueEnd (t : Option Tag) (l : Label) (i : Index) (s : St Text) :
    call strWriter env (.recordTupleValueEnd t l i) s = .ok s := rfl

theorem rt_run (fs : List (Option Tag × Label × Index × V)) (s : St Text) :
    run (call strWriter env) (toksRT fs) s = run (call strWriter env) (toksRec (unRT fs)) s := by
  induction fs generalizing s with
  | nil => rfl
  | cons f fs ih =>
    obtain ⟨t, l, i, v⟩ := f
    simp only [toksRT, unRT, List.map_cons, toksRec, run_cons]
    rw [call_recordTupleValueBegin]
    congr 1; funext s
    rw [run_append, run_append]
    congr 1; funext s
    rw [run_cons, run_cons, call_recordTupleValueEnd, call_recordValueEnd]
    exact ih s

theorem fieldsRT_fields (fs : List (Option Tag × Label × Index × V)) : fieldsRT env fs = fields env (unRT fs) := by
  induction fs with
  | nil => rfl
  | cons f fs ih => obtain ⟨t, l, i, v⟩ := f; simp only [fieldsRT, ih, unRT, List.map_cons, fields]

theorem fieldsRTT_fieldsT (fs : List (Option Tag × Label × Index × V)) : fieldsRTT env fs = fieldsT env (unRT fs) := by
  induction fs with
  | nil => rfl
  | cons f fs ih => obtain ⟨t, l, i, v⟩ := f; simp only [fieldsRTT, ih, unRT, List.map_cons, fieldsT]

theorem safeRT_safeFields (fs : List (Option Tag × Label × Index × V)) : safeRT fs = safeFields (unRT fs) := by
  induction fs with
  | nil => rfl
  | cons f fs ih => obtain ⟨t, l, i, v⟩ := f; simp only [safeRT, ih, unRT, List.map_cons, safeFields]

/-! ### Maps -/

theorem call_mapKeyBegin (tg em bk : Bool) (o : Text) : call strWriter env .mapKeyBegin ⟨tg, em, true, none, bk, o⟩ =
    .ok ⟨false, em, false, none, bk, o ++ ((if em then [] else [',']) ++ ['"'])⟩ := by cases em <;> rfl
theorem call_mapKeyEnd (tg em q bk : Bool) (o : Text) : call strWriter env .mapKeyEnd ⟨tg, em, q, none, bk, o⟩ =
    .ok ⟨tg, em, true, none, bk, o ++ ['"', ':']⟩ := rfl
theorem call_mapValueBegin (s : St Text) : call strWriter env .mapValueBegin s = .ok s := rfl
theorem call_mapValueEnd (s : St Text) : call strWriter env .mapValueEnd s = .ok s := rfl

theorem map_entry (k v : V) (hk : PK env k) (hv : PV env v) (u : Text) (j : J) (h1 : keyText env k = some u)
    (h2 : value env v = some j) (h3 : safeKey k = true) (h4 : safe v = true) (h5 : (named k && named v) = false)
    (r : List Token) (tg em bk : Bool) (o : Text) : ∃ k' t tg', StrLit k' u ∧ Doc j t ∧ (k' = keyT env k ∧ t = valueT env v) ∧
    run (call strWriter env) (.mapKeyBegin :: (toks k ++ .mapKeyEnd :: .mapValueBegin :: (toks v ++ .mapValueEnd :: r)))
      ⟨tg, em, true, none, bk, o⟩ = run (call strWriter env) r
        ⟨tg', false, true, none, bk, o ++ ((if em then [] else [',']) ++ (keyLit k' ++ t))⟩ := by
  obtain ⟨k', q, r1, d1, e1⟩ := hk u h1 h3 em bk (o ++ ((if em then [] else [',']) ++ ['"']))
  obtain ⟨t, tg', r2, d2, e2⟩ := hv j h2 h4 (named k) false bk (o ++ ((if em then [] else [',']) ++ ['"']) ++ k' ++ ['"', ':']) (by
    cases hn : named k
    · exact .inl rfl
    · right; rw [hn, Bool.true_and] at h5; exact h5)
  refine ⟨k', t, tg', d1, d2, ⟨e1, e2⟩, ?_⟩
  simp only [run_cons, run_append, call_mapKeyBegin, Res.bind, r1, call_mapKeyEnd, call_mapValueBegin, r2, call_mapValueEnd]
  simp [keyLit]

theorem map_tail (fs : List (V × V)) (ih : ∀ f ∈ fs, PK env f.1 ∧ PV env f.2) (js : List (Text × J))
    (hj : entries env fs = some js) (hs : safeEntries fs = true) (tg bk : Bool) (o : Text) :
    ∃ t tg', run (call strWriter env) (toksMap fs) ⟨tg, false, true, none, bk, o⟩ =
      .ok ⟨tg', false, true, none, bk, o ++ t⟩ ∧ MTail js t ∧ t = tails (entriesT env fs) := by
  induction fs generalizing js tg o with
  | nil => cases hj; exact ⟨[], tg, by simp [toksMap], rfl, rfl⟩
  | cons f fs ihx =>
    obtain ⟨k, x⟩ := f
    obtain ⟨y, ys, h1, h2, rfl⟩ := consO_some hj
    obtain ⟨u, j, h3, h4, rfl⟩ := pairO_some h1
    simp only [safeEntries, Bool.and_eq_true, Bool.not_eq_true'] at hs
    obtain ⟨⟨⟨s1, s2⟩, s3⟩, s4⟩ := hs
    obtain ⟨k', t1, tg1, hk, d1, e1, r1⟩ := map_entry env k x (ih (k, x) (by simp)).1 (ih (k, x) (by simp)).2 u j h3 h4 s1 s2 s3 (toksMap fs)
      tg false bk o
    obtain ⟨t2, tg2, r2, d2, e2⟩ := ihx (fun x hx => ih x (by simp [hx])) ys h2 s4 tg1 (o ++ ([','] ++ (keyLit k' ++ t1)))
    refine ⟨',' :: (keyLit k' ++ (t1 ++ t2)), tg2, ?_, ⟨_, rfl, members_cons hk d1 d2⟩, by rw [e1.1, e1.2, e2]; simp [entriesT, tails]⟩
    simp only [toksMap]
    rw [r1]
    simp only [Bool.false_eq_true, if_false]
    rw [r2]
    simp

theorem map_body (fs : List (V × V)) (ih : ∀ f ∈ fs, PK env f.1 ∧ PV env f.2) (js : List (Text × J))
    (hj : entries env fs = some js) (hs : safeEntries fs = true) (tg bk : Bool) (o : Text) :
    ∃ t tg' em, run (call strWriter env) (toksMap fs) ⟨tg, true, true, none, bk, o⟩ =
      .ok ⟨tg', em, true, none, bk, o ++ t⟩ ∧ Members js t ∧ t = commas (entriesT env fs) := by
  cases fs with
  | nil => cases hj; exact ⟨[], tg, true, by simp [toksMap], rfl, rfl⟩
  | cons f fs =>
    obtain ⟨k, x⟩ := f
    obtain ⟨y, ys, h1, h2, rfl⟩ := consO_some hj
    obtain ⟨u, j, h3, h4, rfl⟩ := pairO_some h1
    simp only [safeEntries, Bool.and_eq_true, Bool.not_eq_true'] at hs
    obtain ⟨⟨⟨s1, s2⟩, s3⟩, s4⟩ := hs
    obtain ⟨k', t1, tg1, hk, d1, e1, r1⟩ := map_entry env k x (ih (k, x) (by simp)).1 (ih (k, x) (by simp)).2 u j h3 h4 s1 s2 s3 (toksMap fs)
      tg true bk o
    obtain ⟨t2, tg2, r2, d2, e2⟩ := map_tail env fs (fun x hx => ih x (by simp [hx])) ys h2 s4 tg1 bk (o ++ ([] ++ (keyLit k' ++ t1)))
    refine ⟨keyLit k' ++ (t1 ++ t2), tg2, false, ?_, members_cons hk d1 d2, by rw [e1.1, e1.2, e2, entriesT, commas_cons]; simp⟩
    simp only [toksMap]
    rw [r1]
    simp only [if_true]
    rw [r2]
    simp

/-! ### Binary -/

/-- The sequence binary arrives as. -/
def bytesV (b : Bytes) : List V := b.map fun x => .int .u8 x.toNat

theorem run_call (ts : List Token) (s : St Text) :
    run (call strWriter env) ts s = run (step strWriter env) (lower jsonCaps ts) s := by
  induction ts generalizing s with
  | nil => rfl
  | cons t ts ih =>
    rw [run_cons, lower, List.flatMap_cons, run_append]
    show (run (step strWriter env) (Low.tok jsonCaps t) s).bind _ = _
    congr 1; funext s; exact ih s

theorem bytesV_low (b : Bytes) : lowVs jsonCaps (bytesV b) = bytesV b := by
  induction b with
  | nil => rfl
  | cons b bs ih => simp only [bytesV, List.map_cons, lowVs] at *; rw [ih]; rfl

theorem binary_run (n : Option Nat) (fs : List (Frag Bytes)) (s : St Text) :
    run (call strWriter env) (toks (.binary n fs)) s = run (call strWriter env) (toks (.seq n (bytesV (fragsBytes fs)))) s := by
  rw [run_call, run_call, lower_toks, lower_toks]
  rw [lowV, lowV, bytesV_low]
  rfl

theorem bytesV_values (b : Bytes) : values env (bytesV b) = some (b.map fun b => .num (b.toNat : Int)) := by
  induction b with
  | nil => rfl
  | cons b bs ih =>
    simp only [bytesV, List.map_cons, values, value] at *
    rw [ih]; rfl

theorem bytesV_valuesT (b : Bytes) : valuesT env (bytesV b) = b.map fun b => intDec b.toNat := by
  induction b with
  | nil => rfl
  | cons b bs ih =>
    simp only [bytesV, List.map_cons, valuesT, valueT] at *
    rw [ih]

theorem bytesV_safe (b : Bytes) : safes (bytesV b) = true := by
  induction b with
  | nil => rfl
  | cons b bs ih => simp only [bytesV, List.map_cons, safes, safe] at *; rw [ih]; rfl

/-! ## Leaves -/

def P4 (v : V) : Prop := PV env v ∧ PX env v ∧ PK env v ∧ PKX env v

theorem P4_leaf (v : V) (x : Text) (hrun : ∀ tg em q bk o, run (call strWriter env) (toks v) ⟨tg, em, q, none, bk, o⟩ =
      .ok ⟨tg, false, q, none, bk, o ++ x⟩) (hV : ∀ j, value env v = some j → Val j x)
    (hK : ∀ u, keyText env v = some u → u = x ∧ x.all rawOk = true) (hn : named v = false)
    (hT : valueT env v = x ∧ keyT env v = x) (hX : variant env v = none) (hKX : keyVariant env v = none) : P4 env v := by
  refine ⟨fun j hj _ tg em bk o _ => ⟨x, tg, hrun .., .val (hV j hj), hT.1.symm⟩, fun j hj => ?_, fun u hu _ em bk o => ?_, fun u hu => ?_⟩
  · rw [hX] at hj; cases hj
  · obtain ⟨rfl, hr⟩ := hK u hu
    exact ⟨u, false, by rw [hrun, hn], raw_lit _ hr, hT.2.symm⟩
  · rw [hKX] at hu; cases hu

theorem call_scalar (t : Token) (x : Text) (h : Low.tok jsonCaps t = [t]) (hs : ∀ s, step strWriter env t s = scalar strWriter x s)
    (tg em q bk : Bool) (o : Text) : run (call strWriter env) [t] ⟨tg, em, q, none, bk, o⟩ =
      .ok ⟨tg, false, q, none, bk, o ++ x⟩ := by
  rw [run_cons, call_one env _ _ h, hs]; rfl

theorem P4_null : P4 env .null :=
  P4_leaf env .null (t! "null") (fun _ _ _ _ _ => rfl) (fun j hj => by cases hj; rfl)
    (fun u hu => by cases hu; exact ⟨rfl, rfl⟩) rfl ⟨rfl, rfl⟩ rfl rfl

theorem P4_bool (b : Bool) : P4 env (.bool b) :=
  P4_leaf env (.bool b) (if b then t! "true" else t! "false") (fun _ _ _ _ _ => by cases b <;> rfl)
    (fun j hj => by cases hj; cases b <;> rfl)
    (fun u hu => by cases hu; cases b <;> exact ⟨rfl, rfl⟩) rfl ⟨rfl, rfl⟩ rfl rfl

theorem P4_int (t : IntTy) (v : Int) : P4 env (.int t v) := by
  refine P4_leaf env (.int t v) (intDec v) (fun tg em q bk o => ?_) (fun j hj => ?_) (fun u hu => ?_) rfl ⟨rfl, rfl⟩ rfl rfl
  · exact call_scalar env _ _ (by cases t <;> rfl) (fun _ => rfl) ..
  · cases hj; exact intDec_val v
  · cases hu; exact ⟨rfl, intDec_raw v⟩

theorem P4_f32 (b : UInt32) : P4 env (.f32 b) := by
  refine P4_leaf env (.f32 b) (if f32Finite b then env.f32 b else t! "null") (fun tg em q bk o => ?_) (fun j hj => ?_)
    (fun u hu => ?_) rfl ⟨rfl, rfl⟩ rfl rfl
  · exact call_scalar env _ _ rfl (fun _ => rfl) ..
  · simp only [value] at hj
    split at hj
    · rename_i h; rw [if_pos h]; exact (numOf_sound hj).1
    · rename_i h; rw [if_neg h]; cases hj; rfl
  · simp only [keyText] at hu
    split at hu
    · rename_i h
      rw [if_pos h]
      cases hn : numOf (env.f32 b) with
      | none => rw [hn] at hu; cases hu
      | some j => rw [hn] at hu; cases hu; exact ⟨rfl, (numOf_sound hn).2⟩
    · rename_i h; rw [if_neg h]; cases hu; exact ⟨rfl, rfl⟩

theorem P4_f64 (b : UInt64) : P4 env (.f64 b) := by
  refine P4_leaf env (.f64 b) (if f64Finite b then env.f64 b else t! "null") (fun tg em q bk o => ?_) (fun j hj => ?_)
    (fun u hu => ?_) rfl ⟨rfl, rfl⟩ rfl rfl
  · exact call_scalar env _ _ rfl (fun _ => rfl) ..
  · simp only [value] at hj
    split at hj
    · rename_i h; rw [if_pos h]; exact (numOf_sound hj).1
    · rename_i h; rw [if_neg h]; cases hj; rfl
  · simp only [keyText] at hu
    split at hu
    · rename_i h
      rw [if_pos h]
      cases hn : numOf (env.f64 b) with
      | none => rw [hn] at hu; cases hu
      | some j => rw [hn] at hu; cases hu; exact ⟨rfl, (numOf_sound hn).2⟩
    · rename_i h; rw [if_neg h]; cases hu; exact ⟨rfl, rfl⟩

theorem text_run (n : Option Nat) (fs : List (Frag Text)) (tg em q bk : Bool) (o : Text) :
    run (call strWriter env) (toks (.text n fs)) ⟨tg, em, q, none, bk, o⟩ =
      .ok ⟨tg, false, q, none, bk, o ++ quote q (escape (fragsText fs))⟩ := by
  simp only [toks, run_cons]
  rw [call_one env _ _ rfl]
  cases q
  · simp only [step, textBegin, Bool.false_eq_true, if_false, Res.bind]
    rw [run_append, run_plain']
    simp only [run_cons, run_nil, Res.bind]
    rw [call_one env _ _ rfl]
    simp only [step, textEnd, Bool.false_eq_true, if_false, quote]
  · simp only [step, textBegin, if_true, Res.bind, wr_str]
    rw [run_append, run_plain']
    simp only [run_cons, run_nil, Res.bind]
    rw [call_one env _ _ rfl]
    simp only [step, textEnd, if_true, wr_str, quote]
    simp

theorem P4_text (n : Option Nat) (fs : List (Frag Text)) : P4 env (.text n fs) := by
  refine ⟨fun j hj _ tg em bk o _ => ?_, fun j hj => ?_, fun u hu _ em bk o => ?_, fun u hu => ?_⟩
  · cases hj
    exact ⟨_, tg, text_run .., .val ⟨_, escape_lit _, rfl⟩, by simp [quote, valueT, quoteT, escape_eq]⟩
  · cases hj
  · cases hu
    exact ⟨_, false, text_run .., escape_lit _, by simp [quote, keyT, escape_eq]⟩
  · cases hu

theorem tag_run (m : Meta) (tg em q bk : Bool) (o : Text) : ∃ t,
    run (call strWriter env) (toks (.tag m)) ⟨tg, em, q, none, bk, o⟩ = .ok ⟨false, false, q, none, bk, o ++ t⟩ ∧
      (q = true → Val (tagJ m) t ∧ t = tagT m) ∧ (q = false → StrLit t (tagKey m) ∧ t = tagKeyT m) := by
  simp only [toks, run_cons]
  rw [call_one env _ _ rfl]
  simp only [step, tagStep, tagJ, tagKey, tagT, tagKeyT, idOf_eq]
  by_cases h : m.tag = some tags.RUST_OPTION_NONE
  · simp only [if_pos h]
    exact ⟨t! "null", rfl, fun _ => ⟨rfl, rfl⟩, fun _ => ⟨raw_lit _ rfl, rfl⟩⟩
  · simp only [if_neg h]
    cases m.label with
    | some l =>
      refine ⟨quote q (escape l.text), ?_, ?_, ?_⟩
      · cases q <;> simp [textBegin, textEnd, textFragment, strWriter, Res.bind, wr, escapeStr_str, quote]
      · rintro rfl; exact ⟨⟨_, escape_lit _, rfl⟩, by simp [quote, quoteT, escape_eq]⟩
      · rintro rfl; exact ⟨escape_lit _, by simp [quote, escape_eq]⟩
    | none =>
      rw [ixI64_eq]
      cases m.index with
      | none => exact ⟨t! "null", rfl, fun _ => ⟨rfl, rfl⟩, fun _ => ⟨raw_lit _ rfl, rfl⟩⟩
      | some i =>
        simp only [Option.bind_some]
        by_cases hi : -2 ^ 63 ≤ i.val ∧ i.val ≤ 2 ^ 63 - 1
        all_goals simp only [hi, if_true, if_false, and_self]
        · exact ⟨intDec i.val, rfl, fun _ => ⟨intDec_val _, rfl⟩, fun _ => ⟨raw_lit _ (intDec_raw _), rfl⟩⟩
        · exact ⟨t! "null", rfl, fun _ => ⟨rfl, rfl⟩, fun _ => ⟨raw_lit _ rfl, rfl⟩⟩

theorem P4_tag (m : Meta) : P4 env (.tag m) := by
  refine ⟨fun j hj _ tg em bk o _ => ?_, fun j hj _ em bk o => ?_, fun u hu _ em bk o => ?_, fun u hu _ em bk o => ?_⟩
  · cases hj
    obtain ⟨t, h1, h2, _⟩ := tag_run env m tg em true bk o
    exact ⟨t, false, h1, .val (h2 rfl).1, (h2 rfl).2⟩
  · cases hj
    obtain ⟨t, h1, h2, _⟩ := tag_run env m true em true bk o
    exact ⟨t, h1, by simpa [named] using Doc.val (h2 rfl).1, by simpa [named, variantT] using (h2 rfl).2⟩
  · cases hu
    obtain ⟨t, h1, _, h2⟩ := tag_run env m false em false bk o
    exact ⟨t, false, h1, (h2 rfl).1, (h2 rfl).2⟩
  · cases hu
    obtain ⟨t, h1, _, h2⟩ := tag_run env m true em false bk o
    exact ⟨t, false, h1, (h2 rfl).1, (h2 rfl).2⟩

/-! ## Containers -/

theorem arr_run (xs : List V) (ih : ∀ x ∈ xs, PV env x) (js : List J) (hj : values env xs = some js) (hs : safes xs = true)
    (tg bk : Bool) (o : Text) : ∃ t tg' em, run (call strWriter env) (toksSeq xs) ⟨tg, true, true, none, bk, o ++ ['[']⟩ =
      .ok ⟨tg', em, true, none, bk, o ++ ('[' :: t)⟩ ∧ Doc (.arr js) ('[' :: (t ++ [']'])) ∧ t = commas (valuesT env xs) := by
  obtain ⟨t, tg', em, h1, h2, h3⟩ := seq_body env xs ih js hj hs tg bk (o ++ ['['])
  exact ⟨t, tg', em, by rw [h1]; simp, .val ⟨t, h2, rfl⟩, h3⟩

theorem obj_run (fs : List (Option Tag × Label × V)) (ih : ∀ f ∈ fs, PV env f.2.2) (js : List (Text × J))
    (hj : fields env fs = some js) (hs : safeFields fs = true) (tg bk : Bool) (o : Text) :
    ∃ t tg' em, run (call strWriter env) (toksRec fs) ⟨tg, true, true, none, bk, o ++ ['{']⟩ =
      .ok ⟨tg', em, true, none, bk, o ++ ('{' :: t)⟩ ∧ Doc (.obj js) ('{' :: (t ++ ['}'])) ∧ t = commas (fieldsT env fs) := by
  obtain ⟨t, tg', em, h1, h2, h3⟩ := rec_body env fs ih js hj hs tg bk (o ++ ['{'])
  exact ⟨t, tg', em, by rw [h1]; simp, .val ⟨t, h2, rfl⟩, h3⟩

theorem seq_run (n : Option Nat) (xs : List V) (ih : ∀ x ∈ xs, PV env x) (js : List J) (hj : values env xs = some js)
    (hs : safes xs = true) (tg em bk : Bool) (o : Text) :
    ∃ t tg', run (call strWriter env) (toks (.seq n xs)) ⟨tg, em, true, none, bk, o⟩ =
      .ok ⟨tg', false, true, none, bk, o ++ t⟩ ∧ Doc (.arr js) t ∧ t = brackets (valuesT env xs) := by
  obtain ⟨t, tg', em', h1, h2, h3⟩ := arr_run env xs ih js hj hs tg bk o
  refine ⟨_, tg', ?_, h2, by rw [h3, brackets]⟩
  simp only [toks, run_cons]
  rw [call_one env _ _ rfl]
  simp only [step, seqBegin, Bool.not_true, Bool.false_eq_true, if_false, wr_str, Res.bind, run_append, h1, run_cons, run_nil]
  rw [call_one env _ _ rfl]
  simp only [step, seqEnd, wr_str]
  simp

theorem P4_seq (n : Option Nat) (xs : List V) (ih : ∀ x ∈ xs, P4 env x) : P4 env (.seq n xs) := by
  refine ⟨fun j hj hs tg em bk o _ => ?_, fun j hj => (by cases hj), fun u hu => (by cases hu), fun u hu => (by cases hu)⟩
  rw [value, Option.map_eq_some_iff] at hj
  obtain ⟨js, hj, rfl⟩ := hj
  exact seq_run env n xs (fun x hx => (ih x hx).1) js hj hs tg em bk o

theorem P4_binary (n : Option Nat) (fs : List (Frag Bytes)) : P4 env (.binary n fs) := by
  refine ⟨fun j hj hs tg em bk o _ => ?_, fun j hj => (by cases hj), fun u hu => (by cases hu), fun u hu => (by cases hu)⟩
  cases hj
  rw [binary_run]
  have hT : valueT env (.binary n fs) = brackets (valuesT env (bytesV (fragsBytes fs))) := by rw [bytesV_valuesT]; rfl
  rw [hT]
  refine seq_run env n _ (fun x hx => ?_) _ (bytesV_values env _) (bytesV_safe _) tg em bk o
  simp only [bytesV, List.mem_map] at hx
  obtain ⟨b, _, rfl⟩ := hx
  exact (P4_int env _ _).1

theorem P4_map (n : Option Nat) (kvs : List (V × V)) (ih : ∀ f ∈ kvs, P4 env f.1 ∧ P4 env f.2) : P4 env (.map n kvs) := by
  refine ⟨fun j hj hs tg em bk o _ => ?_, fun j hj => (by cases hj), fun u hu => (by cases hu), fun u hu => (by cases hu)⟩
  rw [value, Option.map_eq_some_iff] at hj
  obtain ⟨js, hj, rfl⟩ := hj
  obtain ⟨t, tg', em', h1, h2, h3⟩ := map_body env kvs (fun f hf => ⟨(ih f hf).1.2.2.1, (ih f hf).2.1⟩) js hj hs tg bk (o ++ ['{'])
  refine ⟨'{' :: (t ++ ['}']), tg', ?_, .val ⟨t, h2, rfl⟩, by rw [h3]; rfl⟩
  simp only [toks, run_cons]
  rw [call_one env _ _ rfl]
  simp only [step, mapBegin, Bool.not_true, Bool.false_eq_true, if_false, wr_str, Res.bind, run_append, h1, run_cons, run_nil]
  rw [call_one env _ _ rfl]
  simp only [step, mapEnd, wr_str]
  simp

/-! ## Variants -/

/-- A variant: `body` after the name, in the state `tagBegin` leaves. -/
theorem variant_run (m : Meta) (j : J) (x : Text) (body : St Text → Res Unit (St Text))
    (hb : ∀ em bk o, ∃ t, body ⟨false, em, true, none, bk, o⟩ = .ok ⟨(idOf m).isSome, false, true, none, bk, o ++ t⟩ ∧
      Doc j t ∧ t = x)
    (em bk : Bool) (o : Text) : ∃ t, (tagBegin strWriter m ⟨true, em, true, none, bk, o⟩).bind body =
      .ok ⟨(idOf m).isSome, false, true, none, bk, o ++ t⟩ ∧ Doc (wrap m j) (t ++ if (idOf m).isSome then ['}'] else []) ∧
      (t ++ if (idOf m).isSome then ['}'] else []) = wrapT m x := by
  cases hk : idOf m with
  | none =>
    rw [tagBegin_skip' m _ _ _ _ _ _ (.inr hk)]
    obtain ⟨t, h1, h2, h3⟩ := hb em bk o
    rw [hk] at h1
    refine ⟨t, h1, ?_, ?_⟩
    · simpa [wrap, hk] using h2
    · simpa [wrapT, hk] using h3
  | some k =>
    obtain ⟨k', e, h1, h0, h2⟩ := tagBegin_open m ⟨true, em, true, none, bk, o⟩ k rfl rfl hk
    rw [h2]
    obtain ⟨t, h3, h4, h5⟩ := hb e bk (o ++ '{' :: keyLit k')
    rw [hk] at h3
    refine ⟨('{' :: keyLit k') ++ t, ?_, ?_, ?_⟩
    · simp only [Res.bind]
      rw [h3]
      simp
    · have := doc_wrap h1 h4
      simpa [wrap, hk] using this
    · simp [wrapT, hk, h0, h5, braces, commas]

/-- Not in an enum: the name is dropped. -/
theorem plain_run (m : Meta) (j : J) (x : Text) (body : St Text → Res Unit (St Text))
    (hb : ∀ em bk o, ∃ t, body ⟨false, em, true, none, bk, o⟩ = .ok ⟨(idOf m).isSome, false, true, none, bk, o ++ t⟩ ∧
      Doc j t ∧ t = x)
    (tg em bk : Bool) (o : Text) (h : tg = false ∨ (idOf m).isSome = false) :
    ∃ t tg', (tagBegin strWriter m ⟨tg, em, true, none, bk, o⟩).bind body = .ok ⟨tg', false, true, none, bk, o ++ t⟩ ∧
      Doc j t ∧ t = x := by
  rw [tagBegin_skip' m _ _ _ _ _ _ (by rcases h with h | h; exact .inl h; right; simpa using h)]
  obtain ⟨t, h1, h2⟩ := hb em bk o
  exact ⟨t, _, h1, h2⟩

theorem P4_record (m : Meta) (n : Option Nat) (fs : List (Option Tag × Label × V)) (ih : ∀ f ∈ fs, P4 env f.2.2) :
    P4 env (.record m n fs) := by
  have key : ∀ js, fields env fs = some js → safeFields fs = true → ∃ body : St Text → Res Unit (St Text),
      (∀ s, run (call strWriter env) (toks (.record m n fs)) s = (tagBegin strWriter m s).bind body) ∧
      ∀ em bk o, ∃ t, body ⟨false, em, true, none, bk, o⟩ = .ok ⟨(idOf m).isSome, false, true, none, bk, o ++ t⟩ ∧
        Doc (.obj js) t ∧ t = braces (fieldsT env fs) := by
    intro js hj hs
    refine ⟨fun s => (mapBegin strWriter s).bind fun s => run (call strWriter env) (toksRec fs ++ [.recordEnd m]) s,
      fun s => ?_, fun em bk o => ?_⟩
    · simp only [toks, run_cons]
      rw [call_one env _ _ rfl]
      simp only [step, Res.bind_assoc]
    · obtain ⟨t, tg', em', h1, h2, h3⟩ := obj_run env fs (fun f hf => (ih f hf).1) js hj hs false bk o
      refine ⟨_, ?_, h2, by rw [h3, braces]⟩
      simp only [mapBegin, Bool.not_true, Bool.false_eq_true, if_false, wr_str, Res.bind, run_append, h1, run_cons, run_nil]
      rw [call_one env _ _ rfl]
      simp only [step, mapEnd, wr_str, Res.bind, tagEnd_eq]
      simp
  refine ⟨fun j hj hs tg em bk o hn => ?_, fun j hj hs em bk o => ?_, fun u hu => (by cases hu), fun u hu => (by cases hu)⟩
  · rw [value, Option.map_eq_some_iff] at hj
    obtain ⟨js, hj, rfl⟩ := hj
    obtain ⟨body, h1, h2⟩ := key js hj hs
    rw [h1]
    exact plain_run m _ _ body h2 tg em bk o hn
  · rw [variant, Option.map_eq_some_iff] at hj
    obtain ⟨js, hj, rfl⟩ := hj
    obtain ⟨body, h1, h2⟩ := key js hj hs
    rw [h1]
    exact variant_run m _ _ body h2 em bk o

theorem P4_recordTuple (m : Meta) (n : Option Nat) (fs : List (Option Tag × Label × Index × V)) (ih : ∀ f ∈ fs, P4 env f.2.2.2) :
    P4 env (.recordTuple m n fs) := by
  have h := P4_record env m n (unRT fs) (fun f hf => by
    simp only [unRT, List.mem_map] at hf
    obtain ⟨g, hg, rfl⟩ := hf
    exact ih g hg)
  have hr : ∀ s, run (call strWriter env) (toks (.recordTuple m n fs)) s =
      run (call strWriter env) (toks (.record m n (unRT fs))) s := by
    intro s
    simp only [toks, run_cons]
    rw [call_recordTupleBegin]
    congr 1; funext s
    rw [run_append, run_append, rt_run]
    rfl
  have ht : valueT env (.recordTuple m n fs) = valueT env (.record m n (unRT fs)) ∧
      variantT env (.recordTuple m n fs) = variantT env (.record m n (unRT fs)) := by
    simp only [valueT, variantT, fieldsRTT_fieldsT, and_self]
  refine ⟨fun j hj hs tg em bk o hn => ?_, fun j hj hs em bk o => ?_, fun u hu => (by cases hu), fun u hu => (by cases hu)⟩
  · rw [hr, ht.1]
    exact h.1 j (by rw [value, ← fieldsRT_fields]; exact hj) (by rw [safe, ← safeRT_safeFields]; exact hs) tg em bk o hn
  · rw [hr, ht.2]
    exact h.2.1 j (by rw [variant, ← fieldsRT_fields]; exact hj) (by rw [safeVariant, ← safeRT_safeFields]; exact hs) em bk o

theorem P4_tuple (m : Meta) (n : Option Nat) (fs : List (Option Tag × Index × V)) (ih : ∀ f ∈ fs, P4 env f.2.2) :
    P4 env (.tuple m n fs) := by
  have key : ∀ js, items env fs = some js → safeItems fs = true → ∃ body : St Text → Res Unit (St Text),
      (∀ s, run (call strWriter env) (toks (.tuple m n fs)) s = (tagBegin strWriter m s).bind body) ∧
      ∀ em bk o, ∃ t, body ⟨false, em, true, none, bk, o⟩ = .ok ⟨(idOf m).isSome, false, true, none, bk, o ++ t⟩ ∧
        Doc (.arr js) t ∧ t = brackets (itemsT env fs) := by
    intro js hj hs
    refine ⟨fun s => (seqBegin strWriter s).bind fun s => run (call strWriter env) (toksTup fs ++ [.tupleEnd m]) s,
      fun s => ?_, fun em bk o => ?_⟩
    · simp only [toks, run_cons]
      rw [call_one env _ _ rfl]
      simp only [step, Res.bind_assoc]
    · obtain ⟨t, tg', em', h1, h2, h3⟩ := arr_run env (fs.map (·.2.2)) (fun x hx => by
        simp only [List.mem_map] at hx
        obtain ⟨f, hf, rfl⟩ := hx
        exact (ih f hf).1) js (by rw [← items_values]; exact hj) (by rw [← safeItems_safes]; exact hs) false bk o
      refine ⟨_, ?_, h2, by rw [h3, brackets, itemsT_valuesT]⟩
      simp only [seqBegin, Bool.not_true, Bool.false_eq_true, if_false, wr_str, Res.bind, run_append, tup_run, h1, run_cons, run_nil]
      rw [call_one env _ _ rfl]
      simp only [step, seqEnd, wr_str, Res.bind, tagEnd_eq]
      simp
  refine ⟨fun j hj hs tg em bk o hn => ?_, fun j hj hs em bk o => ?_, fun u hu => (by cases hu), fun u hu => (by cases hu)⟩
  · rw [value, Option.map_eq_some_iff] at hj
    obtain ⟨js, hj, rfl⟩ := hj
    obtain ⟨body, h1, h2⟩ := key js hj hs
    rw [h1]
    exact plain_run m _ _ body h2 tg em bk o hn
  · rw [variant, Option.map_eq_some_iff] at hj
    obtain ⟨js, hj, rfl⟩ := hj
    obtain ⟨body, h1, h2⟩ := key js hj hs
    rw [h1]
    exact variant_run m _ _ body h2 em bk o

/-! ## Tagged values -/

theorem tagged_run (m : Meta) (v : V) (h : isSpecialTag m.tag = false) (s : St Text) :
    run (call strWriter env) (toks (.tagged m v)) s = (tagBegin strWriter m s).bind fun s =>
      (run (call strWriter env) (toks v) { s with empty := true }).bind fun s =>
        (if s.empty then tagStep strWriter m s else .ok s).bind fun s => tagEnd m s := by
  simp only [isSpecialTag, Bool.or_eq_false_iff, decide_eq_false_iff_not] at h
  obtain ⟨⟨⟨h1, h2⟩, h3⟩, h4⟩ := h
  simp only [toks, run_cons]
  rw [call_one env _ _ rfl]
  simp only [step, taggedBegin, if_neg h1, if_neg h2, if_neg h3, if_neg h4, Res.bind_assoc]
  congr 1; funext s
  simp only [Res.bind]
  rw [run_append]
  congr 1; funext s
  simp only [run_cons]
  rw [call_one env _ _ rfl]
  simp only [step, taggedEnd, if_neg h1, if_neg h2, if_neg h3, if_neg h4]
  rw [Res.bind_run_nil]
  rfl

theorem enum_run (m : Meta) (v : V) (s : St Text) :
    run (call strWriter env) (toks (.enum m v)) s = (tagBegin strWriter m s).bind fun s =>
      (run (call strWriter env) (toks v) { s with tagged := true, empty := true }).bind fun s =>
        (if s.empty then tagStep strWriter m s else .ok s).bind fun s =>
          if s.tagged then tagMapEnd strWriter s else tagEnd m s := by
  simp only [toks, run_cons]
  rw [call_one env _ _ rfl]
  simp only [step, enumBegin, Res.bind_assoc]
  congr 1; funext s
  simp only [Res.bind]
  rw [run_append]
  congr 1; funext s
  simp only [run_cons]
  rw [call_one env _ _ rfl]
  rw [Res.bind_run_nil]
  rfl

theorem special_cases {t : Option Tag} (h : isSpecialTag t = true) : t = some tags.NUMBER ∨
    (t = some tags.JSON_VALUE ∨ t = some tags.JSON_NUMBER) ∨ t = some tags.JSON_TEXT := by
  simp only [isSpecialTag, Bool.or_eq_true, decide_eq_true_eq] at h
  rcases h with ((h | h) | h) | h
  · exact .inl h
  · exact .inr (.inl (.inl h))
  · exact .inr (.inl (.inr h))
  · exact .inr (.inr h)

/-- Specially tagged text that is not the content of a named variant. -/
theorem special_value (m : Meta) (v : V) (t : Text) (j : J) (h : isSpecialTag m.tag = true) (ht : textOf v = some t)
    (hj : specialJ m.tag t = some j) (hsafe : safeText m.tag v = true) (tg em bk : Bool) (o : Text)
    (hn : tg = false ∨ idOf m = none) :
    ∃ u, run (call strWriter env) (toks (.tagged m v)) ⟨tg, em, true, none, bk, o⟩ =
      .ok ⟨(idOf m).isSome, false, true, none, bk, o ++ u⟩ ∧ Doc j u ∧ u = specialT m.tag t := by
  rcases special_cases h with h | h | h
  · simp only [specialJ, if_pos h] at hj
    obtain ⟨u, hu, hv⟩ := numberOf_sound hj
    have hz : zeroExp t = false := by simpa [safeText, ht, h] using hsafe
    exact ⟨u, special_number env m v _ t u h ht hu hz rfl hn, .val hv, by simp [specialT, specialKeyT, h, hu, show ¬ tags.NUMBER = tags.JSON_TEXT by decide]⟩
  · refine ⟨t, special_raw env m v _ t h ht hn, ?_, by
      rcases h with h | h <;> simp [specialT, specialKeyT, h, show ¬ tags.JSON_VALUE = tags.JSON_TEXT by decide,
        show ¬ tags.JSON_NUMBER = tags.JSON_TEXT by decide, show ¬ tags.JSON_NUMBER = tags.NUMBER by decide,
        show ¬ tags.JSON_VALUE = tags.NUMBER by decide]⟩
    rcases h with h | h
    · simp only [specialJ, h, Option.some.injEq, show ¬ tags.JSON_VALUE = tags.NUMBER by decide, if_false, if_true] at hj
      exact parse_sound hj
    · simp only [specialJ, h, Option.some.injEq, show ¬ tags.JSON_NUMBER = tags.NUMBER by decide,
        show ¬ tags.JSON_NUMBER = tags.JSON_VALUE by decide, if_false, if_true] at hj
      exact .val (numOf_sound hj).1
  · refine ⟨_, special_text_aux env m v ⟨tg, em, true, none, bk, o⟩ ⟨false, em, true, none, bk, o⟩ t h ht
      (tagBegin_skip' m _ _ _ _ _ _ hn), ?_, by simp [specialT, h, quote, quoteT]⟩
    simp only [specialJ, h, Option.some.injEq, show ¬ tags.JSON_TEXT = tags.NUMBER by decide,
      show ¬ tags.JSON_TEXT = tags.JSON_VALUE by decide, show ¬ tags.JSON_TEXT = tags.JSON_NUMBER by decide, if_false,
      Option.map_eq_some_iff] at hj
    obtain ⟨u, hu, rfl⟩ := hj
    exact .val ⟨t, strOf_sound hu, rfl⟩

theorem special_key (m : Meta) (v : V) (t u : Text) (h : isSpecialTag m.tag = true) (ht : textOf v = some t)
    (hj : specialKey m.tag t = some u) (hsafe : safeText m.tag v = true)
    (hraw : m.tag ≠ some tags.JSON_VALUE ∨ t.all rawOk = true) (tg em bk : Bool) (o : Text)
    (hn : tg = false ∨ idOf m = none) :
    ∃ u' q, run (call strWriter env) (toks (.tagged m v)) ⟨tg, em, false, none, bk, o⟩ =
      .ok ⟨(idOf m).isSome, false, q, none, bk, o ++ u'⟩ ∧ StrLit u' u ∧ u' = specialKeyT m.tag t := by
  rcases special_cases h with h | h | h
  · simp only [specialKey, if_pos h] at hj
    have hz : zeroExp t = false := by simpa [safeText, ht, h] using hsafe
    exact ⟨u, true, special_number env m v _ t u h ht hj hz rfl hn, raw_lit _ (numberKey_raw hj), by simp [specialKeyT, h, hj]⟩
  · refine ⟨t, true, special_raw env m v _ t h ht hn, ?_, by
      rcases h with h | h <;> simp [specialKeyT, h, show ¬ tags.JSON_NUMBER = tags.NUMBER by decide,
        show ¬ tags.JSON_VALUE = tags.NUMBER by decide]⟩
    rcases h with h | h
    · simp only [specialKey, h, Option.some.injEq, show ¬ tags.JSON_VALUE = tags.NUMBER by decide, if_false, if_true,
        Option.map_eq_some_iff] at hj
      obtain ⟨_, _, rfl⟩ := hj
      rcases hraw with hraw | hraw
      · exact absurd h hraw
      · exact raw_lit _ hraw
    · simp only [specialKey, h, Option.some.injEq, show ¬ tags.JSON_NUMBER = tags.NUMBER by decide,
        show ¬ tags.JSON_NUMBER = tags.JSON_VALUE by decide, if_false, if_true, Option.map_eq_some_iff] at hj
      obtain ⟨_, hj, rfl⟩ := hj
      exact raw_lit _ (numOf_sound hj).2
  · refine ⟨t, false, special_text_aux env m v ⟨tg, em, false, none, bk, o⟩ ⟨false, em, false, none, bk, o⟩ t h ht
      (tagBegin_skip' m _ _ _ _ _ _ hn), ?_,
      by simp [specialKeyT, h, show ¬ tags.JSON_TEXT = tags.NUMBER by decide]⟩
    simp only [specialKey, h, Option.some.injEq, show ¬ tags.JSON_TEXT = tags.NUMBER by decide,
      show ¬ tags.JSON_TEXT = tags.JSON_VALUE by decide, show ¬ tags.JSON_TEXT = tags.JSON_NUMBER by decide, if_false] at hj
    exact strOf_sound hj

/-- Literal JSON text in a named variant. -/
theorem special_open (m : Meta) (v : V) (t k : Text) (j : J) (h : m.tag = some tags.JSON_TEXT) (ht : textOf v = some t)
    (hj : specialJ m.tag t = some j) (hk : idOf m = some k) (em bk : Bool) (o : Text) :
    ∃ u, run (call strWriter env) (toks (.tagged m v)) ⟨true, em, true, none, bk, o⟩ =
      .ok ⟨true, false, true, none, bk, o ++ u⟩ ∧ Doc (wrap m j) (u ++ ['}']) ∧
      u ++ ['}'] = wrapT m (specialT m.tag t) := by
  obtain ⟨k', e, h1, h0, h2⟩ := tagBegin_open m ⟨true, em, true, some .native, bk, o⟩ k rfl rfl hk
  have := special_text_aux env m v ⟨true, em, true, none, bk, o⟩ ⟨false, e, true, none, bk, o ++ ('{' :: keyLit k')⟩ t h ht h2
  rw [hk] at this
  refine ⟨('{' :: keyLit k') ++ quote true t, by rw [this]; simp, ?_,
    by simp [wrapT, hk, h0, braces, commas, specialT, h, quote, quoteT]⟩
  simp only [specialJ, h, Option.some.injEq, show ¬ tags.JSON_TEXT = tags.NUMBER by decide,
    show ¬ tags.JSON_TEXT = tags.JSON_VALUE by decide, show ¬ tags.JSON_TEXT = tags.JSON_NUMBER by decide, if_false,
    Option.map_eq_some_iff] at hj
  obtain ⟨x, hx, rfl⟩ := hj
  have hd := doc_wrap h1 (Doc.val (j := .str x) (t := quote true t) ⟨t, strOf_sound hx, rfl⟩)
  simpa [wrap, hk] using hd

theorem P4_tagged (m : Meta) (v : V) (ih : P4 env v) : P4 env (.tagged m v) := by
  by_cases hsp : isSpecialTag m.tag = true
  · refine ⟨fun j hj hs tg em bk o hn => ?_, fun j hj hs em bk o => ?_, fun u hu hs em bk o => ?_, fun u hu hs em bk o => ?_⟩
    · simp only [value, hsp, if_true, Option.bind_eq_some_iff] at hj
      obtain ⟨t, ht, hj⟩ := hj
      simp only [safe, hsp, if_true] at hs
      obtain ⟨u, h1, h2, h3⟩ := special_value env m v t j hsp ht hj hs tg em bk o (by simpa [named] using hn)
      exact ⟨u, _, h1, h2, by simp [valueT, hsp, ht, h3]⟩
    · simp only [variant, hsp, if_true, Option.map_eq_some_iff, Option.bind_eq_some_iff] at hj
      obtain ⟨j, ⟨t, ht, hj⟩, rfl⟩ := hj
      simp only [safeVariant, hsp, if_true, Bool.and_eq_true, Bool.or_eq_true, decide_eq_true_eq] at hs
      cases hk : idOf m with
      | none =>
        obtain ⟨u, h1, h2, h3⟩ := special_value env m v t j hsp ht hj hs.1 true em bk o (.inr hk)
        exact ⟨u, by rw [h1]; rfl, by simpa [named, wrap, hk] using h2, by simp [named, variantT, wrapT, hsp, ht, h3, hk]⟩
      | some k =>
        have ht' : m.tag = some tags.JSON_TEXT := by rw [hk] at hs; simpa using hs.2
        obtain ⟨u, h1, h2, h3⟩ := special_open env m v t k j ht' ht hj hk em bk o
        refine ⟨u, by rw [h1]; simp [named, hk], by simpa [named, hk] using h2,
          by simpa [named, variantT, hsp, ht, hk] using h3⟩
    · simp only [keyText, hsp, if_true, Option.bind_eq_some_iff] at hu
      obtain ⟨t, ht, hu⟩ := hu
      simp only [safeKey, hsp, if_true, ht, Option.getD_some, Bool.and_eq_true, Bool.or_eq_true, bne_iff_ne] at hs
      have hT : keyT env (.tagged m v) = specialKeyT m.tag t := by simp [keyT, hsp, ht]
      rw [hT]
      exact special_key env m v t u hsp ht hu hs.1 hs.2 false em bk o (.inl rfl)
    · simp only [keyVariant, hsp, if_true] at hu
      split at hu
      · rename_i hk
        simp only [Option.bind_eq_some_iff] at hu
        obtain ⟨t, ht, hu⟩ := hu
        simp only [safeKey, hsp, if_true, ht, Option.getD_some, Bool.and_eq_true, Bool.or_eq_true, bne_iff_ne] at hs
        have := special_key env m v t u hsp ht hu hs.1 hs.2 true em bk o (.inr hk)
        have hT : keyT env (.tagged m v) = specialKeyT m.tag t := by simp [keyT, hsp, ht]
        rw [hk] at this
        rw [hT]
        exact this
      · cases hu
  · rw [Bool.not_eq_true] at hsp
    have hb : ∀ j, value env v = some j → safe v = true → ∀ bk o, ∃ t,
        ((run (call strWriter env) (toks v) ⟨false, true, true, none, bk, o⟩).bind fun s =>
          (if s.empty then tagStep strWriter m s else .ok s).bind fun s => tagEnd m s) =
            .ok ⟨(idOf m).isSome, false, true, none, bk, o ++ t⟩ ∧ Doc j t ∧ t = valueT env v := by
      intro j hj hs bk o
      obtain ⟨t, tg', h1, h2⟩ := ih.1 j hj hs false true bk o (.inl rfl)
      refine ⟨t, ?_, h2⟩
      rw [h1]
      simp only [Res.bind, Bool.false_eq_true, if_false, tagEnd_eq]
    refine ⟨fun j hj hs tg em bk o hn => ?_, fun j hj hs em bk o => ?_, fun u hu hs em bk o => ?_, fun u hu hs em bk o => ?_⟩
    · rw [tagged_run env m v hsp]
      simp only [value, hsp, Bool.false_eq_true, if_false] at hj
      simp only [safe, hsp, Bool.false_eq_true, if_false] at hs
      have hT : valueT env (.tagged m v) = valueT env v := by simp [valueT, hsp]
      rw [hT]
      exact plain_run m j _ _ (fun _ bk o => hb j hj hs bk o) tg em bk o hn
    · rw [tagged_run env m v hsp]
      simp only [variant, hsp, Bool.false_eq_true, if_false, Option.map_eq_some_iff] at hj
      obtain ⟨j, hj, rfl⟩ := hj
      simp only [safeVariant, hsp, Bool.false_eq_true, if_false] at hs
      have hT : variantT env (.tagged m v) = wrapT m (valueT env v) := by simp [variantT, hsp]
      rw [hT]
      exact variant_run m j _ _ (fun _ bk o => hb j hj hs bk o) em bk o
    · rw [tagged_run env m v hsp, tagBegin_skip' m _ _ _ _ _ _ (.inl rfl)]
      simp only [keyText, hsp, Bool.false_eq_true, if_false] at hu
      simp only [safeKey, hsp, Bool.false_eq_true, if_false] at hs
      obtain ⟨t, q, h1, h2, h3⟩ := ih.2.2.1 u hu hs true bk o
      refine ⟨t, q, ?_, h2, by simp [keyT, hsp, h3]⟩
      simp only [Res.bind, h1, Bool.false_eq_true, if_false, tagEnd_eq, named]
    · simp only [keyVariant, hsp, Bool.false_eq_true, if_false] at hu
      split at hu
      · rename_i hk
        rw [tagged_run env m v hsp, tagBegin_skip' m _ _ _ _ _ _ (.inr hk)]
        simp only [safeKey, hsp, Bool.false_eq_true, if_false] at hs
        obtain ⟨t, q, h1, h2, h3⟩ := ih.2.2.1 u hu hs true bk o
        refine ⟨t, q, ?_, h2, by simp [keyT, hsp, h3]⟩
        simp only [Res.bind, h1, Bool.false_eq_true, if_false, tagEnd_eq, hk, Option.isSome_none]
      · cases hu

theorem P4_enum (m : Meta) (v : V) (ih : P4 env v) : P4 env (.enum m v) := by
  have hb : ∀ j, variant env v = some j → safeVariant v = true → ∀ bk o, ∃ t,
      ((run (call strWriter env) (toks v) ⟨true, true, true, none, bk, o⟩).bind fun s =>
        (if s.empty then tagStep strWriter m s else .ok s).bind fun s =>
          if s.tagged then tagMapEnd strWriter s else tagEnd m s) =
          .ok ⟨named v || (idOf m).isSome, false, true, none, bk, o ++ t⟩ ∧ Doc j t ∧ t = variantT env v := by
    intro j hj hs bk o
    obtain ⟨t, h1, h2, h3⟩ := ih.2.1 j hj hs true bk o
    rw [h1]
    cases hn : named v
    · refine ⟨t, ?_, by simpa [hn] using h2, by simpa [hn] using h3⟩
      simp only [Res.bind, Bool.false_eq_true, if_false, tagEnd_eq, Bool.false_or]
    · refine ⟨t ++ ['}'], ?_, by simpa [hn] using h2, by simpa [hn] using h3⟩
      simp [Res.bind, tagMapEnd, mapEnd, wr_str]
  refine ⟨fun j hj hs tg em bk o hn => ?_, fun j hj hs em bk o => ?_, fun u hu hs em bk o => ?_, fun u hu hs em bk o => ?_⟩
  · rw [enum_run, tagBegin_skip' m _ _ _ _ _ _ (by simpa [named] using hn)]
    obtain ⟨t, h1, h2⟩ := hb j hj hs bk o
    exact ⟨t, _, h1, h2⟩
  · rw [enum_run]
    simp only [variant, Option.map_eq_some_iff] at hj
    obtain ⟨j, hj, rfl⟩ := hj
    simp only [safeVariant, Bool.and_eq_true, Bool.or_eq_true, Bool.not_eq_true'] at hs
    refine variant_run m j _ _ (fun em bk o => ?_) em bk o
    obtain ⟨t, h1, h2⟩ := hb j hj hs.1 bk o
    refine ⟨t, ?_, h2⟩
    have : (named v || (idOf m).isSome) = (idOf m).isSome := by
      rcases hs.2 with h | h
      · rw [h, Bool.or_true]
      · rw [h, Bool.false_or]
    rw [this] at h1
    exact h1
  · rw [enum_run, tagBegin_skip' m _ _ _ _ _ _ (.inl rfl)]
    obtain ⟨t, q, h1, h2, h3⟩ := ih.2.2.2 u hu hs true bk o
    refine ⟨t, q, ?_, h2, by simp [keyT, h3]⟩
    simp only [Res.bind, h1, Bool.false_eq_true, if_false, tagEnd_eq, named]
  · simp only [keyVariant] at hu
    split at hu
    · rename_i hk
      rw [enum_run, tagBegin_skip' m _ _ _ _ _ _ (.inr hk)]
      obtain ⟨t, q, h1, h2, h3⟩ := ih.2.2.2 u hu hs true bk o
      refine ⟨t, q, ?_, h2, by simp [keyT, h3]⟩
      simp only [Res.bind, h1, Bool.false_eq_true, if_false, tagEnd_eq, hk, Option.isSome_none]
    · cases hu

theorem P4_hint (t : Tag) (v : V) (ih : P4 env v) : P4 env (.hint t v) := by
  have h : ∀ s, run (call strWriter env) (toks (.hint t v)) s = run (call strWriter env) (toks v) s := fun s => rfl
  refine ⟨fun j hj hs tg em bk o hn => ?_, fun j hj hs em bk o => ?_, fun u hu hs em bk o => ?_, fun u hu hs em bk o => ?_⟩
  · rw [h]; exact ih.1 j hj hs tg em bk o hn
  · rw [h]; exact ih.2.1 j hj hs em bk o
  · rw [h]; exact ih.2.2.1 u hu hs em bk o
  · rw [h]; exact ih.2.2.2 u hu hs em bk o

theorem P4_all (v : V) : P4 env v := by
  induction v using V.ind with
  | null => exact P4_null env
  | bool b => exact P4_bool env b
  | int t v => exact P4_int env t v
  | f32 b => exact P4_f32 env b
  | f64 b => exact P4_f64 env b
  | text n fs => exact P4_text env n fs
  | binary n fs => exact P4_binary env n fs
  | seq n xs ih => exact P4_seq env n xs ih
  | map n kvs ih => exact P4_map env n kvs ih
  | tag m => exact P4_tag env m
  | tagged m v ih => exact P4_tagged env m v ih
  | enum m v ih => exact P4_enum env m v ih
  | record m n fs ih => exact P4_record env m n fs ih
  | tuple m n fs ih => exact P4_tuple env m n fs ih
  | recordTuple m n fs ih => exact P4_recordTuple env m n fs ih
  | hint t v ih => exact P4_hint env t v ih

/-- The machine on a whole document. -/
theorem run_value (v : V) (j : J) (hj : value env v = some j) (hs : safe v = true) :
    ∃ t s, run (call strWriter env) (toks v) { out := [] } = .ok s ∧ s.out = t ∧ Doc j t := by
  obtain ⟨t, tg, h1, h2, _⟩ := (P4_all env v).1 j hj hs false true false [] (.inl rfl)
  exact ⟨t, _, h1, by simp, h2⟩

/-- And how the document is spelled. -/
theorem run_text (v : V) (j : J) (hj : value env v = some j) (hs : safe v = true) :
    ∃ s, run (call strWriter env) (toks v) { out := [] } = .ok s ∧ s.out = valueT env v := by
  obtain ⟨t, tg, h1, _, h2⟩ := (P4_all env v).1 j hj hs false true false [] (.inl rfl)
  exact ⟨_, h1, by simp [h2]⟩

end Sval.Json
