import Verif.Json.Fate

set_option autoImplicit false

/-!
# The fate of values

That `fate` is right, for the writer that keeps nothing.
-/

namespace Sval.Json

def hand : Option Handler → Hand
  | none => .plain
  | some .native => .raw
  | some (.number _) => .number

/-- The calls end as `x` says, and if they come through then with `P`. -/
def Comes (r : Res Unit (St Unit)) (x : Fate) (P : St Unit → Prop) : Prop :=
  match x with
  | .written => ∃ s, r = .ok s ∧ P s
  | .refused => ∃ s, r = .err () s ∧ s.badKey = true
  | .panic => r = .panic

theorem Comes.then {r : Res Unit (St Unit)} {k : St Unit → Res Unit (St Unit)} {x y : Fate} {P Q : St Unit → Prop}
    (h : Comes r x P) (hk : ∀ s, P s → Comes (k s) y Q) : Comes (r.bind k) (x.then y) Q := by
  cases x with
  | written => obtain ⟨s, rfl, hp⟩ := h; exact hk s hp
  | refused => obtain ⟨s, rfl, hp⟩ := h; exact ⟨s, rfl, hp⟩
  | panic => cases h; exact (rfl : Res.panic = Res.panic)

theorem Comes.mono {r : Res Unit (St Unit)} {x : Fate} {P Q : St Unit → Prop} (h : Comes r x P) (hp : ∀ s, P s → Q s) : Comes r x Q := by
  cases x with
  | written => obtain ⟨s, rfl, h⟩ := h; exact ⟨s, rfl, hp s h⟩
  | refused => exact h
  | panic => exact h

theorem Fate.then_written (x : Fate) : x.then .written = x := by cases x <;> rfl

variable (env : Env)

/-- A call on the formatter whose writer keeps nothing. -/
abbrev callN (t : Token) (s : St Unit) : Res Unit (St Unit) := call noWriter env t s

theorem callN_native {t : Token} (h : Low.tok jsonCaps t = [t]) (s : St Unit) : callN env t s = step noWriter env t s := by
  rw [callN, call, h, run_cons]
  cases step noWriter env t s <;> rfl

theorem run_callN (ts : List Token) (s : St Unit) : run (callN env) ts s = run (step noWriter env) (lower jsonCaps ts) s := by
  induction ts generalizing s with
  | nil => rfl
  | cons t ts ih =>
    rw [run_cons, lower, List.flatMap_cons, run_append]
    show (run (step noWriter env) (Low.tok jsonCaps t) s).bind _ = _
    congr 1; funext s; exact ih s

variable {env}

theorem Comes.app {ts us : List Token} {x y : Fate} {s : St Unit} {P Q : St Unit → Prop} (h : Comes (run (callN env) ts s) x P)
    (hk : ∀ s', P s' → Comes (run (callN env) us s') y Q) : Comes (run (callN env) (ts ++ us) s) (x.then y) Q := by
  rw [run_append]
  exact h.then hk

/-- A call that cannot fail, in front. -/
theorem Comes.pre {t : Token} {ts : List Token} {s s1 : St Unit} {x : Fate} {P : St Unit → Prop} (h : callN env t s = .ok s1)
    (ho : Comes (run (callN env) ts s1) x P) : Comes (run (callN env) (t :: ts) s) x P := by
  rw [run_cons, h]
  exact ho

theorem Comes.done {s : St Unit} {P : St Unit → Prop} (h : P s) : Comes (run (callN env) [] s) .written P := ⟨s, rfl, h⟩

/-- A last call that cannot fail. -/
theorem Comes.last {t : Token} {s s1 : St Unit} {P : St Unit → Prop} (h : callN env t s = .ok s1) (hp : P s1) :
    Comes (run (callN env) [t] s) .written P := Comes.pre h (Comes.done hp)

/-- A first call that fails. -/
theorem Comes.fail {t : Token} {ts : List Token} {s s1 : St Unit} {P : St Unit → Prop} (h : callN env t s = .err () s1)
    (hb : s1.badKey = true) : Comes (run (callN env) (t :: ts) s) .refused P := by
  rw [run_cons, h]
  exact ⟨s1, rfl, hb⟩

/-! ## Text -/

/-- Has a number begun, but not its digits? -/
def waits : Option Handler → Bool
  | some (.number n) => n.atStart && !n.nan
  | _ => false

theorem fragment_none (v : Text) (s : St Unit) : ∃ h',
    textFragment noWriter v s = (if waits s.handler && cuts v then .panic else .ok { s with handler := h' }) ∧
      hand h' = hand s.handler ∧ waits h' = (waits s.handler && !v.any odd && !v.any firm) := by
  obtain ⟨tg, em, q, h, bk, ⟨⟩⟩ := s
  match h with
  | none => exact ⟨none, by simp only [textFragment, wr, escape_none]; rfl, rfl, rfl⟩
  | some .native => exact ⟨some .native, rfl, rfl, rfl⟩
  | some (.number ⟨a, neg, true⟩) =>
    refine ⟨some (.number ⟨a, neg, true⟩), ?_, rfl, by simp [waits]⟩
    simp [textFragment, numFragment, waits]
  | some (.number ⟨a, neg, false⟩) =>
    obtain ⟨neg', h⟩ := numFragment_none v a neg
    refine ⟨some (.number ⟨a && !v.any odd && !v.any firm, neg', v.any odd⟩), ?_, rfl, ?_⟩
    · simp only [textFragment, h, waits, Bool.not_false, Bool.and_true]
      cases a && cuts v <;> rfl
    · simp only [waits, Bool.not_false, Bool.and_true]
      cases v.any odd <;> simp

theorem frags_none (fs : List (Frag Text)) (s : St Unit) :
    Comes (run (callN env) (fs.map textFragTok) s) (if waits s.handler && trips (fs.map Frag.content) then .panic else .written)
      fun s' => ∃ h', s' = { s with handler := h' } ∧ hand h' = hand s.handler := by
  induction fs generalizing s with
  | nil =>
    simp only [List.map_nil, trips, Bool.and_false]
    exact ⟨s, rfl, s.handler, rfl, rfl⟩
  | cons x fs ih =>
    have hx : callN env (textFragTok x) s = textFragment noWriter x.content s := by
      have : callN env (textFragTok x) s = (textFragment noWriter x.content s).bind fun s => .ok s := by cases x <;> rfl
      rw [this]
      cases textFragment noWriter x.content s <;> rfl
    obtain ⟨h', h1, h2, h3⟩ := fragment_none x.content s
    rw [List.map_cons, run_cons, hx, h1, List.map_cons, trips]
    cases hc : (waits s.handler && cuts x.content) with
    | true =>
      simp only [Bool.and_eq_true] at hc
      rw [hc.1, hc.2]
      exact (rfl : Res.panic = Res.panic)
    | false =>
      have ih := ih { s with handler := h' }
      simp only at ih
      rw [h3] at ih
      have e : (waits s.handler && (cuts x.content || !x.content.any odd && !x.content.any firm && trips (fs.map Frag.content))) =
          (waits s.handler && !x.content.any odd && !x.content.any firm && trips (fs.map Frag.content)) := by
        cases hw : waits s.handler with
        | false => rfl
        | true =>
          rw [hw, Bool.true_and] at hc
          rw [hc]
          simp only [Bool.true_and, Bool.false_or]
      rw [e]
      refine ih.mono ?_
      rintro _ ⟨h2', rfl, h4⟩
      exact ⟨h2', rfl, h4.trans h2⟩

/-! ## Values -/

/-- What the calls of a value do. -/
def FateOf (env : Env) (v : V) : Prop := ∀ (tg em q : Bool) (h : Option Handler) (bk : Bool),
  (hand h = .number → waits h = true ∧ q = false) →
  Comes (run (callN env) (toks v) ⟨tg, em, q, h, bk, ()⟩) (fate tg q (hand h) v) fun s' =>
    s'.tagged = leaves tg v ∧ s'.empty = false ∧ (q = true → s'.quoted = true) ∧ hand s'.handler = (hand h).after v

theorem waits_number (h : Option Handler) (hw : waits h = true) : hand h = .number := by
  match h with
  | none => cases hw
  | some .native => cases hw
  | some (.number n) => rfl

theorem after_number {x : Hand} {v : V} (h : x ≠ .number) : x.after v ≠ .number := by
  unfold Hand.after
  split
  · exact nofun
  · exact h

theorem waits_eq {h : Option Handler} {q : Bool} (hh : hand h = .number → waits h = true ∧ q = false) :
    waits h = decide (hand h = .number) := by
  cases hw : waits h with
  | true => rw [waits_number h hw]; rfl
  | false =>
    refine (decide_eq_false fun hn => ?_).symm
    rw [(hh hn).1] at hw; cases hw

theorem fate_text (n : Option Nat) (fs : List (Frag Text)) : FateOf env (.text n fs) := by
  intro tg em q h bk hh
  have hb : callN env (.textBegin n) ⟨tg, em, q, h, bk, ()⟩ = .ok ⟨tg, false, q, h, bk, ()⟩ := by cases q <;> rfl
  rw [toks]
  refine Comes.pre hb ?_
  have h1 := frags_none (env := env) fs ⟨tg, false, q, h, bk, ()⟩
  have e : fate tg q (hand h) (.text n fs) = (if waits h && trips (fs.map Frag.content) then Fate.panic else .written).then .written := by
    rw [Fate.then_written, fate, waits_eq hh]
    simp only [Bool.and_eq_true, decide_eq_true_eq]
  rw [e]
  refine Comes.app h1 ?_
  rintro _ ⟨h', rfl, h2⟩
  refine Comes.last (s1 := ⟨tg, false, q, h', bk, ()⟩) (by cases q <;> rfl) ⟨rfl, rfl, id, h2⟩

theorem fate_int (t : IntTy) (x : Int) : FateOf env (.int t x) := by
  intro tg em q h bk hh
  refine Comes.last (s1 := ⟨tg, false, q, h, bk, ()⟩) ?_ ⟨rfl, rfl, id, rfl⟩
  cases t <;> rfl

theorem after_or {x : Hand} {a b : Bool} :
    (if b then Hand.plain else if a then .plain else x) = if a || b then .plain else x := by
  cases a <;> cases b <;> rfl

theorem fates_ok (xs : List V) (ih : ∀ x ∈ xs, FateOf env x) (s : St Unit) (hn : hand s.handler ≠ .number) (hq : s.quoted = true) :
    Comes (run (callN env) (toksSeq xs) s) (fate.fates (hand s.handler) xs) fun s' =>
      s'.tagged = leaves.leavesSeq s.tagged xs ∧ s'.quoted = true ∧
        hand s'.handler = if resets.resetsSeq xs then .plain else hand s.handler := by
  induction xs generalizing s with
  | nil => exact Comes.done ⟨rfl, hq, rfl⟩
  | cons x xs ihx =>
    obtain ⟨tg, em, q, h, bk, ⟨⟩⟩ := s
    cases hq
    refine Comes.pre (s1 := ⟨false, em, true, h, bk, ()⟩) (by cases em <;> rfl) ?_
    refine Comes.app (ih x (.head _) false em true h bk fun h => absurd h hn) fun s' hs => ?_
    have := ihx (fun x hx => ih x (.tail _ hx)) s' (by rw [hs.2.2.2]; exact after_number hn) (hs.2.2.1 rfl)
    rw [hs.1, hs.2.2.2] at this
    refine Comes.pre (s1 := s') rfl (this.mono fun f hf => ⟨hf.1, hf.2.1, ?_⟩)
    rw [hf.2.2, Hand.after, after_or]; rfl

theorem fateMap_ok (kvs : List (V × V)) (ih : ∀ kv ∈ kvs, FateOf env kv.1 ∧ FateOf env kv.2) (s : St Unit)
    (hn : hand s.handler ≠ .number) (hq : s.quoted = true) :
    Comes (run (callN env) (toksMap kvs) s) (fate.fateMap (hand s.handler) kvs) fun s' =>
      s'.tagged = leaves.leavesMap s.tagged kvs ∧ s'.quoted = true ∧
        hand s'.handler = if resets.resetsMap kvs then .plain else hand s.handler := by
  induction kvs generalizing s with
  | nil => exact Comes.done ⟨rfl, hq, rfl⟩
  | cons kv kvs ihx =>
    obtain ⟨k, v⟩ := kv
    obtain ⟨tg, em, q, h, bk, ⟨⟩⟩ := s
    refine Comes.pre (s1 := ⟨false, em, false, h, bk, ()⟩) (by cases em <;> rfl) ?_
    refine Comes.app ((ih (k, v) (.head _)).1 false em false h bk fun h => absurd h hn) fun s' hs => ?_
    obtain ⟨tg', em', q', h', bk', ⟨⟩⟩ := s'
    obtain ⟨h1, -, -, h2⟩ := hs
    cases h1
    simp only at h2
    refine Comes.pre (s1 := ⟨leaves false k, em', true, h', bk', ()⟩) rfl (Comes.pre (s1 := ⟨leaves false k, em', true, h', bk', ()⟩) rfl ?_)
    have hn' : hand h' ≠ .number := by rw [h2]; exact after_number hn
    show Comes _ ((fate (leaves false k) true ((hand h).after k) v).then (fate.fateMap (((hand h).after k).after v) kvs)) _
    rw [← h2]
    refine Comes.app ((ih (k, v) (.head _)).2 (leaves false k) em' true h' bk' fun h => absurd h hn') fun s2 hs2 => ?_
    have := ihx (fun x hx => ih x (.tail _ hx)) s2 (by rw [hs2.2.2.2]; exact after_number hn') (hs2.2.2.1 rfl)
    rw [hs2.1, hs2.2.2.2] at this
    refine Comes.pre (s1 := s2) rfl (this.mono fun f hf => ⟨hf.1, hf.2.1, ?_⟩)
    rw [hf.2.2, h2, Hand.after, Hand.after, after_or, after_or]
    simp only [resets.resetsMap, Bool.or_assoc]

theorem escape_any (v : Text) (u : Unit) : escapeStr noWriter v u = .ok u := escape_none v

theorem fateRec_ok (fs : List (Option Tag × Label × V)) (ih : ∀ x ∈ fs, FateOf env x.2.2) (s : St Unit)
    (hn : hand s.handler ≠ .number) (hq : s.quoted = true) :
    Comes (run (callN env) (toksRec fs) s) (fate.fateRec (hand s.handler) fs) fun s' =>
      s'.quoted = true ∧ hand s'.handler = if resets.resetsRec fs then .plain else hand s.handler := by
  induction fs generalizing s with
  | nil => exact Comes.done ⟨hq, rfl⟩
  | cons x fs ihx =>
    obtain ⟨t, l, x⟩ := x
    obtain ⟨tg, em, q, h, bk, ⟨⟩⟩ := s
    cases hq
    have hb : callN env (.recordValueBegin t l) ⟨tg, em, true, h, bk, ()⟩ = .ok ⟨false, em, true, h, bk, ()⟩ := by
      rw [callN_native env rfl]
      simp only [step, recordValueBegin, wr, escape_any]
      by_cases hl : l.tag = some tags.VALUE_IDENT
      · simp only [if_pos hl]
        cases em <;> rfl
      · simp only [if_neg hl]
        cases em <;> rfl
    refine Comes.pre hb ?_
    refine Comes.app (ih _ (.head _) false em true h bk fun h => absurd h hn) fun s' hs => ?_
    have := ihx (fun x hx => ih x (.tail _ hx)) s' (by rw [hs.2.2.2]; exact after_number hn) (hs.2.2.1 rfl)
    rw [hs.2.2.2] at this
    refine Comes.pre (s1 := s') rfl (this.mono fun f hf => ⟨hf.1, ?_⟩)
    rw [hf.2, Hand.after, after_or]; rfl

theorem fateTup_ok (fs : List (Option Tag × Index × V)) (ih : ∀ x ∈ fs, FateOf env x.2.2) (s : St Unit)
    (hn : hand s.handler ≠ .number) (hq : s.quoted = true) :
    Comes (run (callN env) (toksTup fs) s) (fate.fateTup (hand s.handler) fs) fun s' =>
      s'.quoted = true ∧ hand s'.handler = if resets.resetsTup fs then .plain else hand s.handler := by
  induction fs generalizing s with
  | nil => exact Comes.done ⟨hq, rfl⟩
  | cons x fs ihx =>
    obtain ⟨t, l, x⟩ := x
    obtain ⟨tg, em, q, h, bk, ⟨⟩⟩ := s
    cases hq
    refine Comes.pre (s1 := ⟨false, em, true, h, bk, ()⟩) (by cases em <;> rfl) ?_
    refine Comes.app (ih _ (.head _) false em true h bk fun h => absurd h hn) fun s' hs => ?_
    have := ihx (fun x hx => ih x (.tail _ hx)) s' (by rw [hs.2.2.2]; exact after_number hn) (hs.2.2.1 rfl)
    rw [hs.2.2.2] at this
    refine Comes.pre (s1 := s') rfl (this.mono fun f hf => ⟨hf.1, ?_⟩)
    rw [hf.2, Hand.after, after_or]; rfl

theorem notNumber {h : Option Handler} (hh : hand h = .number → waits h = true ∧ true = false) : hand h ≠ .number :=
  fun hn => absurd (hh hn).2 nofun

theorem fate_seq (n : Option Nat) (xs : List V) (ih : ∀ x ∈ xs, FateOf env x) : FateOf env (.seq n xs) := by
  intro tg em q h bk hh
  cases q with
  | false => exact Comes.fail (s1 := ⟨tg, em, false, h, true, ()⟩) rfl rfl
  | true =>
    refine Comes.pre (s1 := ⟨tg, true, true, h, bk, ()⟩) rfl ?_
    show Comes _ (fate.fates (hand h) xs) _
    rw [← Fate.then_written (fate.fates _ _)]
    refine Comes.app (fates_ok xs ih ⟨tg, true, true, h, bk, ()⟩ (notNumber hh) rfl) fun s' hs => ?_
    exact Comes.last (s1 := { s' with empty := false }) rfl ⟨hs.1, rfl, fun _ => hs.2.1, hs.2.2⟩

theorem fate_map (n : Option Nat) (xs : List (V × V)) (ih : ∀ x ∈ xs, FateOf env x.1 ∧ FateOf env x.2) : FateOf env (.map n xs) := by
  intro tg em q h bk hh
  cases q with
  | false => exact Comes.fail (s1 := ⟨tg, em, false, h, true, ()⟩) rfl rfl
  | true =>
    refine Comes.pre (s1 := ⟨tg, true, true, h, bk, ()⟩) rfl ?_
    show Comes _ (fate.fateMap (hand h) xs) _
    rw [← Fate.then_written (fate.fateMap _ _)]
    refine Comes.app (fateMap_ok xs ih ⟨tg, true, true, h, bk, ()⟩ (notNumber hh) rfl) fun s' hs => ?_
    exact Comes.last (s1 := { s' with empty := false }) rfl ⟨hs.1, rfl, fun _ => hs.2.1, hs.2.2⟩

theorem bytesV_fate (b : Bytes) (x : Hand) : fate.fates x (bytesV b) = .written ∧ resets.resetsSeq (bytesV b) = false := by
  induction b with
  | nil => exact ⟨rfl, rfl⟩
  | cons y b ih => exact ⟨ih.1, ih.2⟩

theorem fate_binary (n : Option Nat) (fs : List (Frag Bytes)) : FateOf env (.binary n fs) := by
  intro tg em q h bk hh
  have hr : run (callN env) (toks (.binary n fs)) ⟨tg, em, q, h, bk, ()⟩ =
      run (callN env) (toks (.seq n (bytesV (fragsBytes fs)))) ⟨tg, em, q, h, bk, ()⟩ := by
    rw [run_callN, run_callN, lower_toks, lower_toks, lowV, lowV, bytesV_low]
    rfl
  rw [hr]
  have := fate_seq (env := env) n (bytesV (fragsBytes fs)) (fun x hx => by
    simp only [bytesV, List.mem_map] at hx
    obtain ⟨b, _, rfl⟩ := hx
    exact fate_int _ _) tg em q h bk hh
  rw [fate, (bytesV_fate _ _).1] at this
  refine this.mono fun s hs => ⟨?_, hs.2.1, hs.2.2.1, ?_⟩
  · rw [hs.1]; exact (bytesV_flags _).2.2 tg
  · rw [hs.2.2.2, Hand.after, resets, (bytesV_fate _ .plain).2]; rfl

theorem tagBegin_none (m : Meta) (tg em q : Bool) (h : Option Handler) (bk : Bool) :
    tagBegin noWriter m ⟨tg, em, q, h, bk, ()⟩ =
      if tg && (idOf m).isSome then
        if q then .ok ⟨false, m.label.isSome, true, h, bk, ()⟩ else .err () ⟨false, em, false, h, true, ()⟩
      else .ok ⟨false, em, q, h, bk, ()⟩ := by
  unfold tagBegin
  rw [← hasId_eq]
  cases tg with
  | false => rfl
  | true =>
    simp only [if_true, Bool.true_and]
    cases m.label with
    | some l =>
      cases q with
      | true => simp [tagMapBeginLabel, mapBegin, mapKeyBegin, wr, escape_none, mapKeyEnd, noWriter, Res.bind]
      | false => rfl
    | none =>
      cases ixI64 m.index with
      | some i => cases q <;> rfl
      | none => rfl

theorem fate_tag (m : Meta) : FateOf env (.tag m) := by
  intro tg em q h bk hh
  rw [toks]
  have e : callN env (.tag m) ⟨tg, em, q, h, bk, ()⟩ = tagStep noWriter m ⟨tg, em, q, h, bk, ()⟩ := callN_native env rfl _
  rw [run_cons, e, tagStep]
  by_cases ht : m.tag = some tags.RUST_OPTION_NONE
  · have : fate tg q (hand h) (.tag m) = .written := by rw [fate, if_neg (by simp [ht])]
    rw [this, if_pos ht]
    exact ⟨⟨false, false, q, h, bk, ()⟩, rfl, rfl, rfl, id, rfl⟩
  · simp only [if_neg ht]
    cases hl : m.label with
    | none =>
      have : fate tg q (hand h) (.tag m) = .written := by rw [fate, if_neg (by simp [hl])]
      rw [this]
      cases ixI64 m.index <;> exact ⟨⟨false, false, q, h, bk, ()⟩, rfl, rfl, rfl, id, rfl⟩
    | some l =>
      simp only
      have h1 : textBegin noWriter ⟨false, false, q, h, bk, ()⟩ = .ok ⟨false, false, q, h, bk, ()⟩ := by cases q <;> rfl
      obtain ⟨h', h2, h3, -⟩ := fragment_none l.text ⟨false, false, q, h, bk, ()⟩
      rw [h1]
      simp only [Res.bind]
      rw [h2]
      have hf : fate tg q (hand h) (.tag m) = if waits h && cuts l.text then .panic else .written := by
        rw [fate, waits_eq hh, hl]
        simp [ht]
      rw [hf]
      simp only
      cases waits h && cuts l.text with
      | true => exact (rfl : Res.panic = Res.panic)
      | false => cases q <;> exact ⟨_, rfl, rfl, rfl, id, h3⟩

theorem fate_record (m : Meta) (n : Option Nat) (fs : List (Option Tag × Label × V)) (ih : ∀ x ∈ fs, FateOf env x.2.2) :
    FateOf env (.record m n fs) := by
  intro tg em q h bk hh
  have hb : callN env (.recordBegin m n) ⟨tg, em, q, h, bk, ()⟩ =
      if q then .ok ⟨false, true, true, h, bk, ()⟩ else .err () ⟨false, em, false, h, true, ()⟩ := by
    rw [callN_native env rfl]
    show (tagBegin noWriter m _).bind _ = _
    rw [tagBegin_none]
    cases tg && (idOf m).isSome <;> cases q <;> rfl
  cases q with
  | false => exact Comes.fail hb rfl
  | true =>
    refine Comes.pre hb ?_
    show Comes _ (fate.fateRec (hand h) fs) _
    rw [← Fate.then_written (fate.fateRec _ _)]
    refine Comes.app (fateRec_ok fs ih ⟨false, true, true, h, bk, ()⟩ (notNumber hh) rfl) fun s' hs => ?_
    refine Comes.last (s1 := { s' with empty := false, tagged := (idOf m).isSome }) ?_ ⟨rfl, rfl, fun _ => hs.1, hs.2⟩
    rw [callN_native env rfl]
    show Res.ok _ = _
    rw [hasId_eq]

theorem fate_tuple (m : Meta) (n : Option Nat) (fs : List (Option Tag × Index × V)) (ih : ∀ x ∈ fs, FateOf env x.2.2) :
    FateOf env (.tuple m n fs) := by
  intro tg em q h bk hh
  have hb : callN env (.tupleBegin m n) ⟨tg, em, q, h, bk, ()⟩ =
      if q then .ok ⟨false, true, true, h, bk, ()⟩ else .err () ⟨false, em, false, h, true, ()⟩ := by
    rw [callN_native env rfl]
    show (tagBegin noWriter m _).bind _ = _
    rw [tagBegin_none]
    cases tg && (idOf m).isSome <;> cases q <;> rfl
  cases q with
  | false => exact Comes.fail hb rfl
  | true =>
    refine Comes.pre hb ?_
    show Comes _ (fate.fateTup (hand h) fs) _
    rw [← Fate.then_written (fate.fateTup _ _)]
    refine Comes.app (fateTup_ok fs ih ⟨false, true, true, h, bk, ()⟩ (notNumber hh) rfl) fun s' hs => ?_
    refine Comes.last (s1 := { s' with empty := false, tagged := (idOf m).isSome }) ?_ ⟨rfl, rfl, fun _ => hs.1, hs.2⟩
    rw [callN_native env rfl]
    show Res.ok _ = _
    rw [hasId_eq]

theorem unRT_fate (fs : List (Option Tag × Label × Index × V)) (x : Hand) : fate.fateRec x (unRT fs) = fate.fateRT x fs ∧
    resets.resetsRec (unRT fs) = resets.resetsRT fs := by
  induction fs generalizing x with
  | nil => exact ⟨rfl, rfl⟩
  | cons y fs ih =>
    obtain ⟨t, l, i, v⟩ := y
    exact ⟨congrArg ((fate false true x v).then ·) (ih _).1, congrArg (resets v || ·) (ih x).2⟩

theorem fate_recordTuple (m : Meta) (n : Option Nat) (fs : List (Option Tag × Label × Index × V)) (ih : ∀ x ∈ fs, FateOf env x.2.2.2) :
    FateOf env (.recordTuple m n fs) := by
  intro tg em q h bk hh
  have hr : run (callN env) (toks (.recordTuple m n fs)) ⟨tg, em, q, h, bk, ()⟩ =
      run (callN env) (toks (.record m n (unRT fs))) ⟨tg, em, q, h, bk, ()⟩ := by
    have : ∀ fs : List (Option Tag × Label × Index × V), lower jsonCaps (toksRT fs) = lower jsonCaps (toksRec (unRT fs)) := by
      intro fs
      induction fs with
      | nil => rfl
      | cons x fs ih =>
        obtain ⟨t, l, i, v⟩ := x
        simp only [toksRT, unRT, List.map_cons, toksRec, lower, List.flatMap_cons, List.flatMap_append] at ih ⊢
        rw [ih]
        rfl
    rw [run_callN, run_callN]
    simp only [toks, lower, List.flatMap_cons, List.flatMap_append] at this ⊢
    rw [this]
    rfl
  rw [hr]
  have := fate_record (env := env) m n (unRT fs) (fun x hx => by
    simp only [unRT, List.mem_map] at hx
    obtain ⟨y, hy, rfl⟩ := hx
    exact ih y hy) tg em q h bk hh
  rw [fate, (unRT_fate fs _).1] at this
  refine this.mono fun s hs => ⟨hs.1, hs.2.1, hs.2.2.1, ?_⟩
  rw [hs.2.2.2, Hand.after, Hand.after, resets, resets, (unRT_fate fs .plain).2]

theorem fate_enum (m : Meta) (v : V) (ih : FateOf env v) : FateOf env (.enum m v) := by
  intro tg em q h bk hh
  have hb : callN env (.enumBegin m) ⟨tg, em, q, h, bk, ()⟩ =
      if tg && (idOf m).isSome && !q then .err () ⟨false, em, false, h, true, ()⟩ else .ok ⟨true, true, q, h, bk, ()⟩ := by
    rw [callN_native env rfl]
    show (tagBegin noWriter m _).bind _ = _
    rw [tagBegin_none]
    cases tg && (idOf m).isSome <;> cases q <;> rfl
  rw [fate]
  cases hc : tg && (idOf m).isSome && !q with
  | true => rw [hc] at hb; exact Comes.fail hb rfl
  | false =>
    rw [hc] at hb
    refine Comes.pre hb ?_
    simp only [Bool.false_eq_true, if_false]
    rw [← Fate.then_written (fate true q (hand h) v)]
    refine Comes.app (ih true true q h bk hh) fun s' hs => ?_
    obtain ⟨tg', em', q', h', bk', ⟨⟩⟩ := s'
    obtain ⟨h1, h2, h3, h4⟩ := hs
    simp only at h1 h2 h3 h4
    subst h1 h2
    refine Comes.last (s1 := ⟨leaves true v || (idOf m).isSome, false, q', h', bk', ()⟩) ?_ ⟨rfl, rfl, h3, h4⟩
    rw [callN_native env rfl]
    show (if leaves true v then mapEnd noWriter _ else tagEnd m _) = _
    cases hl : leaves true v with
    | true => rfl
    | false =>
      show Res.ok _ = _
      rw [hasId_eq, Bool.false_or]

/-- What `tagged_begin` does before the name. -/
theorem enter_none (m : Meta) (q : Bool) (h : Option Handler) :
    ∃ h1, hand h1 = (hand h).enter m.tag ∧ ((hand h = .number → waits h = true) → hand h1 = .number →
        waits h1 = true ∧ (hand h = .number ∨ bareTag m.tag = true)) ∧
      ∀ tg em bk, callN env (.taggedBegin m) ⟨tg, em, q, h, bk, ()⟩ =
        (tagBegin noWriter m ⟨tg, em, q && !bareTag m.tag, h1, bk, ()⟩).bind fun s => .ok { s with empty := true } := by
  obtain ⟨t, l, i⟩ := m
  have hc : ∀ tg em bk, callN env (.taggedBegin ⟨t, l, i⟩) ⟨tg, em, q, h, bk, ()⟩ = taggedBegin noWriter ⟨t, l, i⟩ ⟨tg, em, q, h, bk, ()⟩ :=
    fun tg em bk => callN_native env rfl _
  simp only [hc, taggedBegin]
  rcases tag_kinds t with rfl | rfl | rfl | rfl | e
  · exact ⟨some .native, rfl, fun _ h => (by cases h), fun tg em bk => by cases q <;> rfl⟩
  · exact ⟨some .native, rfl, fun _ h => (by cases h), fun tg em bk => by cases q <;> rfl⟩
  · match h with
    | none => exact ⟨some (.number {}), rfl, fun _ _ => ⟨rfl, .inr rfl⟩, fun tg em bk => by cases q <;> rfl⟩
    | some .native => exact ⟨some .native, rfl, fun _ h => (by cases h), fun tg em bk => by cases q <;> rfl⟩
    | some (.number n) => exact ⟨some (.number n), rfl, fun h _ => ⟨h rfl, .inl rfl⟩, fun tg em bk => by cases q <;> rfl⟩
  · exact ⟨some .native, rfl, fun _ h => (by cases h), fun tg em bk => by cases q <;> rfl⟩
  · have h1 := e.1
    simp only [isSpecialTag, Bool.or_eq_false_iff, decide_eq_false_iff_not] at h1
    obtain ⟨⟨⟨h1, h2⟩, h3⟩, h4⟩ := h1
    refine ⟨h, ?_, fun g1 g2 => ⟨g1 g2, .inl g2⟩, fun tg em bk => ?_⟩
    · simp [Hand.enter, h1, e.1]
    · simp only [if_neg h4, if_neg h2, if_neg h1, if_neg h3, e.2, Bool.not_false, Bool.and_true]

theorem leave_none (m : Meta) (tg q : Bool) (h : Option Handler) (bk : Bool) :
    callN env (.taggedEnd m) ⟨tg, false, q, h, bk, ()⟩ =
      .ok ⟨(idOf m).isSome, false, q || bareTag m.tag, if isSpecialTag m.tag then none else h, bk, ()⟩ := by
  rw [callN_native env rfl]
  show taggedEnd noWriter m _ = _
  rw [← hasId_eq, taggedEnd]
  obtain ⟨t, l, i⟩ := m
  rcases tag_kinds t with rfl | rfl | rfl | rfl | e
  · cases q <;> rfl
  · cases q <;> rfl
  · match h with
    | none => cases q <;> rfl
    | some .native => cases q <;> rfl
    | some (.number ⟨true, x, y⟩) => cases q <;> rfl
    | some (.number ⟨false, x, y⟩) => cases q <;> rfl
  · cases q <;> rfl
  · have h1 := e.1
    simp only [isSpecialTag, Bool.or_eq_false_iff, decide_eq_false_iff_not] at h1
    obtain ⟨⟨⟨h1, h2⟩, h3⟩, h4⟩ := h1
    simp only [if_neg h4, if_neg h2, if_neg h1, if_neg h3, e.1, e.2]
    cases q <;> rfl

theorem fate_tagged (m : Meta) (v : V) (ih : FateOf env v) : FateOf env (.tagged m v) := by
  intro tg em q h bk hh
  obtain ⟨h1, g1, g2, g3⟩ := enter_none (env := env) m q h
  rw [fate]
  have hb := g3 tg em bk
  rw [tagBegin_none] at hb
  obtain ⟨q1, hq⟩ : ∃ q1, (q && !bareTag m.tag) = q1 := ⟨_, rfl⟩
  rw [hq] at hb ⊢
  have hn : hand h1 = .number → waits h1 = true ∧ q1 = false := by
    intro hn
    have := g2 (fun h => (hh h).1) hn
    refine ⟨this.1, ?_⟩
    rcases this.2 with h2 | h2
    · rw [(hh h2).2] at hq; exact hq.symm
    · rw [h2] at hq; simpa using hq.symm
  cases hc : tg && (idOf m).isSome && !q1 with
  | true =>
    simp only [Bool.and_eq_true, Bool.not_eq_true'] at hc
    obtain ⟨⟨rfl, hc⟩, rfl⟩ := hc
    rw [hc] at hb
    exact Comes.fail hb rfl
  | false =>
    have hb' : callN env (.taggedBegin m) ⟨tg, em, q, h, bk, ()⟩ = .ok ⟨false, true, q1, h1, bk, ()⟩ := by
      rw [hb]
      cases hi : tg && (idOf m).isSome with
      | false => rfl
      | true =>
        rw [hi] at hc
        cases q1 with
        | true => rfl
        | false => cases hc
    refine Comes.pre hb' ?_
    simp only [Bool.false_eq_true, if_false]
    rw [← g1, ← Fate.then_written (fate false q1 (hand h1) v)]
    refine Comes.app (ih false true q1 h1 bk hn) fun s' hs => ?_
    obtain ⟨tg', em', q', h', bk', ⟨⟩⟩ := s'
    obtain ⟨k1, k2, k3, k4⟩ := hs
    simp only at k1 k2 k3 k4
    subst k2
    refine Comes.last (leave_none m tg' q' h' bk') ⟨rfl, rfl, ?_, ?_⟩
    · intro hq2
      show (q' || bareTag m.tag) = true
      rw [hq2] at hq
      cases hbt : bareTag m.tag with
      | true => exact Bool.or_true _
      | false => rw [hbt] at hq; rw [k3 hq.symm]; rfl
    · show hand (if isSpecialTag m.tag then none else h') = _
      rw [Hand.after, resets]
      cases hsp : isSpecialTag m.tag with
      | true => rfl
      | false =>
        have ht : m.tag ≠ some tags.NUMBER := by
          intro ht; rw [ht] at hsp; exact absurd hsp (by decide)
        simp only [Bool.false_eq_true, if_false, Bool.false_or]
        rw [k4, g1, Hand.after, Hand.enter, if_neg ht, hsp]
        rfl

theorem fateOf (v : V) : FateOf env v := by
  refine V.ind (P := FateOf env) ?_ ?_ fate_int ?_ ?_ fate_text fate_binary fate_seq fate_map fate_tag fate_tagged fate_enum
    fate_record fate_tuple fate_recordTuple ?_ v
  · exact fun tg em q h bk hh => Comes.last (s1 := ⟨tg, false, q, h, bk, ()⟩) rfl ⟨rfl, rfl, id, rfl⟩
  · exact fun _ tg em q h bk hh => Comes.last (s1 := ⟨tg, false, q, h, bk, ()⟩) rfl ⟨rfl, rfl, id, rfl⟩
  · exact fun _ tg em q h bk hh => Comes.last (s1 := ⟨tg, false, q, h, bk, ()⟩) rfl ⟨rfl, rfl, id, rfl⟩
  · exact fun _ tg em q h bk hh => Comes.last (s1 := ⟨tg, false, q, h, bk, ()⟩) rfl ⟨rfl, rfl, id, rfl⟩
  · exact fun t v ih tg em q h bk hh => Comes.pre (s1 := ⟨tg, em, q, h, bk, ()⟩) rfl (ih tg em q h bk hh)

end Sval.Json
