import Verif.Nested.Plain

set_option autoImplicit false
set_option linter.unusedSimpArgs false

/-!
# Calls around the elements of sequences are never handed on

`nested/src/flat.rs:252-258` does not pass them to the buffer, so there are none in what a recursive stream is given.
-/

namespace Sval.Nested

/-- Not a call around an element of a sequence. -/
def bareTok (t : Token) : Bool := t ≠ .seqValueBegin && t ≠ .seqValueEnd

/-- No element of a sequence was begun in the buffer. -/
def bareParts (l : List Buf.Part) : Prop := ∀ n, Buf.Part.opened .seqValue n ∉ l

theorem bareParts_push {l : List Buf.Part} {k : Buf.Part} (h : bareParts l) (hk : ∀ n, k ≠ .opened .seqValue n) :
    bareParts (l ++ [k]) := by
  intro n hn
  rcases List.mem_append.1 hn with hn | hn
  · exact h n hn
  · exact hk n (List.mem_singleton.1 hn).symm

theorem bareParts_set {l : List Buf.Part} {k : Buf.Part} (i : Nat) (h : bareParts l) (hk : ∀ n, k ≠ .opened .seqValue n) :
    bareParts (l.set i k) := by
  intro n hn
  rcases List.mem_or_eq_of_mem_set hn with hn | hn
  · exact h n hn
  · exact hk n hn.symm

/-- What is left in the buffer if the call succeeds. -/
def BareRes (r : Res Buf.Err Buf.St) : Prop := ∀ b, r = .ok b → bareParts b.parts

theorem bare_pushKind {k : Buf.Part} {b : Buf.St} (h : bareParts b.parts) (hk : ∀ n, k ≠ .opened .seqValue n) :
    BareRes (Buf.pushKind true k b) := by
  intro b' e
  simp only [Buf.pushKind, Bool.true_or, if_true, Res.ok.injEq] at e
  subst e
  exact bareParts_push h hk

theorem bare_pushBegin {o : Buf.Opener} {b : Buf.St} (h : bareParts b.parts) (ho : o ≠ .seqValue) :
    BareRes (Buf.pushBegin true o b) := by
  simp only [Buf.pushBegin, Bool.true_or, if_true]
  exact bare_pushKind (b := { b with stack := b.parts.length :: b.stack }) h (by intro n hn; cases hn; exact ho rfl)

theorem bare_pushEnd {b : Buf.St} (h : bareParts b.parts) : BareRes (Buf.pushEnd b) := by
  intro b' e
  unfold Buf.pushEnd at e
  split at e
  · simp [Buf.fail] at e
  · rename_i index stack hs
    dsimp only at e
    split at e
    · simp at e
    · split at e
      · simp at e
      · rename_i o n ho
        simp only [Res.ok.injEq] at e
        subst e
        refine bareParts_set _ h ?_
        intro k hk
        cases hk
        exact h n (List.mem_of_getElem? ho)
      · simp [Buf.fail] at e

theorem bare_textPush {f : Buf.Cow Char → Except Buf.Err (Buf.Cow Char)} {b : Buf.St} (h : bareParts b.parts) :
    BareRes (Buf.textPush f b) := by
  intro b' e
  unfold Buf.textPush at e
  split at e
  · simp at e
  · split at e
    · simp only [Res.ok.injEq] at e
      subst e
      exact bareParts_set _ h (by simp)
    · simp [Buf.fail] at e
  · simp [Buf.fail] at e

theorem bare_binaryPush {f : Buf.Cow UInt8 → Except Buf.Err (Buf.Cow UInt8)} {b : Buf.St} (h : bareParts b.parts) :
    BareRes (Buf.binaryPush f b) := by
  intro b' e
  unfold Buf.binaryPush at e
  split at e
  · simp at e
  · split at e
    · simp only [Res.ok.injEq] at e
      subst e
      exact bareParts_set _ h (by simp)
    · simp [Buf.fail] at e
  · simp [Buf.fail] at e

theorem bare_beginMeta {m : Meta} {o : Meta → Buf.Opener} {b : Buf.St} (h : bareParts b.parts) (ho : ∀ m, o m ≠ .seqValue) :
    BareRes (Buf.beginMeta true m o b) := by
  unfold Buf.beginMeta
  split
  · exact bare_pushBegin h (ho _)
  · intro b' e; simp [Buf.fail] at e

theorem bare_beginLabel {l : Label} {o : Label → Buf.Opener} {b : Buf.St} (h : bareParts b.parts) (ho : ∀ m, o m ≠ .seqValue) :
    BareRes (Buf.beginLabel true l o b) := by
  unfold Buf.beginLabel
  split
  · exact bare_pushBegin h (ho _)
  · intro b' e; simp [Buf.fail] at e

theorem bareRes_step {t : Token} (ht : bareTok t = true) {b : Buf.St} (h : bareParts b.parts) : BareRes (Buf.step true t b) := by
  cases t <;> simp only [Buf.step]
  case seqValueBegin => simp [bareTok] at ht
  case textEnd | binaryEnd => intro b' e; cases e; exact h
  case textBegin | binaryBegin => exact bare_pushKind (b := { b with inText := true }) h (by simp)
  case tag m =>
    split
    · exact bare_pushKind h (by simp)
    · intro b' e; simp [Buf.fail] at e
  all_goals first
    | exact bare_pushKind h (by simp)
    | exact bare_pushEnd h
    | exact bare_textPush h
    | exact bare_binaryPush h
    | exact bare_pushBegin h (by simp)
    | exact bare_beginMeta h (by simp)

/-! ## What is replayed -/

theorem bare_then {a b : Buf.Out} (ha : ∀ t ∈ a.toks, bareTok t = true) (hb : ∀ t ∈ b.toks, bareTok t = true) :
    ∀ t ∈ (Buf.Out.then a b).toks, bareTok t = true := by
  unfold Buf.Out.then
  split
  · exact ha
  · intro t ht
    rcases List.mem_append.1 ht with ht | ht
    · exact ha t ht
    · exact hb t ht

theorem bare_replayN (fuel : Nat) : ∀ l, bareParts l → ∀ t ∈ (Buf.replayN fuel l).toks, bareTok t = true := by
  induction fuel with
  | zero => intro l _ t ht; simp [Buf.replayN] at ht
  | succ fuel ih =>
    intro l h
    cases l with
    | nil => intro t ht; simp [Buf.replayN] at ht
    | cons p rest =>
      have hr : bareParts rest := fun n hn => h n (by simp [hn])
      cases p with
      | opened o len =>
        simp only [Buf.replayN]
        split
        · simp
        · have ho : o ≠ .seqValue := by rintro rfl; exact h len (by simp)
          refine bare_then (bare_then (bare_then ?_ (ih _ fun n hn => hr n (List.mem_of_mem_take hn))) ?_)
            (ih _ fun n hn => hr n (List.mem_of_mem_drop hn))
          · cases o <;> simp [Buf.Opener.begin, bareTok] at ho ⊢
          · cases o <;> simp [Buf.Opener.end, bareTok] at ho ⊢
      | text c => exact bare_then (by cases c <;> simp [Buf.Cow.textToks, bareTok]) (ih _ hr)
      | binary c => exact bare_then (by cases c <;> simp [Buf.Cow.binaryToks, bareTok]) (ih _ hr)
      | _ => exact bare_then (by simp [bareTok]) (ih _ hr)

theorem bare_replay {l : List Buf.Part} (h : bareParts l) : ∀ t ∈ (Buf.replay l).toks, bareTok t = true := by
  unfold Buf.replay
  split
  · simp [bareTok]
  · exact bare_replayN _ _ h

theorem bareTok_computed (t : Token) (c : Bool) : bareTok (if c then computedTok t else t) = bareTok t := by
  cases c <;> cases t <;> rfl

theorem bare_regroup (T : List Token) (h : ∀ t ∈ T, bareTok t = true) (c : Bool) : ∀ t ∈ flat (regroup T) c, bareTok t = true := by
  fun_induction regroup T with
  | case1 n f r ih =>
    simp only [List.mem_cons, forall_eq_or_imp] at h
    have ih := ih h.2.2.2
    cases c <;> simpa [flat, Item.flat, bareTok, computedTok] using ih
  | case2 n f r ih =>
    simp only [List.mem_cons, forall_eq_or_imp] at h
    have ih := ih h.2.2.2
    cases c <;> simpa [flat, Item.flat, bareTok, computedTok] using ih
  | case3 n f r ih =>
    simp only [List.mem_cons, forall_eq_or_imp] at h
    have ih := ih h.2.2.2
    cases c <;> simpa [flat, Item.flat, bareTok, computedTok] using ih
  | case4 t r _ _ _ ih =>
    simp only [List.mem_cons, forall_eq_or_imp] at h
    rw [flat_tok_cons]
    intro t' ht'
    rcases List.mem_cons.1 ht' with rfl | ht'
    · rw [bareTok_computed]; exact h.1
    · exact ih h.2 t' ht'
  | case5 => simp [flat]

/-! ## What a recursive stream is given -/

/-- The argument makes no calls around elements of sequences. -/
def BareArg (a : Arg) : Prop := ∃ q, a.prog = prog q ∧ ∀ c, ∀ t ∈ flat q c, bareTok t = true

/-- The argument of a method. -/
def Cb.arg : Cb → Option Arg
  | .value a | .tagged _ a | .seqValue a | .mapKey a | .mapValue a | .tupleValue _ _ a | .recordValue _ _ a
  | .variantTagged _ a => some a
  | _ => none

def BareCb (c : Cb) : Prop := ∀ a, c.arg = some a → BareArg a

/-- A recursive stream that only records what is called. -/
def recordCb (c : Cb) (s : List Cb) : Res Unit (List Cb) := .ok (s ++ [c])

/-- What is kept: the buffer, and what was called. -/
def BareState (st : St (List Cb)) : Prop :=
  (∀ b, st.buf = some (.value b) → bareParts b.parts) ∧ ∀ c ∈ st.s, BareCb c

def BareLeads (r : Res Unit (St (List Cb))) : Prop :=
  match r with
  | .ok st => BareState st
  | .err _ st => BareState st
  | .panic => True

theorem BareLeads.bind {r : Res Unit (St (List Cb))} {f : Act (List Cb)} (h : BareLeads r)
    (hf : ∀ st, BareState st → BareLeads (f st)) : BareLeads (r.bind f) := by
  cases r with
  | ok st => exact hf st h
  | err e st => exact h
  | panic => trivial

theorem bareLeads_cb {c : Cb} (hc : BareCb c) (st : St (List Cb)) (h : BareState st) : BareLeads (cb recordCb c st) := by
  refine ⟨h.1, ?_⟩
  intro c' hc'
  rcases List.mem_append.1 hc' with hc' | hc'
  · exact h.2 c' hc'
  · rw [List.mem_singleton.1 hc']; exact hc

theorem bareLeads_toMode (m : Mode) (st : St (List Cb)) (h : BareState st) : BareLeads (toMode m st) := h

theorem bareLeads_catch {a : Act (List Cb)} {st : St (List Cb)} (h : BareLeads (a st)) : BareLeads (tryCatch a st) := by
  unfold tryCatch
  cases hr : a st with
  | ok st' => rw [hr] at h; exact h
  | err e st' => rw [hr] at h; exact h
  | panic => trivial

theorem bareLeads_nest (q : List Meta) (a : Act (List Cb)) (ha : ∀ st, BareState st → BareLeads (a st)) (st : St (List Cb))
    (h : BareState st) : BareLeads (nest recordCb q a st) := by
  induction q generalizing st with
  | nil => exact ha st h
  | cons m q ih =>
    exact ((bareLeads_cb (by intro a ha; cases ha) st h).bind ih).bind (bareLeads_cb (by intro a ha; cases ha))

theorem bareLeads_begin {c : Cb} (hc : BareCb c) (m : Mode) (st : St (List Cb)) (h : BareState st) :
    BareLeads ((cb recordCb c st).bind (toMode m)) := (bareLeads_cb hc st h).bind (bareLeads_toMode m)

theorem bareLeads_put {any : Cb} {a : Arg} (hany : BareCb any) (ha : BareArg a) (st : St (List Cb)) (h : BareState st) :
    BareLeads (put recordCb any a st) := by
  have hc : ∀ c : Cb, c.arg = some a → BareCb c := by intro c e b hb; rw [e] at hb; cases hb; exact ha
  unfold put
  split
  · exact bareLeads_begin hany _ st h
  · exact bareLeads_begin (hc _ rfl) _ st h
  · exact bareLeads_cb (hc _ rfl) st h
  · exact bareLeads_cb (hc _ rfl) st h
  · exact bareLeads_cb (hc _ rfl) st h
  · exact bareLeads_cb (hc _ rfl) _ h
  · exact bareLeads_cb (hc _ rfl) _ h
  · exact bareLeads_cb (hc _ rfl) _ h
  · exact bareLeads_cb (hc _ rfl) _ h
  · exact (bareLeads_nest _ _ (bareLeads_cb (hc _ rfl)) st h).bind (bareLeads_toMode _)
  all_goals exact h

theorem bareState_empty (st : St (List Cb)) (h : BareState st) : BareState { st with buf := some (.value {}) } :=
  ⟨by intro b e; cases e; intro n hn; simp at hn, h.2⟩

theorem bareLeads_buffered {t : Token} (ht : bareTok t = true) {b : Buf.St} (st : St (List Cb)) (h : BareState st)
    (hb : bareParts b.parts) : BareLeads (buffered st (Buf.step true t b)) := by
  have hs := bareRes_step ht hb
  cases hr : Buf.step true t b with
  | ok b' => exact ⟨by intro b'' e; cases e; exact hs b' hr, h.2⟩
  | err e b' => exact bareState_empty st h
  | panic => trivial

theorem bareLeads_bufferOr {t : Token} (ht : bareTok t = true) {a : Act (List Cb)} (st : St (List Cb)) (h : BareState st)
    (ha : BareLeads (a st)) : BareLeads (bufferOr t a st) := by
  refine bareLeads_catch ?_
  try dsimp only
  split
  · rename_i b hb
    exact bareLeads_buffered ht st h (h.1 b hb)
  · exact ha

theorem bareLeads_bufferOrBegin {t : Token} (ht : bareTok t = true) {any : Act (List Cb)} {enum : List Meta → Act (List Cb)}
    (st : St (List Cb)) (h : BareState st) (hany : BareLeads (any st)) (henum : ∀ q, BareLeads (enum q st)) :
    BareLeads (bufferOrBegin t any enum st) := by
  refine bareLeads_catch ?_
  try dsimp only
  split
  · rename_i _ b hb
    exact bareLeads_buffered ht st h (h.1 _ (by assumption))
  · exact hany
  · exact henum _
  · have hs := bareRes_step ht (b := {}) (by intro n hn; simp at hn)
    cases hr : Buf.step true t {} with
    | ok b' => exact ⟨by intro b'' e; cases e; exact hs b' hr, h.2⟩
    | err e b' => exact h
    | panic => trivial
  · exact h

theorem bareArg_buffer {b : Buf.St} (h : bareParts b.parts) : BareArg (bufferArg b) :=
  ⟨_, rfl, fun c => bare_regroup _ (bare_replay h) c⟩

theorem bareLeads_bufferOrEnd {t : Token} (ht : bareTok t = true) {a : Act (List Cb)} (st : St (List Cb)) (h : BareState st)
    (ha : BareLeads (a st)) : BareLeads (bufferOrEnd recordCb t a st) := by
  refine bareLeads_catch ?_
  try dsimp only
  split
  · exact ha.bind (bareLeads_toMode _)
  · rename_i b hb
    have hs := bareRes_step ht (h.1 b hb)
    cases hr : Buf.step true t b with
    | ok b' =>
      have hb' := hs b' hr
      try dsimp only
      split
      · exact bareLeads_put (by intro a e; cases e; exact bareArg_buffer hb') (bareArg_buffer hb') _
          ⟨by intro b e; (cases e), h.2⟩
      · exact ⟨by intro b'' e; cases e; exact hb', h.2⟩
    | err e b' => exact bareState_empty st h
    | panic => trivial
  · exact h

theorem bareArg_toks (b : Bool) (T : List Token) (h : ∀ t ∈ T, bareTok t = true) : BareArg ⟨b, .ofToks T⟩ := by
  refine ⟨T.map .tok, (prog_toks T).symm, fun c => ?_⟩
  induction T with
  | nil => intro t ht; simp [flat] at ht
  | cons t T ih =>
    rw [List.map_cons, flat_tok_cons]
    simp only [List.mem_cons, forall_eq_or_imp] at h ⊢
    exact ⟨by rw [bareTok_computed]; exact h.1, ih h.2⟩

theorem bareLeads_finish (st : St (List Cb)) (h : BareState st) : BareLeads (finish st) := by
  unfold finish
  split <;> exact h

theorem bareLeads_call (t : Token) (st : St (List Cb)) (h : BareState st) : BareLeads (call recordCb t st) := by
  have no : ∀ {c : Cb}, c.arg = none → BareCb c := by intro c e a ha; rw [e] at ha; cases ha
  have clear : BareState { st with buf := none } := ⟨by intro b e; (cases e), h.2⟩
  cases t <;> simp only [call]
  case seqValueBegin | seqValueEnd | tagHint => exact h
  case null | bool | int | f32 | f64 =>
    exact bareLeads_bufferOr rfl st h (bareLeads_put (no rfl) (bareArg_toks _ _ (by simp [bareTok])) st h)
  case textBegin | binaryBegin =>
    refine bareLeads_bufferOr rfl st h ?_
    unfold putBuffer
    split
    · exact ⟨by intro b e; (cases e), h.2⟩
    · exact h
  case textFragment | textFragmentComputed =>
    refine bareLeads_bufferOr rfl st h ?_
    unfold withText
    split
    · split
      · exact ⟨by intro b e; (cases e), h.2⟩
      · exact h
    · exact h
  case binaryFragment | binaryFragmentComputed =>
    refine bareLeads_bufferOr rfl st h ?_
    unfold withBinary
    split
    · split
      · exact ⟨by intro b e; (cases e), h.2⟩
      · exact h
    · exact h
  case textEnd | binaryEnd =>
    refine bareLeads_bufferOr rfl st h ?_
    try dsimp only
    split
    · split <;> exact bareLeads_put (no rfl) (bareArg_toks _ _ (by simp [bareTok])) _ clear
    · exact h
  case tag =>
    refine bareLeads_bufferOr rfl st h ?_
    try dsimp only
    split
    · exact (bareLeads_nest _ _ (bareLeads_cb (no rfl)) st h).bind (bareLeads_toMode _)
    · exact bareLeads_put (no rfl) (bareArg_toks _ _ (by simp [bareTok])) st h
  case seqBegin | mapBegin =>
    exact bareLeads_bufferOrBegin rfl st h (bareLeads_begin (no rfl) _ st h) fun _ => h
  case enumBegin => exact bareLeads_bufferOrBegin rfl st h (bareLeads_begin (no rfl) _ st h) fun _ => h
  case taggedBegin => exact bareLeads_bufferOrBegin rfl st h h fun _ => h
  case recordBegin | tupleBegin | recordTupleBegin =>
    refine bareLeads_bufferOrBegin rfl st h (bareLeads_begin (no rfl) _ st h) fun q => ?_
    split
    · exact bareLeads_begin (no rfl) _ st h
    · trivial
  case mapKeyEnd | mapValueEnd | recordValueEnd | tupleValueEnd | recordTupleValueEnd => exact bareLeads_bufferOr rfl st h h
  case mapKeyBegin | mapValueBegin | recordValueBegin | tupleValueBegin | recordTupleValueBegin =>
    refine bareLeads_bufferOr rfl st h ?_
    try dsimp only
    split <;> exact h
  case taggedEnd => exact bareLeads_bufferOrEnd rfl st h (bareLeads_finish st h)
  case enumEnd =>
    refine bareLeads_bufferOrEnd rfl st h ?_
    try dsimp only
    split
    · exact bareLeads_nest _ (fun _ => .panic) (fun _ _ => True.intro) st h
    · exact bareLeads_finish st h
    · exact h
  all_goals
    refine bareLeads_bufferOrEnd rfl st h ?_
    try dsimp only
    split <;> first | exact bareLeads_cb (no rfl) st h | exact h

theorem bare_exec (T : List Token) (c : Bool) (st st' : St (List Cb)) (ok : Bool) (h : BareState st)
    (e : exec recordCb (prog (T.map .tok)) c st = .done ok st') : BareState st' := by
  induction T generalizing st with
  | nil => simp only [List.map_nil, prog, exec, Outcome.done.injEq] at e; rw [← e.2]; exact h
  | cons t T ih =>
    rw [List.map_cons] at e
    simp only [prog, Item.prog, exec] at e
    have hc := bareLeads_call (if c then computedTok t else t) st h
    cases hr : call recordCb (if c then computedTok t else t) st with
    | ok st1 => rw [hr] at e hc; exact ih st1 hc e
    | err x st1 =>
      rw [hr] at e hc
      simp only [exec, Outcome.done.injEq] at e
      rw [← e.2]; exact hc
    | panic => rw [hr] at e; cases e

theorem runCb_recordCb (X s : List Cb) : runCb recordCb X s = .ok (s ++ X) := by
  induction X generalizing s with
  | nil => simp [runCb]
  | cons c X ih => simp [runCb, recordCb, Res.bind, ih]

/-- Code that makes calls itself never gives an argument with calls around elements of sequences. -/
theorem bare_makes (T : List Token) (c : Bool) (X : List Cb) (h : Makes c (prog (T.map .tok)) X) : ∀ x ∈ X, BareCb x := by
  have e := h (List Cb) recordCb []
  rw [runCb_recordCb, stream] at e
  cases hr : exec recordCb (prog (T.map .tok)) c { s := [] } with
  | done ok st =>
    rw [hr] at e
    simp only [Res.outcome, Outcome.done.injEq, List.nil_append] at e
    have := (bare_exec T c _ st ok ⟨by intro b e; (cases e), by simp⟩ hr).2
    rw [e.2] at this
    exact this
  | panicked => rw [hr] at e; cases e

/-! ## Which values have calls without them -/

mutual
/-- Every sequence in the value is empty. -/
def noFilled : V → Bool
  | .seq _ xs => xs.isEmpty
  | .map _ kvs => noFilledMap kvs
  | .tagged _ v => noFilled v
  | .enum _ v => noFilled v
  | .record _ _ fs => noFilledRec fs
  | .tuple _ _ fs => noFilledTup fs
  | .recordTuple _ _ fs => noFilledRT fs
  | .hint _ v => noFilled v
  | _ => true
def noFilledMap : List (V × V) → Bool
  | [] => true
  | (k, v) :: r => noFilled k && noFilled v && noFilledMap r
def noFilledRec : List (Option Tag × Label × V) → Bool
  | [] => true
  | (_, _, v) :: r => noFilled v && noFilledRec r
def noFilledTup : List (Option Tag × Index × V) → Bool
  | [] => true
  | (_, _, v) :: r => noFilled v && noFilledTup r
def noFilledRT : List (Option Tag × Label × Index × V) → Bool
  | [] => true
  | (_, _, _, v) :: r => noFilled v && noFilledRT r
end

mutual
theorem noFilled_iff_bare (v : V) : noFilled v = true ↔ ∀ t ∈ toks v, bareTok t = true := by
  match v with
  | .null | .bool _ | .int _ _ | .f32 _ | .f64 _ | .tag _ => simp [noFilled, toks, bareTok]
  | .text n fs =>
    simp only [noFilled, toks, true_iff, List.mem_cons, List.mem_append, List.mem_map, List.not_mem_nil, or_false]
    rintro t (rfl | ⟨f, _, rfl⟩ | rfl)
    · rfl
    · cases f <;> rfl
    · rfl
  | .binary n fs =>
    simp only [noFilled, toks, true_iff, List.mem_cons, List.mem_append, List.mem_map, List.not_mem_nil, or_false]
    rintro t (rfl | ⟨f, _, rfl⟩ | rfl)
    · rfl
    · cases f <;> rfl
    · rfl
  | .seq n xs => cases xs <;> simp [noFilled, toks, toksSeq, bareTok]
  | .map n kvs => simp [noFilled, toks, noFilledMap_iff_bare kvs, bareTok, List.forall_mem_append, or_imp, forall_and]
  | .tagged m v => simp [noFilled, toks, noFilled_iff_bare v, bareTok, or_imp, forall_and]
  | .enum m v => simp [noFilled, toks, noFilled_iff_bare v, bareTok, or_imp, forall_and]
  | .record m n fs => simp [noFilled, toks, noFilledRec_iff_bare fs, bareTok, or_imp, forall_and]
  | .tuple m n fs => simp [noFilled, toks, noFilledTup_iff_bare fs, bareTok, or_imp, forall_and]
  | .recordTuple m n fs => simp [noFilled, toks, noFilledRT_iff_bare fs, bareTok, or_imp, forall_and]
  | .hint t v => simp [noFilled, toks, noFilled_iff_bare v, bareTok, or_imp, forall_and]
theorem noFilledMap_iff_bare (l : List (V × V)) : noFilledMap l = true ↔ ∀ t ∈ toksMap l, bareTok t = true := by
  match l with
  | [] => simp [noFilledMap, toksMap]
  | (k, v) :: r =>
    have e : ∀ t ∈ [Token.mapKeyBegin, .mapKeyEnd, .mapValueBegin, .mapValueEnd], bareTok t = true := by simp [bareTok]
    simp only [List.mem_cons, List.not_mem_nil, or_false, forall_eq_or_imp, forall_eq] at e
    simp [noFilledMap, toksMap, noFilled_iff_bare k, noFilled_iff_bare v, noFilledMap_iff_bare r, e, or_imp, forall_and, and_assoc]
theorem noFilledRec_iff_bare (l : List (Option Tag × Label × V)) : noFilledRec l = true ↔ ∀ t ∈ toksRec l, bareTok t = true := by
  match l with
  | [] => simp [noFilledRec, toksRec]
  | (a, b, v) :: r =>
    have e1 : bareTok (.recordValueBegin a b) = true := rfl
    have e2 : bareTok (.recordValueEnd a b) = true := rfl
    simp [noFilledRec, toksRec, noFilled_iff_bare v, noFilledRec_iff_bare r, e1, e2, or_imp, forall_and]
theorem noFilledTup_iff_bare (l : List (Option Tag × Index × V)) : noFilledTup l = true ↔ ∀ t ∈ toksTup l, bareTok t = true := by
  match l with
  | [] => simp [noFilledTup, toksTup]
  | (a, b, v) :: r =>
    have e1 : bareTok (.tupleValueBegin a b) = true := rfl
    have e2 : bareTok (.tupleValueEnd a b) = true := rfl
    simp [noFilledTup, toksTup, noFilled_iff_bare v, noFilledTup_iff_bare r, e1, e2, or_imp, forall_and]
theorem noFilledRT_iff_bare (l : List (Option Tag × Label × Index × V)) : noFilledRT l = true ↔ ∀ t ∈ toksRT l, bareTok t = true := by
  match l with
  | [] => simp [noFilledRT, toksRT]
  | (a, b, i, v) :: r =>
    have e1 : bareTok (.recordTupleValueBegin a b i) = true := rfl
    have e2 : bareTok (.recordTupleValueEnd a b i) = true := rfl
    simp [noFilledRT, toksRT, noFilled_iff_bare v, noFilledRT_iff_bare r, e1, e2, or_imp, forall_and]
end

theorem strip_bare {T : List Token} (h : ∀ t ∈ T, bareTok t = true) : strip T = T := List.filter_eq_self.2 h

theorem bare_strip (T : List Token) : ∀ t ∈ strip T, bareTok t = true := fun _ ht => (List.mem_filter.1 ht).2

/-- Every sequence ends where it begins. -/
def TightSeq (T : List Token) : Prop := ∀ i n, T[i]? = some (.seqBegin n) → T[i + 1]? = some .seqEnd

theorem TightSeq.append {A B : List Token} (ha : TightSeq A) (hb : TightSeq B) : TightSeq (A ++ B) := by
  intro i n h
  rcases Nat.lt_or_ge i A.length with hi | hi
  · rw [List.getElem?_append_left hi] at h
    have := ha i n h
    rw [List.getElem?_append_left (List.getElem?_eq_some_iff.1 this).1]
    exact this
  · rw [List.getElem?_append_right hi] at h
    rw [List.getElem?_append_right (by omega), show i + 1 - A.length = (i - A.length) + 1 by omega]
    exact hb _ n h

theorem TightSeq.nil : TightSeq [] := by intro i n h; simp at h

theorem TightSeq.single {t : Token} (ht : ∀ n, t ≠ .seqBegin n) : TightSeq [t] := by
  intro i n h
  cases i with
  | zero => simp at h; exact (ht n h).elim
  | succ i => simp at h

theorem TightSeq.cons {t : Token} {B : List Token} (hb : TightSeq B) (ht : ∀ n, t ≠ .seqBegin n) : TightSeq (t :: B) :=
  (TightSeq.single ht).append hb

theorem TightSeq.around {s t : Token} {A : List Token} (ha : TightSeq A) (hs : ∀ n, s ≠ .seqBegin n) (ht : ∀ n, t ≠ .seqBegin n) :
    TightSeq (s :: (A ++ [t])) := (ha.append (.single ht)).cons hs

mutual
theorem tight_toks (v : V) (h : noFilled v = true) : TightSeq (toks v) := by
  match v with
  | .null | .bool _ | .int _ _ | .f32 _ | .f64 _ | .tag _ => exact .single (by simp)
  | .text n fs =>
    refine TightSeq.around ?_ (by simp) (by simp)
    intro i n h
    rw [List.getElem?_map] at h
    cases hf : fs[i]? with
    | none => simp [hf] at h
    | some f => cases f <;> simp [hf, textFragTok] at h
  | .binary n fs =>
    refine TightSeq.around ?_ (by simp) (by simp)
    intro i n h
    rw [List.getElem?_map] at h
    cases hf : fs[i]? with
    | none => simp [hf] at h
    | some f => cases f <;> simp [hf, binFragTok] at h
  | .seq n [] =>
    intro i k h
    match i with
    | 0 => rfl
    | 1 => simp [toks, toksSeq] at h
    | i + 2 => simp [toks, toksSeq] at h
  | .seq n (x :: xs) => simp [noFilled] at h
  | .map n kvs => exact (tight_toksMap kvs h).around (by simp) (by simp)
  | .tagged m v => exact (tight_toks v h).around (by simp) (by simp)
  | .enum m v => exact (tight_toks v h).around (by simp) (by simp)
  | .record m n fs => exact (tight_toksRec fs h).around (by simp) (by simp)
  | .tuple m n fs => exact (tight_toksTup fs h).around (by simp) (by simp)
  | .recordTuple m n fs => exact (tight_toksRT fs h).around (by simp) (by simp)
  | .hint t v => exact (tight_toks v h).cons (by simp)
theorem tight_toksMap (l : List (V × V)) (h : noFilledMap l = true) : TightSeq (toksMap l) := by
  match l with
  | [] => exact .nil
  | (k, v) :: r =>
    simp only [noFilledMap, Bool.and_eq_true] at h
    exact ((tight_toks k h.1.1).append ((((tight_toks v h.1.2).append ((tight_toksMap r h.2).cons (by simp))).cons
      (by simp)).cons (by simp))).cons (by simp)
theorem tight_toksRec (l : List (Option Tag × Label × V)) (h : noFilledRec l = true) : TightSeq (toksRec l) := by
  match l with
  | [] => exact .nil
  | (_, _, v) :: r =>
    simp only [noFilledRec, Bool.and_eq_true] at h
    exact ((tight_toks v h.1).append ((tight_toksRec r h.2).cons (by simp))).cons (by simp)
theorem tight_toksTup (l : List (Option Tag × Index × V)) (h : noFilledTup l = true) : TightSeq (toksTup l) := by
  match l with
  | [] => exact .nil
  | (_, _, v) :: r =>
    simp only [noFilledTup, Bool.and_eq_true] at h
    exact ((tight_toks v h.1).append ((tight_toksTup r h.2).cons (by simp))).cons (by simp)
theorem tight_toksRT (l : List (Option Tag × Label × Index × V)) (h : noFilledRT l = true) : TightSeq (toksRT l) := by
  match l with
  | [] => exact .nil
  | (_, _, _, v) :: r =>
    simp only [noFilledRT, Bool.and_eq_true] at h
    exact ((tight_toks v h.1).append ((tight_toksRT r h.2).cons (by simp))).cons (by simp)
end

/-- Some sequence does not end where it begins. -/
def LooseSeq (T : List Token) : Prop := ∃ n t, t ≠ Token.seqEnd ∧ [.seqBegin n, t] <:+: T

theorem LooseSeq.not_tight {T : List Token} (h : LooseSeq T) : ¬ TightSeq T := by
  obtain ⟨n, t, ht, A, B, rfl⟩ := h
  intro hT
  have := hT A.length n (by simp)
  simp at this
  exact ht this

theorem LooseSeq.infix {A T : List Token} (h : LooseSeq (strip A)) (hA : A <:+: T) : LooseSeq (strip T) := by
  obtain ⟨n, t, ht, hi⟩ := h
  exact ⟨n, t, ht, hi.trans (hA.filter _)⟩

theorem strip_toks_head (v : V) : ∃ t r, strip (toks v) = t :: r ∧ t ≠ .seqEnd := by
  cases v <;> exact ⟨_, _, rfl, by simp⟩

mutual
theorem loose_toks (v : V) (h : noFilled v = false) : LooseSeq (strip (toks v)) := by
  match v with
  | .null | .bool _ | .int _ _ | .f32 _ | .f64 _ | .tag _ | .text _ _ | .binary _ _ => simp [noFilled] at h
  | .seq n [] => simp [noFilled] at h
  | .seq n (x :: xs) =>
    obtain ⟨t, r, e, ht⟩ := strip_toks_head x
    refine ⟨n, t, ht, [], r ++ strip (.seqValueEnd :: (toksSeq xs ++ [.seqEnd])), ?_⟩
    have e' : strip (toks (.seq n (x :: xs))) = .seqBegin n :: (strip (toks x) ++ strip (.seqValueEnd :: (toksSeq xs ++ [.seqEnd]))) := by
      rw [← strip_append]
      simp [toks, toksSeq, strip]
    rw [e', e]
    simp
  | .map n kvs => exact (loose_toksMap kvs h).infix ⟨[_], [_], rfl⟩
  | .tagged m v => exact (loose_toks v h).infix ⟨[_], [_], rfl⟩
  | .enum m v => exact (loose_toks v h).infix ⟨[_], [_], rfl⟩
  | .record m n fs => exact (loose_toksRec fs h).infix ⟨[_], [_], rfl⟩
  | .tuple m n fs => exact (loose_toksTup fs h).infix ⟨[_], [_], rfl⟩
  | .recordTuple m n fs => exact (loose_toksRT fs h).infix ⟨[_], [_], rfl⟩
  | .hint t v => exact (loose_toks v h).infix ⟨[.tagHint t], [], by simp [toks]⟩
theorem loose_toksMap (l : List (V × V)) (h : noFilledMap l = false) : LooseSeq (strip (toksMap l)) := by
  match l with
  | [] => simp [noFilledMap] at h
  | (k, v) :: r =>
    simp only [noFilledMap, Bool.and_eq_false_iff] at h
    rcases h with (h | h) | h
    · exact (loose_toks k h).infix ⟨[_], _, rfl⟩
    · exact (loose_toks v h).infix ⟨.mapKeyBegin :: (toks k ++ [.mapKeyEnd, .mapValueBegin]), .mapValueEnd :: toksMap r, by simp [toksMap]⟩
    · exact (loose_toksMap r h).infix
        ⟨.mapKeyBegin :: (toks k ++ .mapKeyEnd :: .mapValueBegin :: (toks v ++ [.mapValueEnd])), [], by simp [toksMap]⟩
theorem loose_toksRec (l : List (Option Tag × Label × V)) (h : noFilledRec l = false) : LooseSeq (strip (toksRec l)) := by
  match l with
  | [] => simp [noFilledRec] at h
  | (a, b, v) :: r =>
    simp only [noFilledRec, Bool.and_eq_false_iff] at h
    rcases h with h | h
    · exact (loose_toks v h).infix ⟨[_], _, rfl⟩
    · exact (loose_toksRec r h).infix ⟨.recordValueBegin a b :: (toks v ++ [.recordValueEnd a b]), [], by simp [toksRec]⟩
theorem loose_toksTup (l : List (Option Tag × Index × V)) (h : noFilledTup l = false) : LooseSeq (strip (toksTup l)) := by
  match l with
  | [] => simp [noFilledTup] at h
  | (a, b, v) :: r =>
    simp only [noFilledTup, Bool.and_eq_false_iff] at h
    rcases h with h | h
    · exact (loose_toks v h).infix ⟨[_], _, rfl⟩
    · exact (loose_toksTup r h).infix ⟨.tupleValueBegin a b :: (toks v ++ [.tupleValueEnd a b]), [], by simp [toksTup]⟩
theorem loose_toksRT (l : List (Option Tag × Label × Index × V)) (h : noFilledRT l = false) : LooseSeq (strip (toksRT l)) := by
  match l with
  | [] => simp [noFilledRT] at h
  | (a, b, i, v) :: r =>
    simp only [noFilledRT, Bool.and_eq_false_iff] at h
    rcases h with h | h
    · exact (loose_toks v h).infix ⟨[_], _, rfl⟩
    · exact (loose_toksRT r h).infix ⟨.recordTupleValueBegin a b i :: (toks v ++ [.recordTupleValueEnd a b i]), [], by simp [toksRT]⟩
end

/-- The calls without those around elements are the calls of some value just if there are no elements. -/
theorem strip_toks_iff (v : V) : (∃ w, strip (toks v) = toks w) ↔ noFilled v = true := by
  constructor
  · rintro ⟨w, h⟩
    have hw : noFilled w = true := (noFilled_iff_bare w).2 (h ▸ bare_strip (toks v))
    cases hv : noFilled v with
    | true => rfl
    | false => exact ((loose_toks v hv).not_tight (h ▸ tight_toks w hw)).elim
  · intro h
    exact ⟨v, strip_bare ((noFilled_iff_bare v).1 h)⟩

mutual
theorem noFilled_seen (v : V) : noFilled (seen v) = noFilled v := by
  match v with
  | .null | .bool _ | .int _ _ | .f32 _ | .f64 _ | .tag _ | .text _ _ | .binary _ _ => rfl
  | .seq n [] => rfl
  | .seq n (x :: xs) => rfl
  | .map n kvs => exact noFilled_seenMap kvs
  | .tagged m v => exact noFilled_seen v
  | .enum m v => exact noFilled_seen v
  | .record m n fs => exact noFilled_seenRec fs
  | .tuple m n fs => exact noFilled_seenTup fs
  | .recordTuple m n fs => exact noFilled_seenRT fs
  | .hint t v => exact noFilled_seen v
theorem noFilled_seenMap (l : List (V × V)) : noFilledMap (seenMap l) = noFilledMap l := by
  match l with
  | [] => rfl
  | (k, v) :: r => simp only [seenMap, noFilledMap, noFilled_seen k, noFilled_seen v, noFilled_seenMap r]
theorem noFilled_seenRec (l : List (Option Tag × Label × V)) : noFilledRec (seenRec l) = noFilledRec l := by
  match l with
  | [] => rfl
  | (_, _, v) :: r => simp only [seenRec, noFilledRec, noFilled_seen v, noFilled_seenRec r]
theorem noFilled_seenTup (l : List (Option Tag × Index × V)) : noFilledTup (seenTup l) = noFilledTup l := by
  match l with
  | [] => rfl
  | (_, _, v) :: r => simp only [seenTup, noFilledTup, noFilled_seen v, noFilled_seenTup r]
theorem noFilled_seenRT (l : List (Option Tag × Label × Index × V)) : noFilledRec (seenRT l) = noFilledRT l := by
  match l with
  | [] => rfl
  | (_, _, _, v) :: r => simp only [seenRT, noFilledRT, noFilledRec, noFilled_seen v, noFilled_seenRT r]
end

/-! ## In all arguments -/

theorem Variant.withArgs {R R' : Arg → V → Prop} {X : List Cb} {v : V} (h : Variant R X v)
    (hX : ∀ c ∈ X, BareCb c) (hR : ∀ a w, R a w → BareArg a → R' a w) : Variant R' X v := by
  induction h with
  | tag m => exact .tag m
  | tagged m a v h => exact .tagged m a v (hR a v h (hX _ (List.mem_singleton.2 rfl) a rfl))
  | tuple m n L h =>
    exact .tuple m n L fun x hx => hR _ _ (h x hx)
      (hX (.tupleValue x.1 x.2.1 x.2.2.1) (by simp only [List.mem_cons, List.mem_append, List.mem_map]; exact .inr (.inl ⟨x, hx, rfl⟩)) _ rfl)
  | record m n L h =>
    exact .record m n L fun x hx => hR _ _ (h x hx)
      (hX (.recordValue x.1 x.2.1 x.2.2.1) (by simp only [List.mem_cons, List.mem_append, List.mem_map]; exact .inr (.inl ⟨x, hx, rfl⟩)) _ rfl)
  | nested m X v h ih => exact .nested m X v (ih fun c hc => hX c (by simp [hc]))

theorem Opened.withArgs {R R' : Arg → V → Prop} {X : List Cb} {v : V} (h : Opened R X v)
    (hX : ∀ c ∈ X, BareCb c) (hR : ∀ a w, R a w → BareArg a → R' a w) : Opened R' X v := by
  cases h with
  | null => exact .null
  | bool b => exact .bool b
  | int t v => exact .int t v
  | f32 b => exact .f32 b
  | f64 b => exact .f64 b
  | text b s => exact .text b s
  | binary b s => exact .binary b s
  | tag m => exact .tag m
  | tagged m a v h => exact .tagged m a v (hR a v h (hX _ (List.mem_singleton.2 rfl) a rfl))
  | seq n L h =>
    exact .seq n L fun x hx => hR _ _ (h x hx)
      (hX (.seqValue x.1) (by simp only [List.mem_cons, List.mem_append, List.mem_map]; exact .inr (.inl ⟨x, hx, rfl⟩)) _ rfl)
  | map n L h1 h2 =>
    exact .map n L
      (fun x hx => hR _ _ (h1 x hx) (hX (.mapKey x.1.1)
        (by simp only [List.mem_cons, List.mem_append, List.mem_flatMap]; exact .inr (.inl ⟨x, hx, by simp⟩)) _ rfl))
      (fun x hx => hR _ _ (h2 x hx) (hX (.mapValue x.2.1)
        (by simp only [List.mem_cons, List.mem_append, List.mem_flatMap]; exact .inr (.inl ⟨x, hx, by simp⟩)) _ rfl))
  | tuple m n L h =>
    exact .tuple m n L fun x hx => hR _ _ (h x hx)
      (hX (.tupleValue x.1 x.2.1 x.2.2.1) (by simp only [List.mem_cons, List.mem_append, List.mem_map]; exact .inr (.inl ⟨x, hx, rfl⟩)) _ rfl)
  | record m n L h =>
    exact .record m n L fun x hx => hR _ _ (h x hx)
      (hX (.recordValue x.1 x.2.1 x.2.2.1) (by simp only [List.mem_cons, List.mem_append, List.mem_map]; exact .inr (.inl ⟨x, hx, rfl⟩)) _ rfl)
  | enum m X v h => exact .enum m X v (h.withArgs (fun c hc => hX c (by simp [hc])) hR)

end Sval.Nested
