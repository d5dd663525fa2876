import Verif.Fmt.TokenSpec
import Verif.Fmt.Lemmas

set_option autoImplicit false

/-!
# What a `TokenWrite` is called with: proofs
-/

namespace Sval.Fmt

/-- From the flags `e`, `n` the tokens make the calls `L` and leave the flags `e'`, `n'`. -/
def Makes (ts : List Token) (e n : Bool) (L : List Call) (e' n' : Bool) : Prop :=
  ∀ (ω : Type) (inv : Call → ω → Res Unit ω) (o : ω), Agrees e' n' (run (callW inv) ts ⟨e, n, o⟩) (calls inv L o)

theorem Makes.nil (e n : Bool) : Makes [] e n [] e n := fun _ _ _ => rfl

theorem Makes.append {a b : List Token} {e n e1 n1 e2 n2 : Bool} {X Y : List Call} (h : Makes a e n X e1 n1)
    (h' : Makes b e1 n1 Y e2 n2) : Makes (a ++ b) e n (X ++ Y) e2 n2 := by
  intro ω inv o
  rw [run_append, calls_append]
  exact (h ω inv o).bind fun o => h' ω inv o

theorem Makes.cons {t : Token} {b : List Token} {e n e1 n1 e2 n2 : Bool} {X Y : List Call} (h : Makes [t] e n X e1 n1)
    (h' : Makes b e1 n1 Y e2 n2) : Makes (t :: b) e n (X ++ Y) e2 n2 := h.append h'

/-- A single token for an implemented method. -/
theorem makes_one (t : Token) (u : Token) (hu : Low.tok fmtCaps t = [u]) {e n e' n' : Bool} (L : List Call)
    (h : ∀ (ω : Type) (inv : Call → ω → Res Unit ω) (o : ω), Agrees e' n' (stepCall inv u ⟨e, n, o⟩) (calls inv L o)) :
    Makes [t] e n L e' n' := by
  intro ω inv o
  have := h ω inv o
  simp only [run_cons, callW, hu]
  cases hs : stepCall inv u ⟨e, n, o⟩ with
  | ok s => rw [hs] at this; exact this
  | err e s => rw [hs] at this; exact this
  | panic => rw [hs] at this; exact this

/-- A single token that makes a single call. -/
theorem makes_call (t u : Token) (hu : Low.tok fmtCaps t = [u]) {e n e' n' : Bool} (c : Call)
    (h : ∀ (ω : Type) (inv : Call → ω → Res Unit ω) (o : ω), stepCall inv u ⟨e, n, o⟩ = put (inv c) ⟨e', n', o⟩) :
    Makes [t] e n [c] e' n' := by
  refine makes_one t u hu [c] fun ω inv o => ?_
  rw [h, calls_one]
  exact agrees_put e' n' (inv c) o

/-- A single token that makes some calls. -/
theorem makes_calls (t u : Token) (hu : Low.tok fmtCaps t = [u]) {e n e' n' : Bool} (L : List Call)
    (h : ∀ (ω : Type) (inv : Call → ω → Res Unit ω) (o : ω), stepCall inv u ⟨e, n, o⟩ = put (calls inv L) ⟨e', n', o⟩) :
    Makes [t] e n L e' n' := by
  refine makes_one t u hu L fun ω inv o => ?_
  rw [h]
  exact agrees_put e' n' _ o

/-- A single token that makes no call. -/
theorem makes_quiet (t u : Token) (hu : Low.tok fmtCaps t = [u]) {e n e' n' : Bool}
    (h : ∀ (ω : Type) (inv : Call → ω → Res Unit ω) (o : ω), stepCall inv u ⟨e, n, o⟩ = .ok ⟨e', n', o⟩) :
    Makes [t] e n [] e' n' := by
  refine makes_one t u hu [] fun ω inv o => ?_
  rw [h]
  rfl

/-! ## Text and bytes -/

theorem makes_fragments (fs : List (Frag Text)) (e n : Bool) :
    Makes (fs.map textFragTok) e n (fs.map fun f => if n then .number f.content else .text f.content) e n := by
  induction fs with
  | nil => exact Makes.nil e n
  | cons f fs ih =>
    have : Makes [textFragTok f] e n [if n then .number f.content else .text f.content] e n := by
      refine makes_call _ (.textFragmentComputed f.content) (by cases f <;> rfl) _ fun ω inv o => ?_
      cases n <;> simp [stepCall]
    exact this.cons ih

theorem makes_bytes (e : Bool) (b : Bytes) (t : Token) (hu : Low.tok fmtCaps t = [.binaryFragmentComputed b]) :
    Makes [t] e false (shapeBytes e b) (e && b.isEmpty) false := by
  refine makes_one t _ hu _ fun ω inv o => ?_
  simp only [stepCall]
  clear hu t
  induction b generalizing e o with
  | nil => simpa [binaryCalls, shapeBytes, calls] using agrees_ok e false o
  | cons b bs ih =>
    simp only [binaryCalls, shapeBytes, calls, List.isEmpty_cons, Bool.and_false]
    refine (agrees_put e false (inv (.seqValueBegin e)) o).bind fun o => ?_
    refine (agrees_put e false (inv (.int .u8 b.toNat)) o).bind fun o => ?_
    simpa using ih false o

theorem shapeBytes_append (e : Bool) (a b : Bytes) : shapeBytes e (a ++ b) = shapeBytes e a ++ shapeBytes (e && a.isEmpty) b := by
  induction a generalizing e with
  | nil => simp [shapeBytes]
  | cons x a ih => simp [shapeBytes, ih]

theorem makes_binFragments (fs : List (Frag Bytes)) (e : Bool) :
    Makes (fs.map binFragTok) e false (shapeBytes e (fragsBytes fs)) (e && (fragsBytes fs).isEmpty) false := by
  induction fs generalizing e with
  | nil => simpa [fragsBytes, shapeBytes] using Makes.nil e false
  | cons f fs ih =>
    have h1 := makes_bytes e f.content (binFragTok f) (by cases f <;> rfl)
    have := h1.cons (ih (e && f.content.isEmpty))
    have hb : fragsBytes (f :: fs) = f.content ++ fragsBytes fs := by simp [fragsBytes]
    rw [hb, shapeBytes_append]
    have he : (e && (f.content ++ fragsBytes fs).isEmpty) = ((e && f.content.isEmpty) && (fragsBytes fs).isEmpty) := by
      cases f.content <;> simp
    rw [he]
    exact this

/-! ## Values -/

theorem makes_tag (t : Token) (m : Meta) (hu : Low.tok fmtCaps t = [.tag m]) (e n : Bool) : Makes [t] e n [nameCall m] false n := by
  refine makes_call t _ hu _ fun ω inv o => ?_
  cases hm : m.label <;> simp only [stepCall, tagCall, nameCall, hm]

theorem makes_recordBegin (t : Token) (m : Meta) (k : Option Nat) (hu : Low.tok fmtCaps t = [.recordBegin m k]) (e n : Bool) :
    Makes [t] e n (labelCalls .recordType m ++ [.recordBegin]) true false := by
  cases hm : m.label with
  | some l => exact makes_calls t _ hu _ fun ω inv o => by simp only [stepCall, labelCalls, hm]; rfl
  | none =>
    have : labelCalls .recordType m ++ [.recordBegin] = [.recordBegin] := by simp [labelCalls, hm]
    rw [this]
    exact makes_call t _ hu _ fun ω inv o => by simp only [stepCall, hm]

theorem makes_tupleBegin (m : Meta) (k : Option Nat) (e n : Bool) :
    Makes [.tupleBegin m k] e n (labelCalls .tupleType m ++ [.tupleBegin]) true false := by
  cases hm : m.label with
  | some l => exact makes_calls _ _ rfl _ fun ω inv o => by simp only [stepCall, labelCalls, hm]; rfl
  | none =>
    have : labelCalls .tupleType m ++ [.tupleBegin] = [.tupleBegin] := by simp [labelCalls, hm]
    rw [this]
    exact makes_call _ _ rfl _ fun ω inv o => by simp only [stepCall, hm]

/-- What streaming a value calls. -/
theorem makes_value (v : V) (e n : Bool) :
    Makes (toks v) e n (shape twiceCalls hollow n v) (hollow e v) (numAfter n v) := by
  induction v using V.ind generalizing e n with
  | null => exact makes_call _ _ rfl _ fun ω inv o => rfl
  | bool b => exact makes_call _ _ rfl _ fun ω inv o => rfl
  | int t v => exact makes_call _ (.int t v) (by cases t <;> rfl) _ fun ω inv o => rfl
  | f32 b => exact makes_call _ _ rfl _ fun ω inv o => rfl
  | f64 b => exact makes_call _ _ rfl _ fun ω inv o => rfl
  | text h fs =>
    cases n with
    | true =>
      have := ((makes_quiet (.textBegin h) _ rfl (e := e) (n := true) fun ω inv o => rfl).cons
        (makes_fragments fs e true)).append (makes_quiet .textEnd _ rfl fun ω inv o => rfl)
      simpa [shape, toks, hollow, numAfter] using this
    | false =>
      have := ((makes_call (.textBegin h) _ rfl (e := e) (n := false) .textQuote fun ω inv o => rfl).cons
        (makes_fragments fs e false)).append (makes_call .textEnd _ rfl .textQuote fun ω inv o => rfl)
      simpa [shape, toks, hollow, numAfter] using this
  | binary h fs =>
    have := ((makes_call (.binaryBegin h) _ rfl (e := e) (n := n) .seqBegin fun ω inv o => rfl).cons
      (makes_binFragments fs true)).append (makes_call .binaryEnd _ rfl (.seqEnd (fragsBytes fs).isEmpty) fun ω inv o => rfl)
    simpa [shape, toks, hollow, numAfter] using this
  | seq h xs ih =>
    have body : ∀ e, Makes (toksSeq xs) e false (shapeSeq twiceCalls hollow e xs) (e && xs.isEmpty) false := by
      clear e n
      induction xs with
      | nil => intro e; simpa [toksSeq, shapeSeq] using Makes.nil e false
      | cons x xs ih' =>
        intro e
        have hx := ih x (by simp) e false
        rw [numAfter_false] at hx
        have := (makes_call .seqValueBegin _ rfl (e := e) (n := false) (.seqValueBegin e) fun ω inv o => rfl).cons
          (hx.append ((makes_quiet .seqValueEnd _ rfl (n := false) (e' := false) (n' := false) fun ω inv o => rfl).cons
            (ih' (fun y hy => ih y (by simp [hy])) false)))
        simpa [toksSeq, shapeSeq] using this
    have := ((makes_call (.seqBegin h) _ rfl (e := e) (n := n) .seqBegin fun ω inv o => rfl).cons
      (body true)).append (makes_call .seqEnd _ rfl (.seqEnd xs.isEmpty) fun ω inv o => rfl)
    simpa [shape, toks, hollow, numAfter] using this
  | map h kvs ih =>
    have body : ∀ e, Makes (toksMap kvs) e false (shapeMap twiceCalls hollow e kvs) (e && kvs.isEmpty) false := by
      clear e n
      induction kvs with
      | nil => intro e; simpa [toksMap, shapeMap] using Makes.nil e false
      | cons kv r ih' =>
        intro e
        obtain ⟨k, v⟩ := kv
        have hk := (ih (k, v) (by simp)).1 e false
        have hv := (ih (k, v) (by simp)).2 (hollow e k) false
        simp only [numAfter_false] at hk hv
        have := (makes_call .mapKeyBegin _ rfl (e := e) (n := false) (.mapKeyBegin e) fun ω inv o => rfl).cons
          (hk.append ((makes_call .mapKeyEnd _ rfl (.mapValueBegin _) fun ω inv o => rfl).cons
          ((makes_quiet .mapValueBegin _ rfl fun ω inv o => rfl).cons (hv.append
            ((makes_quiet .mapValueEnd _ rfl (n := false) (e' := false) (n' := false) fun ω inv o => rfl).cons
            (ih' (fun y hy => ih y (by simp [hy])) false))))))
        simpa [toksMap, shapeMap] using this
    have := ((makes_call (.mapBegin h) _ rfl (e := e) (n := n) .mapBegin fun ω inv o => rfl).cons
      (body true)).append (makes_call .mapEnd _ rfl (.mapEnd kvs.isEmpty) fun ω inv o => rfl)
    simpa [shape, toks, hollow, numAfter] using this
  | tag m => exact makes_tag _ m rfl e n
  | tagged m v ih =>
    have hv := ih false (n || decide (m.tag = some tags.NUMBER))
    cases hm : m.label with
    | some l =>
      have h1 : Makes [.taggedBegin m] e n [.tupleType l.text, .tupleBegin] false (n || decide (m.tag = some tags.NUMBER)) :=
        makes_calls _ _ rfl _ fun ω inv o => by simp only [stepCall, hm]
      have h2 : ∀ e n, Makes [.taggedEnd m] e n [.tupleEnd false] e (n && !decide (m.tag = some tags.NUMBER)) := fun e n =>
        makes_call _ _ rfl _ fun ω inv o => by simp only [stepCall, hm]
      have := (h1.cons hv).append (h2 _ _)
      simpa [shape, toks, hm, hollow, numAfter] using this
    | none =>
      have h1 : Makes [.taggedBegin m] e n [] false (n || decide (m.tag = some tags.NUMBER)) :=
        makes_quiet _ _ rfl fun ω inv o => by simp only [stepCall, hm]
      have h2 : ∀ e n, Makes [.taggedEnd m] e n [] e (n && !decide (m.tag = some tags.NUMBER)) := fun e n =>
        makes_quiet _ _ rfl fun ω inv o => by simp only [stepCall, hm]
      have := (h1.cons hv).append (h2 _ _)
      simpa [shape, toks, hm, hollow, numAfter] using this
  | enum m v ih =>
    have hv := ih true n
    have h2 : ∀ e n, Makes [.enumEnd m] e n (if e then [nameCall m] else []) false n := by
      intro e n
      cases e with
      | true =>
        refine makes_call _ _ rfl _ fun ω inv o => ?_
        cases hm : m.label <;> simp [stepCall, tagCall, nameCall, hm]
      | false => exact makes_quiet _ _ rfl fun ω inv o => rfl
    have := ((makes_quiet (.enumBegin m) _ rfl (e := e) (n := n) fun ω inv o => rfl).cons hv).append (h2 _ _)
    simpa [shape, toks, twiceCalls, hollow, numAfter] using this
  | record m h fs ih =>
    have body : ∀ e, Makes (toksRec fs) e false (shapeRec twiceCalls hollow e fs) (e && fs.isEmpty) false := by
      clear e n
      induction fs with
      | nil => intro e; simpa [toksRec, shapeRec] using Makes.nil e false
      | cons f r ih' =>
        intro e
        obtain ⟨t, l, v⟩ := f
        have hv := ih (t, l, v) (by simp) e false
        simp only [numAfter_false] at hv
        have := (makes_call (.recordValueBegin t l) _ rfl (e := e) (n := false) (.recordValueBegin l.text e) fun ω inv o => rfl).cons (hv.append
            ((makes_quiet (.recordValueEnd t l) _ rfl (n := false) (e' := false) (n' := false) fun ω inv o => rfl).cons
            (ih' (fun y hy => ih y (by simp [hy])) false)))
        simpa [toksRec, shapeRec] using this
    have := ((makes_recordBegin (.recordBegin m h) m h rfl e n).cons
      (body true)).append (makes_call (.recordEnd m) _ rfl (.recordEnd fs.isEmpty) fun ω inv o => rfl)
    simpa [shape, toks, hollow, numAfter] using this
  | tuple m h fs ih =>
    have body : ∀ e, Makes (toksTup fs) e false (shapeTup twiceCalls hollow e fs) (e && fs.isEmpty) false := by
      clear e n
      induction fs with
      | nil => intro e; simpa [toksTup, shapeTup] using Makes.nil e false
      | cons f r ih' =>
        intro e
        obtain ⟨t, i, v⟩ := f
        have hv := ih (t, i, v) (by simp) e false
        simp only [numAfter_false] at hv
        have := (makes_call (.tupleValueBegin t i) _ rfl (e := e) (n := false) (.tupleValueBegin e) fun ω inv o => rfl).cons (hv.append
            ((makes_quiet (.tupleValueEnd t i) _ rfl (n := false) (e' := false) (n' := false) fun ω inv o => rfl).cons
            (ih' (fun y hy => ih y (by simp [hy])) false)))
        simpa [toksTup, shapeTup] using this
    have := ((makes_tupleBegin m h e n).cons
      (body true)).append (makes_call (.tupleEnd m) _ rfl (.tupleEnd fs.isEmpty) fun ω inv o => rfl)
    simpa [shape, toks, hollow, numAfter] using this
  | recordTuple m h fs ih =>
    have body : ∀ e, Makes (toksRT fs) e false (shapeRT twiceCalls hollow e fs) (e && fs.isEmpty) false := by
      clear e n
      induction fs with
      | nil => intro e; simpa [toksRT, shapeRT] using Makes.nil e false
      | cons f r ih' =>
        intro e
        obtain ⟨t, l, i, v⟩ := f
        have hv := ih (t, l, i, v) (by simp) e false
        simp only [numAfter_false] at hv
        have := (makes_call (.recordTupleValueBegin t l i) (.recordValueBegin t l) rfl (e := e) (n := false) (.recordValueBegin l.text e) fun ω inv o => rfl).cons (hv.append
            ((makes_quiet (.recordTupleValueEnd t l i) (.recordValueEnd t l) rfl (n := false) (e' := false) (n' := false) fun ω inv o => rfl).cons
            (ih' (fun y hy => ih y (by simp [hy])) false)))
        simpa [toksRT, shapeRT] using this
    have := ((makes_recordBegin (.recordTupleBegin m h) m h rfl e n).cons
      (body true)).append (makes_call (.recordTupleEnd m) (.recordEnd m) rfl (.recordEnd fs.isEmpty) fun ω inv o => rfl)
    simpa [shape, toks, hollow, numAfter] using this
  | hint t v ih =>
    intro ω inv o
    have := ih e n ω inv o
    simpa [shape, toks, callW, Low.tok, Low.tagHint, fmtCaps, hollow, numAfter] using this

/-- Streaming a value makes the calls `made`, until one fails. -/
theorem streamTo_value {ω : Type} (inv : Call → ω → Res Unit ω) (v : V) (o : ω) :
    streamTo inv (valueOf v) o = (calls inv (made v) o).outcome := by
  have := makes_value v true false ω inv o
  simp only [streamTo, valueOf, drive_ofToks, St.new]
  change Agrees _ _ _ (calls inv (made v) o) at this
  cases hr : run (callW inv) (toks v) ⟨true, false, o⟩ with
  | ok s => rw [hr] at this; cases hq : calls inv (made v) o <;> rw [hq] at this <;> simp only [Agrees] at this; subst this; rfl
  | err e s => rw [hr] at this; cases hq : calls inv (made v) o <;> rw [hq] at this <;> simp only [Agrees] at this; subst this; rfl
  | panic => rw [hr] at this; cases hq : calls inv (made v) o <;> rw [hq] at this <;> simp only [Agrees] at this; rfl

/-! ## When the calls are as they should be -/

theorem append_iff {α : Type} {a a' b b' : List α} (ha : a'.length ≤ a.length) (hb : b'.length ≤ b.length) :
    a ++ b = a' ++ b' ↔ a = a' ∧ b = b' := by
  constructor
  · intro h
    have := congrArg List.length h
    simp only [List.length_append] at this
    exact List.append_inj h (by omega)
  · rintro ⟨rfl, rfl⟩; rfl

/-- The calls that should be made, for any `num`. -/
def dueN (n : Bool) : V → List Call := shape (fun _ _ => []) (fun first _ => first) n

/-- `b` is at least as long as `a`, and equal just in case of `p`. -/
def Over (a b : List Call) (p : Bool) : Prop := a.length ≤ b.length ∧ (b = a ↔ p = true)

theorem Over.rfl' (a : List Call) : Over a a true := ⟨Nat.le_refl _, by simp⟩

theorem Over.append {a b c d : List Call} {p q : Bool} (h : Over a b p) (h' : Over c d q) : Over (a ++ c) (b ++ d) (p && q) := by
  refine ⟨by simp only [List.length_append]; have := h.1; have := h'.1; omega, ?_⟩
  rw [append_iff h.1 h'.1, h.2, h'.2, Bool.and_eq_true]

theorem Over.cons {c d : List Call} {q : Bool} (x : Call) (h' : Over c d q) : Over (x :: c) (x :: d) q := by
  simpa using (Over.rfl' [x]).append h'

theorem Over.flag {f g : Bool} : Over [.mapValueBegin f] [.mapValueBegin g] (g == f) := by
  refine ⟨Nat.le_refl _, ?_⟩
  simp

theorem over_value (v : V) (n : Bool) : Over (dueN n v) (shape twiceCalls hollow n v) (solid v && keysOk v) := by
  induction v using V.ind generalizing n with
  | seq m xs ih =>
    have body : ∀ e, Over (shapeSeq (fun _ _ => []) (fun first _ => first) e xs) (shapeSeq twiceCalls hollow e xs) (solidSeq xs && keysOkSeq xs) := by
      induction xs with
      | nil => intro e; exact Over.rfl' _
      | cons x xs ih' =>
        intro e
        have := ((ih x (by simp) false).cons (.seqValueBegin e)).append (ih' (fun y hy => ih y (by simp [hy])) false)
        simp only [solidSeq, keysOkSeq, shapeSeq]
        rw [show (solid x && solidSeq xs && (keysOk x && keysOkSeq xs)) = (solid x && keysOk x && (solidSeq xs && keysOkSeq xs)) by
          cases solid x <;> cases keysOk x <;> simp]
        exact this
    have := ((body true).cons .seqBegin).append (Over.rfl' [.seqEnd xs.isEmpty])
    simpa [dueN, shape, solid, keysOk] using this
  | map m kvs ih =>
    have body : ∀ e, Over (shapeMap (fun _ _ => []) (fun first _ => first) e kvs) (shapeMap twiceCalls hollow e kvs) (solidMap kvs && keysOkMap e kvs) := by
      induction kvs with
      | nil => intro e; exact Over.rfl' _
      | cons kv r ih' =>
        intro e
        obtain ⟨k, v⟩ := kv
        have := (((ih (k, v) (by simp)).1 false).cons (.mapKeyBegin e)).append ((Over.flag (f := e) (g := hollow e k)).append
          (((ih (k, v) (by simp)).2 false).append (ih' (fun y hy => ih y (by simp [hy])) false)))
        simp only [solidMap, keysOkMap, shapeMap, keyOk]
        rw [show (solid k && solid v && solidMap r && ((hollow e k == e) && (keysOk k && (keysOk v && keysOkMap false r)))) =
            (solid k && keysOk k && ((hollow e k == e) && (solid v && keysOk v && (solidMap r && keysOkMap false r)))) by
          cases solid k <;> cases keysOk k <;> cases (hollow e k == e) <;> cases solid v <;> cases keysOk v <;> simp]
        simpa [dueN] using this
    have := ((body true).cons .mapBegin).append (Over.rfl' [.mapEnd kvs.isEmpty])
    simpa [dueN, shape, solid, keysOk] using this
  | record m k fs ih =>
    have body : ∀ e, Over (shapeRec (fun _ _ => []) (fun first _ => first) e fs) (shapeRec twiceCalls hollow e fs) (solidRec fs && keysOkRec fs) := by
      induction fs with
      | nil => intro e; exact Over.rfl' _
      | cons f r ih' =>
        intro e
        obtain ⟨t, l, x⟩ := f
        have := ((ih (t, l, x) (by simp) false).cons (.recordValueBegin l.text e)).append (ih' (fun y hy => ih y (by simp [hy])) false)
        simp only [solidRec, keysOkRec, shapeRec]
        rw [show (solid x && solidRec r && (keysOk x && keysOkRec r)) = (solid x && keysOk x && (solidRec r && keysOkRec r)) by
          cases solid x <;> cases keysOk x <;> simp]
        exact this
    have := ((Over.rfl' (labelCalls .recordType m)).append ((body true).cons .recordBegin)).append (Over.rfl' [.recordEnd fs.isEmpty])
    simpa [dueN, shape, solid, keysOk] using this
  | tuple m k fs ih =>
    have body : ∀ e, Over (shapeTup (fun _ _ => []) (fun first _ => first) e fs) (shapeTup twiceCalls hollow e fs) (solidTup fs && keysOkTup fs) := by
      induction fs with
      | nil => intro e; exact Over.rfl' _
      | cons f r ih' =>
        intro e
        obtain ⟨t, l, x⟩ := f
        have := ((ih (t, l, x) (by simp) false).cons (.tupleValueBegin e)).append (ih' (fun y hy => ih y (by simp [hy])) false)
        simp only [solidTup, keysOkTup, shapeTup]
        rw [show (solid x && solidTup r && (keysOk x && keysOkTup r)) = (solid x && keysOk x && (solidTup r && keysOkTup r)) by
          cases solid x <;> cases keysOk x <;> simp]
        exact this
    have := ((Over.rfl' (labelCalls .tupleType m)).append ((body true).cons .tupleBegin)).append (Over.rfl' [.tupleEnd fs.isEmpty])
    simpa [dueN, shape, solid, keysOk] using this
  | recordTuple m k fs ih =>
    have body : ∀ e, Over (shapeRT (fun _ _ => []) (fun first _ => first) e fs) (shapeRT twiceCalls hollow e fs) (solidRT fs && keysOkRT fs) := by
      induction fs with
      | nil => intro e; exact Over.rfl' _
      | cons f r ih' =>
        intro e
        obtain ⟨t, l, i, x⟩ := f
        have := ((ih (t, l, i, x) (by simp) false).cons (.recordValueBegin l.text e)).append (ih' (fun y hy => ih y (by simp [hy])) false)
        simp only [solidRT, keysOkRT, shapeRT]
        rw [show (solid x && solidRT r && (keysOk x && keysOkRT r)) = (solid x && keysOk x && (solidRT r && keysOkRT r)) by
          cases solid x <;> cases keysOk x <;> simp]
        exact this
    have := ((Over.rfl' (labelCalls .recordType m)).append ((body true).cons .recordBegin)).append (Over.rfl' [.recordEnd fs.isEmpty])
    simpa [dueN, shape, solid, keysOk] using this
  | tagged m v ih =>
    cases hm : m.label with
    | some l =>
      have := (((ih (n || decide (m.tag = some tags.NUMBER))).cons .tupleBegin).cons (.tupleType l.text)).append (Over.rfl' [.tupleEnd false])
      simpa [dueN, shape, solid, keysOk, hm] using this
    | none => simpa [dueN, shape, solid, keysOk, hm] using ih (n || decide (m.tag = some tags.NUMBER))
  | enum m v ih =>
    have h : Over [] (twiceCalls m v) (!hollow true v) := by
      unfold twiceCalls
      cases hollow true v <;> simp [Over]
    have := (ih n).append h
    simp only [solid, keysOk]
    rw [show (!hollow true v && solid v && keysOk v) = (solid v && keysOk v && !hollow true v) by
      cases solid v <;> cases keysOk v <;> simp]
    simpa [dueN, shape] using this
  | hint t v ih => exact ih n
  | _ => exact Over.rfl' _

end Sval.Fmt
