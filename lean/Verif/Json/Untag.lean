import Verif.Json.Norm
import Verif.Json.Sim

set_option autoImplicit false

/-!
# What the tag of a field's label does to JSON

With and without the tags of labels the formatter does the same, but for the lengths of what it writes.
-/

namespace Sval.Json

open Buf (norm normSeq normMap normRec normTup normRT)

/-- A label without its tag. -/
def untagL (l : Label) : Label := { l with tag := none }

/-- A call without the tag of the label of a field. -/
def untag : Token → Token
  | .recordValueBegin t l => .recordValueBegin t (untagL l)
  | .recordValueEnd t l => .recordValueEnd t (untagL l)
  | .recordTupleValueBegin t l i => .recordTupleValueBegin t (untagL l) i
  | .recordTupleValueEnd t l i => .recordTupleValueEnd t (untagL l) i
  | t => t

/-- Is the label of a field fit for its tag? -/
def labelOk : Token → Bool
  | .recordValueBegin _ l => identOk l
  | .recordTupleValueBegin _ l _ => identOk l
  | _ => true

mutual
/-- A value without the tags of the labels of fields. -/
def bare : V → V
  | .seq n xs => .seq n (bareSeq xs)
  | .map n kvs => .map n (bareMap kvs)
  | .tagged m v => .tagged m (bare v)
  | .enum m v => .enum m (bare v)
  | .record m n fs => .record m n (bareRec fs)
  | .tuple m n fs => .tuple m n (bareTup fs)
  | .recordTuple m n fs => .recordTuple m n (bareRT fs)
  | .hint t v => .hint t (bare v)
  | v => v
def bareSeq : List V → List V
  | [] => []
  | x :: xs => bare x :: bareSeq xs
def bareMap : List (V × V) → List (V × V)
  | [] => []
  | (k, v) :: r => (bare k, bare v) :: bareMap r
def bareRec : List (Option Tag × Label × V) → List (Option Tag × Label × V)
  | [] => []
  | (t, l, v) :: r => (t, untagL l, bare v) :: bareRec r
def bareTup : List (Option Tag × Index × V) → List (Option Tag × Index × V)
  | [] => []
  | (t, i, v) :: r => (t, i, bare v) :: bareTup r
def bareRT : List (Option Tag × Label × Index × V) → List (Option Tag × Label × Index × V)
  | [] => []
  | (t, l, i, v) :: r => (t, untagL l, i, bare v) :: bareRT r
end

mutual
theorem toks_bare : ∀ v : V, toks (bare v) = (toks v).map untag
  | .null => rfl
  | .bool _ => rfl
  | .int _ _ => rfl
  | .f32 _ => rfl
  | .f64 _ => rfl
  | .tag _ => rfl
  | .text n fs => by
    have : (fs.map textFragTok).map untag = fs.map textFragTok := by
      rw [List.map_map]; exact List.map_congr_left fun f _ => by cases f <;> rfl
    simp [bare, toks, untag]
    intro f _; cases f <;> rfl
  | .binary n fs => by
    simp [bare, toks, untag]
    intro f _; cases f <;> rfl
  | .seq n xs => by simp [bare, toks, untag, toks_bareSeq xs]
  | .map n kvs => by simp [bare, toks, untag, toks_bareMap kvs]
  | .tagged m v => by simp [bare, toks, untag, toks_bare v]
  | .enum m v => by simp [bare, toks, untag, toks_bare v]
  | .record m n fs => by simp [bare, toks, untag, toks_bareRec fs]
  | .tuple m n fs => by simp [bare, toks, untag, toks_bareTup fs]
  | .recordTuple m n fs => by simp [bare, toks, untag, toks_bareRT fs]
  | .hint t v => by simp [bare, toks, untag, toks_bare v]
theorem toks_bareSeq : ∀ xs, toksSeq (bareSeq xs) = (toksSeq xs).map untag
  | [] => rfl
  | x :: xs => by simp [bareSeq, toksSeq, untag, toks_bare x, toks_bareSeq xs]
theorem toks_bareMap : ∀ xs, toksMap (bareMap xs) = (toksMap xs).map untag
  | [] => rfl
  | (k, v) :: r => by simp [bareMap, toksMap, untag, toks_bare k, toks_bare v, toks_bareMap r]
theorem toks_bareRec : ∀ xs, toksRec (bareRec xs) = (toksRec xs).map untag
  | [] => rfl
  | (t, l, v) :: r => by simp [bareRec, toksRec, untag, toks_bare v, toks_bareRec r]
theorem toks_bareTup : ∀ xs, toksTup (bareTup xs) = (toksTup xs).map untag
  | [] => rfl
  | (t, l, v) :: r => by simp [bareTup, toksTup, untag, toks_bare v, toks_bareTup r]
theorem toks_bareRT : ∀ xs, toksRT (bareRT xs) = (toksRT xs).map untag
  | [] => rfl
  | (t, l, i, v) :: r => by simp [bareRT, toksRT, untag, toks_bare v, toks_bareRT r]
end

mutual
theorem norm_bare : ∀ v : V, norm (bare v) = norm v
  | .null => rfl
  | .bool _ => rfl
  | .int _ _ => rfl
  | .f32 _ => rfl
  | .f64 _ => rfl
  | .tag _ => rfl
  | .text n fs => rfl
  | .binary n fs => rfl
  | .seq n xs => by simp [bare, norm, norm_bareSeq xs]
  | .map n kvs => by simp [bare, norm, norm_bareMap kvs]
  | .tagged m v => by simp [bare, norm, norm_bare v]
  | .enum m v => by simp [bare, norm, norm_bare v]
  | .record m n fs => by simp [bare, norm, norm_bareRec fs]
  | .tuple m n fs => by simp [bare, norm, norm_bareTup fs]
  | .recordTuple m n fs => by simp [bare, norm, norm_bareRT fs]
  | .hint t v => by simp [bare, norm, norm_bare v]
theorem norm_bareSeq : ∀ xs, normSeq (bareSeq xs) = normSeq xs
  | [] => rfl
  | x :: xs => by simp [bareSeq, normSeq, norm_bare x, norm_bareSeq xs]
theorem norm_bareMap : ∀ xs, normMap (bareMap xs) = normMap xs
  | [] => rfl
  | (k, v) :: r => by simp [bareMap, normMap, norm_bare k, norm_bare v, norm_bareMap r]
theorem norm_bareRec : ∀ xs, normRec (bareRec xs) = normRec xs
  | [] => rfl
  | (t, l, v) :: r => by simp [bareRec, normRec, norm_bare v, norm_bareRec r, untagL, Label.toOwned]
theorem norm_bareTup : ∀ xs, normTup (bareTup xs) = normTup xs
  | [] => rfl
  | (t, l, v) :: r => by simp [bareTup, normTup, norm_bare v, norm_bareTup r]
theorem norm_bareRT : ∀ xs, normRT (bareRT xs) = normRT xs
  | [] => rfl
  | (t, l, i, v) :: r => by simp [bareRT, normRT, norm_bare v, norm_bareRT r, untagL, Label.toOwned]
end

/-! ## Escaping makes text longer -/

theorem escapeChar_length (c : Char) : 1 ≤ (escapeChar c).length ∧ (rawOk c = false → 2 ≤ (escapeChar c).length) := by
  by_cases hc : c.toNat < 128
  · have : ∀ n < 128, 1 ≤ (escapeChar (Char.ofNat n)).length ∧
        (rawOk (Char.ofNat n) = false → 2 ≤ (escapeChar (Char.ofNat n)).length) := by decide +kernel
    have := this c.toNat hc
    rwa [ofNat_toNat] at this
  · have hr : rawOk c = true := by
      simp only [rawOk, Bool.and_eq_true, decide_eq_true_eq, bne_iff_ne, ne_eq]
      refine ⟨⟨by omega, ?_⟩, ?_⟩ <;> (rintro rfl; exact hc (by decide))
    have : escapeChar c = [c] := by simp [escapeChar, escapeOf_raw c hr]
    simp [this, hr]

theorem escape_length (t : Text) : t.length ≤ (escape t).length ∧ (t.all rawOk = false → t.length < (escape t).length) := by
  induction t with
  | nil => simp
  | cons c t ih =>
    have := escapeChar_length c
    rw [escape_cons, List.length_append, List.length_cons]
    refine ⟨by omega, fun h => ?_⟩
    simp only [List.all_cons, Bool.and_eq_false_iff] at h
    rcases h with h | h
    · have := this.2 h; omega
    · have := ih.2 h; omega

/-- How much longer a call makes the output if the label has no tag. -/
def extra : Token → Nat
  | .recordValueBegin _ l => if l.tag = some tags.VALUE_IDENT then (escape l.text).length - l.text.length else 0
  | .recordTupleValueBegin _ l _ => if l.tag = some tags.VALUE_IDENT then (escape l.text).length - l.text.length else 0
  | _ => 0

theorem extra_label (l : Label) :
    (if l.tag = some tags.VALUE_IDENT then (escape l.text).length - l.text.length else 0) = 0 ↔ identOk l = true := by
  unfold identOk
  have := escape_length l.text
  by_cases h : l.tag = some tags.VALUE_IDENT
  · simp only [h, if_true, decide_true, Bool.not_true, Bool.false_or]
    cases hr : l.text.all rawOk with
    | true => simp [escape_raw _ hr]
    | false => have := this.2 hr; simp; omega
  · simp [h]

theorem extra_zero (t : Token) : extra t = 0 ↔ labelOk t = true := by
  cases t <;> first | exact extra_label _ | simp [extra, labelOk]

/-- The same, and so much longer. -/
def Longer (d : Nat) : St Text → St Text → Prop := SR fun o o' : Text => o'.length = o.length + d

theorem sim_longer (d : Nat) (t : Text) :
    Sim (fun o o' : Text => o'.length = o.length + d) (fun _ _ => False) (strWriter t) (strWriter t) := by
  refine ⟨fun a b h => ?_, fun a b h => h.elim⟩
  show (b ++ t).length = (a ++ t).length + d
  simp only [List.length_append]
  omega

/-- Two results that go the same way. -/
def Goes (d : Nat) : Res Unit (St Text) → Res Unit (St Text) → Prop
  | .ok a, .ok b => Longer d a b
  | .err _ _, .err _ _ => True
  | .panic, .panic => True
  | _, _ => False

theorem goes_of_pair {d : Nat} {r q : Res Unit (St Text)} (h : Pair (Longer d) (FR fun _ _ => False) r q) : Goes d r q := by
  cases r <;> cases q <;> first | exact h | trivial | exact h.elim | exact h.choose_spec.elim

theorem goes_same (env : Env) (d : Nat) (t : Token) (a b : St Text) (h : Longer d a b) :
    Goes d (call strWriter env t a) (call strWriter env t b) :=
  goes_of_pair ((simCall (sim_longer d) env t).both a b h)

theorem goes_label (d : Nat) (l : Label) (a b : St Text) (h : Longer d a b) :
    Goes (d + if l.tag = some tags.VALUE_IDENT then (escape l.text).length - l.text.length else 0)
      (recordValueBegin strWriter l a) (recordValueBegin strWriter (untagL l) b) := by
  obtain ⟨h1, h2, h3, h4, h5, h6⟩ := h
  have hl := (escape_length l.text).1
  simp only [recordValueBegin, untagL, h2, reduceCtorEq, if_false]
  by_cases hb : b.empty <;> by_cases ht : l.tag = some tags.VALUE_IDENT <;>
    simp only [hb, ht, wr, strWriter, escapeStr_str, Res.bind, Goes, Longer, SR, if_true, if_false, Bool.not_true, Bool.not_false,
      Bool.false_eq_true] <;>
    refine ⟨trivial, trivial, h3, h4, h5, ?_⟩ <;> simp only [List.length_append] <;> omega

theorem run_step1 {ε σ : Type} (step : Token → σ → Res ε σ) (t : Token) (s : σ) : run step [t] s = step t s := by
  rw [run_cons]
  cases step t s <;> rfl

theorem goes_untag (env : Env) (d : Nat) (t : Token) (a b : St Text) (h : Longer d a b) :
    Goes (d + extra t) (call strWriter env t a) (call strWriter env (untag t) b) := by
  cases t <;> try exact goes_same env d _ a b h
  case recordValueBegin t l =>
    have := goes_label d l a b h
    show Goes _ (run (step strWriter env) [.recordValueBegin t l] a) (run (step strWriter env) [.recordValueBegin t (untagL l)] b)
    rw [run_step1, run_step1]
    exact this
  case recordTupleValueBegin t l i =>
    have := goes_label d l a b h
    show Goes _ (run (step strWriter env) [.recordValueBegin t l] a) (run (step strWriter env) [.recordValueBegin t (untagL l)] b)
    rw [run_step1, run_step1]
    exact this

theorem goes_run (env : Env) (ts : List Token) (d : Nat) (a b : St Text) (h : Longer d a b) :
    Goes (d + (ts.map extra).sum) (run (call strWriter env) ts a) (run (call strWriter env) (ts.map untag) b) := by
  induction ts generalizing d a b with
  | nil => exact h
  | cons t ts ih =>
    have ht := goes_untag env d t a b h
    rw [List.map_cons, List.map_cons, List.sum_cons, run_cons, run_cons]
    cases h1 : call strWriter env t a <;> cases h2 : call strWriter env (untag t) b <;> rw [h1, h2] at ht <;>
      first | exact ht.elim | trivial | skip
    rw [← Nat.add_assoc]
    exact ih _ _ _ ht

/-- Labels that are fit for their tags are written alike. -/
theorem run_untag (env : Env) (ts : List Token) (h : ts.all labelOk = true) (s : St Text) :
    run (call strWriter env) (ts.map untag) s = run (call strWriter env) ts s := by
  have hl : ∀ l : Label, identOk l = true → ∀ s : St Text, recordValueBegin strWriter (untagL l) s = recordValueBegin strWriter l s := by
    intro l hl s
    have e : (untagL l).toOwned = l.toOwned := rfl
    rw [← own_label (l := untagL l) (by simp [identOk, untagL]) s, e, own_label hl]
  have h1 : ∀ t, labelOk t = true → call strWriter env (untag t) = call strWriter env t := by
    intro t ht
    funext s
    cases t <;> try rfl
    case recordValueBegin t l =>
      show run (step strWriter env) [.recordValueBegin t (untagL l)] s = run (step strWriter env) [.recordValueBegin t l] s
      rw [run_step1, run_step1]
      exact hl l ht s
    case recordTupleValueBegin t l i =>
      show run (step strWriter env) [.recordValueBegin t (untagL l)] s = run (step strWriter env) [.recordValueBegin t l] s
      rw [run_step1, run_step1]
      exact hl l ht s
  induction ts generalizing s with
  | nil => rfl
  | cons t ts ih =>
    simp only [List.all_cons, Bool.and_eq_true] at h
    rw [List.map_cons, run_cons, run_cons, h1 t h.1]
    cases call strWriter env t s <;> first | rfl | exact ih h.2 _

theorem sum_zero (ts : List Token) (h : (ts.map extra).sum = 0) : ts.all labelOk = true := by
  induction ts with
  | nil => rfl
  | cons t ts ih =>
    rw [List.map_cons, List.sum_cons] at h
    simp only [List.all_cons, Bool.and_eq_true]
    exact ⟨(extra_zero t).1 (by omega), ih (by omega)⟩

/-- Without the tags of labels the JSON is the same exactly if there is none, or all labels are fit for their tags. -/
theorem toString_untag (env : Env) (ts : List Token) :
    toString env (Prog.ofToks (ts.map untag)) = toString env (Prog.ofToks ts) ↔
      toString env (Prog.ofToks ts) = none ∨ ts.all labelOk = true := by
  have hg := goes_run env ts 0 { out := [] } { out := [] } ⟨rfl, rfl, rfl, rfl, rfl, rfl⟩
  constructor
  · intro h
    rw [toString_eq, toString_eq] at h
    rw [toString_eq]
    cases h1 : run (call strWriter env) ts { out := [] } with
    | ok a =>
      right
      cases h2 : run (call strWriter env) (ts.map untag) { out := [] } with
      | ok b =>
        rw [h1, h2] at hg h
        have hb : b.out = a.out := by simpa [Res.toOption] using h
        have hl : b.out.length = a.out.length + (0 + (ts.map extra).sum) := hg.2.2.2.2.2
        rw [hb] at hl
        exact sum_zero ts (by omega)
      | err e b => rw [h1, h2] at hg; exact hg.elim
      | panic => rw [h1, h2] at hg; exact hg.elim
    | err e a => left; rfl
    | panic => left; rfl
  · rintro (h | h)
    · rw [h]
      rw [toString_eq] at h ⊢
      cases h1 : run (call strWriter env) ts { out := [] } with
      | ok a => rw [h1] at h; simp [Res.toOption] at h
      | err e a =>
        cases h2 : run (call strWriter env) (ts.map untag) { out := [] } with
        | ok b => rw [h1, h2] at hg; exact hg.elim
        | err e b => rfl
        | panic => rfl
      | panic =>
        cases h2 : run (call strWriter env) (ts.map untag) { out := [] } with
        | ok b => rw [h1, h2] at hg; exact hg.elim
        | err e b => rfl
        | panic => rfl
    · rw [toString_eq, toString_eq, run_untag env ts h]

mutual
theorem comp_bare : ∀ v : V, Buf.comp (bare v) = bare (Buf.comp v)
  | .null => rfl
  | .bool _ => rfl
  | .int _ _ => rfl
  | .f32 _ => rfl
  | .f64 _ => rfl
  | .tag _ => rfl
  | .text _ _ => by simp [bare, Buf.comp]
  | .binary _ _ => by simp [bare, Buf.comp]
  | .seq n xs => by simp [bare, Buf.comp, comp_bareSeq xs]
  | .map n kvs => by simp [bare, Buf.comp, comp_bareMap kvs]
  | .tagged m v => by simp [bare, Buf.comp, comp_bare v]
  | .enum m v => by simp [bare, Buf.comp, comp_bare v]
  | .record m n fs => by simp [bare, Buf.comp, comp_bareRec fs]
  | .tuple m n fs => by simp [bare, Buf.comp, comp_bareTup fs]
  | .recordTuple m n fs => by simp [bare, Buf.comp, comp_bareRT fs]
  | .hint t v => by simp [bare, Buf.comp, comp_bare v]
theorem comp_bareSeq : ∀ xs, Buf.compSeq (bareSeq xs) = bareSeq (Buf.compSeq xs)
  | [] => rfl
  | x :: xs => by simp [bareSeq, Buf.compSeq, comp_bare x, comp_bareSeq xs]
theorem comp_bareMap : ∀ xs, Buf.compMap (bareMap xs) = bareMap (Buf.compMap xs)
  | [] => rfl
  | (k, v) :: r => by simp [bareMap, Buf.compMap, comp_bare k, comp_bare v, comp_bareMap r]
theorem comp_bareRec : ∀ xs, Buf.compRec (bareRec xs) = bareRec (Buf.compRec xs)
  | [] => rfl
  | (t, l, v) :: r => by simp [bareRec, Buf.compRec, comp_bare v, comp_bareRec r]
theorem comp_bareTup : ∀ xs, Buf.compTup (bareTup xs) = bareTup (Buf.compTup xs)
  | [] => rfl
  | (t, l, v) :: r => by simp [bareTup, Buf.compTup, comp_bare v, comp_bareTup r]
theorem comp_bareRT : ∀ xs, Buf.compRT (bareRT xs) = bareRT (Buf.compRT xs)
  | [] => rfl
  | (t, l, i, v) :: r => by simp [bareRT, Buf.compRT, comp_bare v, comp_bareRT r]
end

end Sval.Json
