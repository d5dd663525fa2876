import Verif.Buffer.Collect

set_option autoImplicit false

namespace Sval.Buf

/-! ## Without `alloc` -/

theorem pushKind_noalloc (k : Part) (s s' : St) (h : pushKind true k s = .ok s') :
    pushKind false k s = .ok s' ∨ ∃ s1, pushKind false k s = .err .noAlloc s1 := by
  unfold pushKind at *
  simp only [Bool.true_or, if_true] at h
  simp only [Bool.false_or]
  split
  · exact .inl h
  · exact .inr ⟨_, rfl⟩

theorem pushBegin_noalloc (o : Opener) (s s' : St) (h : pushBegin true o s = .ok s') :
    pushBegin false o s = .ok s' ∨ ∃ s1, pushBegin false o s = .err .noAlloc s1 := by
  unfold pushBegin at *
  simp only [Bool.true_or, if_true] at h
  simp only [Bool.false_or]
  split
  · exact pushKind_noalloc _ _ _ h
  · exact .inr ⟨_, rfl⟩

theorem tryToOwned_eq (l l' : Label) (h : l.tryToOwnedNoAlloc = some l') : l' = l.toOwned := by
  unfold Label.tryToOwnedNoAlloc Label.asStaticStr at h
  unfold Label.toOwned
  cases hb : l.backing <;> simp_all

theorem ownMeta_noalloc (m m' : Meta) (h : ownMeta false m = some m') : m' = own m := by
  obtain ⟨t, l, i⟩ := m
  cases l with
  | none => simp only [ownMeta, Option.some.injEq] at h; rw [← h]; rfl
  | some l =>
    simp only [ownMeta, ownLabel, Bool.false_eq_true, if_false, Option.map_eq_some_iff] at h
    obtain ⟨l', h1, rfl⟩ := h
    rw [tryToOwned_eq l l' h1]; rfl

theorem beginMeta_noalloc (m : Meta) (o : Meta → Opener) (s s' : St) (h : beginMeta true m o s = .ok s') :
    beginMeta false m o s = .ok s' ∨ ∃ s1, beginMeta false m o s = .err .noAlloc s1 := by
  rw [beginMeta_true] at h
  unfold beginMeta
  cases hm : ownMeta false m with
  | none => exact .inr ⟨_, rfl⟩
  | some m' => rw [ownMeta_noalloc m m' hm]; exact pushBegin_noalloc _ _ _ h

theorem beginLabel_noalloc (l : Label) (o : Label → Opener) (s s' : St) (h : beginLabel true l o s = .ok s') :
    beginLabel false l o s = .ok s' ∨ ∃ s1, beginLabel false l o s = .err .noAlloc s1 := by
  rw [beginLabel_true] at h
  unfold beginLabel
  cases hm : ownLabel false l with
  | none => exact .inr ⟨_, rfl⟩
  | some l' =>
    rw [show l' = l.toOwned from tryToOwned_eq l l' hm]; exact pushBegin_noalloc _ _ _ h

theorem textPush_noalloc (f g : Cow Char → Except Err (Cow Char)) (s s' : St)
    (hfg : ∀ c c', f c = .ok c' → g c = .ok c' ∨ g c = .error .noAlloc)
    (h : textPush f s = .ok s') : textPush g s = .ok s' ∨ ∃ s1, textPush g s = .err .noAlloc s1 := by
  unfold textPush at *
  split at h
  · cases h
  · next c hc =>
    split at h
    · next c' hc' =>
      rcases hfg c c' hc' with hg | hg
      · simp only [hg]; exact .inl h
      · simp only [hg]; exact .inr ⟨_, rfl⟩
    · cases h
  · cases h

theorem binaryPush_noalloc (f g : Cow UInt8 → Except Err (Cow UInt8)) (s s' : St)
    (hfg : ∀ c c', f c = .ok c' → g c = .ok c' ∨ g c = .error .noAlloc)
    (h : binaryPush f s = .ok s') : binaryPush g s = .ok s' ∨ ∃ s1, binaryPush g s = .err .noAlloc s1 := by
  unfold binaryPush at *
  split at h
  · cases h
  · next c hc =>
    split at h
    · next c' hc' =>
      rcases hfg c c' hc' with hg | hg
      · simp only [hg]; exact .inl h
      · simp only [hg]; exact .inr ⟨_, rfl⟩
    · cases h
  · cases h

theorem push_noalloc {α : Type} (f : List α) (c c' : Cow α) (h : c.push true f = .ok c') :
    c.push false f = .ok c' ∨ c.push false f = .error .noAlloc := by
  unfold Cow.push at *
  split at h
  · next h0 => rw [if_pos h0]; exact .inl h
  · next h0 => rw [if_neg h0]; exact .inr rfl

theorem step_noalloc (t : Token) (s s' : St) (h : step true t s = .ok s') :
    step false t s = .ok s' ∨ ∃ s1, step false t s = .err .noAlloc s1 := by
  cases t with
  | textEnd => exact .inl h
  | binaryEnd => exact .inl h
  | textFragment f => exact textPush_noalloc _ _ s s' (fun c c' => push_noalloc f c c') h
  | binaryFragment f => exact binaryPush_noalloc _ _ s s' (fun c c' => push_noalloc f c c') h
  | textFragmentComputed f => exact textPush_noalloc (fun c => c.pushComputed true f) _ s s' (fun c c' _ => .inr rfl) h
  | binaryFragmentComputed f => exact binaryPush_noalloc (fun c => c.pushComputed true f) _ s s' (fun c c' _ => .inr rfl) h
  | tag m =>
    simp only [step, ownMeta_true] at h
    simp only [step]
    cases hm : ownMeta false m with
    | none => exact .inr ⟨_, rfl⟩
    | some m' => rw [ownMeta_noalloc m m' hm]; exact pushKind_noalloc _ _ _ h
  | _ => first
    | exact pushKind_noalloc _ _ _ h
    | exact pushBegin_noalloc _ _ _ h
    | exact beginMeta_noalloc _ _ _ _ h
    | exact beginLabel_noalloc _ _ _ _ h
    | exact .inl h

theorem run_noalloc (ts : List Token) (s s' : St) (h : run (step true) ts s = .ok s') :
    run (step false) ts s = .ok s' ∨ ∃ s1, run (step false) ts s = .err .noAlloc s1 := by
  induction ts generalizing s with
  | nil => exact .inl h
  | cons t ts ih =>
    rw [run_cons] at h ⊢
    cases h1 : step true t s with
    | ok s1 =>
      rw [h1, Res.bind_ok] at h
      rcases step_noalloc t s s1 h1 with h2 | ⟨s2, h2⟩
      · rw [h2, Res.bind_ok]; exact ih s1 h
      · rw [h2]; exact .inr ⟨_, rfl⟩
    | err e s1 => rw [h1] at h; cases h
    | panic => rw [h1] at h; cases h

theorem run_err_recorded (alloc : Bool) (ts : List Token) (s s' : St) (e : Err)
    (h : run (step alloc) ts s = .err e s') : s'.err = some e := by
  induction ts generalizing s with
  | nil => cases h
  | cons t ts ih =>
    rw [run_cons] at h
    cases h1 : step alloc t s with
    | ok s1 => rw [h1, Res.bind_ok] at h; exact ih s1 h
    | err e1 s1 =>
      rw [h1] at h
      cases h
      exact step_err alloc t s s' e h1
    | panic => rw [h1] at h; cases h

theorem textCStep_err (t : Token) (s : Coll Char) :
    (∃ b, textCStep true t s = .ok { s with buf := b }) ∨ (∃ e s', textCStep true t s = .err e s' ∧ s'.err ≠ none) := by
  cases t with
  | textBegin n => exact .inl ⟨_, rfl⟩
  | textEnd => exact .inl ⟨_, rfl⟩
  | textFragment f =>
    simp only [textCStep]
    rw [congrFun (push_true f) s.buf]
    exact .inl ⟨_, rfl⟩
  | textFragmentComputed f =>
    simp only [textCStep]
    rw [congrFun (pushComputed_true f) s.buf]
    exact .inl ⟨_, rfl⟩
  | _ => exact .inr ⟨_, _, rfl, by simp⟩

theorem run_textC_err (ts : List Token) (s : Coll Char) :
    (∃ b, run (textCStep true) ts s = .ok { s with buf := b }) ∨
      (∃ e s', run (textCStep true) ts s = .err e s' ∧ s'.err ≠ none) := by
  induction ts generalizing s with
  | nil => exact .inl ⟨s.buf, rfl⟩
  | cons t ts ih =>
    rw [run_cons]
    rcases textCStep_err t s with ⟨b, h⟩ | ⟨e, s', h, he⟩
    · rw [h, Res.bind_ok]; exact ih { s with buf := b }
    · rw [h]; exact .inr ⟨e, s', rfl, he⟩

theorem textC_err (t : Token) (s : Coll Char) (h : (stepE textCCaps (textCStep true) t s).1.err = none) :
    s.err = none ∧ (stepE textCCaps (textCStep true) t s).2 = true := by
  unfold stepE at *
  rcases run_textC_err (Low.tok textCCaps t) s with ⟨b, hr⟩ | ⟨e, s', hr, he⟩
  · rw [hr] at h ⊢; exact ⟨h, rfl⟩
  · rw [hr] at h; exact absurd h he

/-! ## Ownership and later calls -/

def Res.mapS (f : St → St) : Res Err St → Res Err St
  | .ok s => .ok (f s)
  | .err e s => .err e (f s)
  | .panic => .panic

theorem intoOwned_idem (p : Part) : p.intoOwned.intoOwned = p.intoOwned := by
  cases p with
  | text c => cases c <;> rfl
  | binary c => cases c <;> rfl
  | _ => rfl

theorem Cow.intoOwned_content {α : Type} (c : Cow α) : c.intoOwned.content = c.content := by cases c <;> rfl

theorem pushFrag_own {α : Type} (c : Cow α) (f : Frag (List α)) :
    (pushFrag c.intoOwned f).intoOwned = (pushFrag c f).intoOwned := by
  cases f with
  | computed f => simp [pushFrag, Cow.intoOwned_content]
  | borrowed f => simp only [pushFrag, Cow.intoOwned_content]

theorem map_idem (ps : List Part) : (ps.map Part.intoOwned).map Part.intoOwned = ps.map Part.intoOwned := by
  simp [intoOwned_idem]

theorem map_snoc (P : List Part) (k k' : Part) (h : k.intoOwned = k'.intoOwned) :
    (P.map Part.intoOwned ++ [k]).map Part.intoOwned = (P ++ [k']).map Part.intoOwned := by
  rw [List.map_append, map_idem, List.map_append, List.map_singleton, List.map_singleton, h]

theorem textPush_own (g : Frag Text) (s : St) :
    Res.mapS intoOwned (textPush (fun c => .ok (pushFrag c g)) (intoOwned s)) =
      Res.mapS intoOwned (textPush (fun c => .ok (pushFrag c g)) s) := by
  rcases List.eq_nil_or_concat s.parts with h0 | ⟨P, k, h0⟩
  · simp [textPush, intoOwned, h0]
  · rw [List.concat_eq_append] at h0
    have h1 : (intoOwned s).parts = P.map Part.intoOwned ++ [k.intoOwned] := by simp [intoOwned, h0]
    cases k with
    | text c =>
      have h1 : (intoOwned s).parts = P.map Part.intoOwned ++ [.text c.intoOwned] := h1
      simp only [textPush, h0, h1, List.getLast?_concat]
      rw [setLast_append P _ _ s h0, setLast_append _ _ _ _ h1]
      simp only [Res.mapS, intoOwned]
      rw [map_snoc P _ (.text (pushFrag c g)) (by simp only [Part.intoOwned, pushFrag_own])]
    | binary c =>
      have h1 : (intoOwned s).parts = P.map Part.intoOwned ++ [.binary c.intoOwned] := h1
      simp only [textPush, h0, h1, List.getLast?_concat, fail]
      simp only [Res.mapS, intoOwned, h0]
      rw [map_snoc P (.binary c.intoOwned) (.binary c) (intoOwned_idem (.binary c))]
    | _ =>
      simp only [Part.intoOwned] at h1
      simp only [textPush, h0, h1, List.getLast?_concat, fail]
      simp only [Res.mapS, intoOwned, h0]
      rw [map_snoc P _ _ rfl]

theorem binaryPush_own (g : Frag Bytes) (s : St) :
    Res.mapS intoOwned (binaryPush (fun c => .ok (pushFrag c g)) (intoOwned s)) =
      Res.mapS intoOwned (binaryPush (fun c => .ok (pushFrag c g)) s) := by
  rcases List.eq_nil_or_concat s.parts with h0 | ⟨P, k, h0⟩
  · simp [binaryPush, intoOwned, h0]
  · rw [List.concat_eq_append] at h0
    have h1 : (intoOwned s).parts = P.map Part.intoOwned ++ [k.intoOwned] := by simp [intoOwned, h0]
    cases k with
    | binary c =>
      have h1 : (intoOwned s).parts = P.map Part.intoOwned ++ [.binary c.intoOwned] := h1
      simp only [binaryPush, h0, h1, List.getLast?_concat]
      rw [setLast_append P _ _ s h0, setLast_append _ _ _ _ h1]
      simp only [Res.mapS, intoOwned]
      rw [map_snoc P _ (.binary (pushFrag c g)) (by simp only [Part.intoOwned, pushFrag_own])]
    | text c =>
      have h1 : (intoOwned s).parts = P.map Part.intoOwned ++ [.text c.intoOwned] := h1
      simp only [binaryPush, h0, h1, List.getLast?_concat, fail]
      simp only [Res.mapS, intoOwned, h0]
      rw [map_snoc P (.text c.intoOwned) (.text c) (intoOwned_idem (.text c))]
    | _ =>
      simp only [Part.intoOwned] at h1
      simp only [binaryPush, h0, h1, List.getLast?_concat, fail]
      simp only [Res.mapS, intoOwned, h0]
      rw [map_snoc P _ _ rfl]

theorem pushEnd_own (s : St) :
    Res.mapS intoOwned (pushEnd (intoOwned s)) = Res.mapS intoOwned (pushEnd s) := by
  unfold pushEnd
  cases hst : s.stack with
  | nil => simp [intoOwned, hst, fail, Res.mapS, intoOwned_idem]
  | cons i st =>
    simp only [intoOwned, hst, List.length_map]
    split
    · rfl
    · rw [List.getElem?_map]
      cases hp : s.parts[i]? with
      | none => rfl
      | some p =>
        cases p with
        | opened o l => 
          simp only [Option.map, Part.intoOwned, Res.mapS, intoOwned]
          rw [List.map_set, map_idem, List.map_set]
        | _ => simp only [Option.map, Part.intoOwned, fail, Res.mapS, intoOwned, map_idem]

theorem step_own (t : Token) (s : St) :
    Res.mapS intoOwned (step true t (intoOwned s)) = Res.mapS intoOwned (step true t s) := by
  have hk : ∀ (k : Part) (b : Bool), Res.mapS intoOwned (pushKind true k { intoOwned s with inText := b }) =
      Res.mapS intoOwned (pushKind true k { s with inText := b }) := by
    intro k b
    simp only [pushKind, Bool.true_or, if_true, Res.mapS, intoOwned, List.map_append, map_idem]
  have hk' : ∀ (k : Part), Res.mapS intoOwned (pushKind true k (intoOwned s)) =
      Res.mapS intoOwned (pushKind true k s) := fun k => hk k s.inText
  have hb : ∀ (o : Opener), Res.mapS intoOwned (pushBegin true o (intoOwned s)) =
      Res.mapS intoOwned (pushBegin true o s) := by
    intro o
    simp only [pushBegin_true, Res.mapS, intoOwned, List.map_append, map_idem, List.length_map]
  cases t with
  | textFragment f => simp only [step, push_true]; exact textPush_own _ s
  | textFragmentComputed f => simp only [step, pushComputed_true]; exact textPush_own _ s
  | binaryFragment f => simp only [step, push_true]; exact binaryPush_own _ s
  | binaryFragmentComputed f => simp only [step, pushComputed_true]; exact binaryPush_own _ s
  | textBegin n => exact hk _ true
  | binaryBegin n => exact hk _ true
  | textEnd => simp only [step, Res.mapS, intoOwned, map_idem]
  | binaryEnd => simp only [step, Res.mapS, intoOwned, map_idem]
  | tag m => simp only [step, ownMeta_true]; exact hk' _
  | enumBegin m => simp only [step, beginMeta_true]; exact hb _
  | taggedBegin m => simp only [step, beginMeta_true]; exact hb _
  | recordBegin m n => simp only [step, beginMeta_true]; exact hb _
  | tupleBegin m n => simp only [step, beginMeta_true]; exact hb _
  | recordTupleBegin m n => simp only [step, beginMeta_true]; exact hb _
  | recordValueBegin t l => simp only [step, beginLabel_true]; exact hb _
  | recordTupleValueBegin t l i => simp only [step, beginLabel_true]; exact hb _
  | _ => first
    | exact hk' _
    | exact hb _
    | exact pushEnd_own s

theorem intoOwned_intoOwned (s : St) : intoOwned (intoOwned s) = intoOwned s := by
  simp [intoOwned, intoOwned_idem]

theorem run_own (ts : List Token) (s s' : St) (h : intoOwned s = intoOwned s') :
    Res.mapS intoOwned (run (step true) ts s) = Res.mapS intoOwned (run (step true) ts s') := by
  induction ts generalizing s s' with
  | nil => simpa [Res.mapS] using h
  | cons t ts ih =>
    rw [run_cons, run_cons]
    have h1 : Res.mapS intoOwned (step true t s) = Res.mapS intoOwned (step true t s') := by
      rw [← step_own t s, ← step_own t s', h]
    cases hs : step true t s with
    | ok a =>
      cases hs' : step true t s' with
      | ok b =>
        rw [hs, hs'] at h1
        simp only [Res.mapS, Res.ok.injEq] at h1
        exact ih a b h1
      | err e b => rw [hs, hs'] at h1; cases h1
      | panic => rw [hs, hs'] at h1; cases h1
    | err e a =>
      cases hs' : step true t s' with
      | ok b => rw [hs, hs'] at h1; cases h1
      | err e b => rw [hs, hs'] at h1; exact h1
      | panic => rw [hs, hs'] at h1; cases h1
    | panic =>
      cases hs' : step true t s' with
      | ok b => rw [hs, hs'] at h1; cases h1
      | err e b => rw [hs, hs'] at h1; cases h1
      | panic => rfl

/-! ## Values with every fragment computed -/

def fragComp {α : Type} (f : Frag α) : Frag α := .computed f.content

mutual
/-- Specification: the value with nothing borrowed. -/
def comp : V → V
  | .text n fs => .text n (fs.map fragComp)
  | .binary n fs => .binary n (fs.map fragComp)
  | .seq n xs => .seq n (compSeq xs)
  | .map n kvs => .map n (compMap kvs)
  | .tagged m v => .tagged m (comp v)
  | .enum m v => .enum m (comp v)
  | .record m n fs => .record m n (compRec fs)
  | .tuple m n fs => .tuple m n (compTup fs)
  | .recordTuple m n fs => .recordTuple m n (compRT fs)
  | .hint t v => .hint t (comp v)
  | .null => .null
  | .bool b => .bool b
  | .int t v => .int t v
  | .f32 b => .f32 b
  | .f64 b => .f64 b
  | .tag m => .tag m
def compSeq : List V → List V
  | [] => []
  | x :: xs => comp x :: compSeq xs
def compMap : List (V × V) → List (V × V)
  | [] => []
  | (k, v) :: r => (comp k, comp v) :: compMap r
def compRec : List (Option Tag × Label × V) → List (Option Tag × Label × V)
  | [] => []
  | (t, l, v) :: r => (t, l, comp v) :: compRec r
def compTup : List (Option Tag × Index × V) → List (Option Tag × Index × V)
  | [] => []
  | (t, i, v) :: r => (t, i, comp v) :: compTup r
def compRT : List (Option Tag × Label × Index × V) → List (Option Tag × Label × Index × V)
  | [] => []
  | (t, l, i, v) :: r => (t, l, i, comp v) :: compRT r
end

theorem toks_comp (v : V) : toks (comp v) = (toks v).map computedTok := by
  induction v using V.ind with
  | text n fs =>
    have : ∀ f : Frag Text, textFragTok (fragComp f) = computedTok (textFragTok f) := by intro f; cases f <;> rfl
    simp only [comp, toks, List.map_cons, List.map_append, List.map_map]
    rw [show textFragTok ∘ fragComp = computedTok ∘ textFragTok from funext this]; rfl
  | binary n fs =>
    have : ∀ f : Frag Bytes, binFragTok (fragComp f) = computedTok (binFragTok f) := by intro f; cases f <;> rfl
    simp only [comp, toks, List.map_cons, List.map_append, List.map_map]
    rw [show binFragTok ∘ fragComp = computedTok ∘ binFragTok from funext this]; rfl
  | seq n xs ih =>
    have : toksSeq (compSeq xs) = (toksSeq xs).map computedTok := by
      induction xs with
      | nil => rfl
      | cons x xs ihx =>
        simp [compSeq, toksSeq, computedTok, ih x (by simp), ihx fun y hy => ih y (by simp [hy])]
    simp [comp, toks, computedTok, this]
  | map n kvs ih =>
    have : toksMap (compMap kvs) = (toksMap kvs).map computedTok := by
      induction kvs with
      | nil => rfl
      | cons x xs ihx =>
        obtain ⟨k, v⟩ := x
        have h := ih (k, v) (by simp)
        simp [compMap, toksMap, computedTok, h.1, h.2, ihx fun y hy => ih y (by simp [hy])]
    simp [comp, toks, computedTok, this]
  | record m n fs ih =>
    have : toksRec (compRec fs) = (toksRec fs).map computedTok := by
      induction fs with
      | nil => rfl
      | cons x xs ihx =>
        obtain ⟨t, l, v⟩ := x
        have h := ih (t, l, v) (by simp)
        simp [compRec, toksRec, computedTok, h, ihx fun y hy => ih y (by simp [hy])]
    simp [comp, toks, computedTok, this]
  | tuple m n fs ih =>
    have : toksTup (compTup fs) = (toksTup fs).map computedTok := by
      induction fs with
      | nil => rfl
      | cons x xs ihx =>
        obtain ⟨t, l, v⟩ := x
        have h := ih (t, l, v) (by simp)
        simp [compTup, toksTup, computedTok, h, ihx fun y hy => ih y (by simp [hy])]
    simp [comp, toks, computedTok, this]
  | recordTuple m n fs ih =>
    have : toksRT (compRT fs) = (toksRT fs).map computedTok := by
      induction fs with
      | nil => rfl
      | cons x xs ihx =>
        obtain ⟨t, l, i, v⟩ := x
        have h := ih (t, l, i, v) (by simp)
        simp [compRT, toksRT, computedTok, h, ihx fun y hy => ih y (by simp [hy])]
    simp [comp, toks, computedTok, this]
  | tagged m v ih => simp [comp, toks, computedTok, ih]
  | enum m v ih => simp [comp, toks, computedTok, ih]
  | hint t v ih => simp [comp, toks, computedTok, ih]
  | _ => rfl

/-! ## The normalisation is idempotent and keeps the data -/

theorem merged_single {α : Type} (fs : List (Frag (List α))) : merged [mergedFrag fs] = merged fs := by
  unfold mergedFrag
  generalize merged fs = c
  cases c <;> simp [merged, Frag.content, Cow.frag]

theorem mergedFrag_single {α : Type} (fs : List (Frag (List α))) : mergedFrag [mergedFrag fs] = mergedFrag fs := by
  show (merged [mergedFrag fs]).frag = _
  rw [merged_single]
  rfl

theorem mergedFrag_content {α : Type} (fs : List (Frag (List α))) :
    (mergedFrag fs).content = (fs.map Frag.content).flatten := by
  rw [← merged_content]
  unfold mergedFrag
  cases merged fs <;> rfl

theorem fragsText_merged (fs : List (Frag Text)) : fragsText [mergedFrag fs] = fragsText fs := by
  simp [fragsText, mergedFrag_content]
theorem fragsBytes_merged (fs : List (Frag Bytes)) : fragsBytes [mergedFrag fs] = fragsBytes fs := by
  simp [fragsBytes, mergedFrag_content]

theorem toOwned_idem (l : Label) : l.toOwned.toOwned = l.toOwned := by
  unfold Label.toOwned
  split <;> simp_all [Label.new, Label.newOwned]
theorem own_idem (m : Meta) : own (own m) = own m := by
  obtain ⟨t, l, i⟩ := m
  cases l with
  | none => rfl
  | some l => simp [own, toOwned_idem]

theorem norm_idem (v : V) : norm (norm v) = norm v := by
  induction v using V.ind with
  | text n fs => simp [norm, fragsText_merged, mergedFrag_single]
  | binary n fs => simp [norm, fragsBytes_merged, mergedFrag_single]
  | seq n xs ih =>
    have : normSeq (normSeq xs) = normSeq xs := by
      induction xs with
      | nil => rfl
      | cons x xs ihx => simp [normSeq, ih x (by simp), ihx fun y hy => ih y (by simp [hy])]
    simp [norm, this]
  | map n kvs ih =>
    have : normMap (normMap kvs) = normMap kvs := by
      induction kvs with
      | nil => rfl
      | cons x xs ihx =>
        obtain ⟨k, v⟩ := x
        have h := ih (k, v) (by simp)
        simp [normMap, h.1, h.2, ihx fun y hy => ih y (by simp [hy])]
    simp [norm, this]
  | record m n fs ih =>
    have : normRec (normRec fs) = normRec fs := by
      induction fs with
      | nil => rfl
      | cons x xs ihx =>
        obtain ⟨t, l, v⟩ := x
        have h := ih (t, l, v) (by simp)
        simp [normRec, toOwned_idem, h, ihx fun y hy => ih y (by simp [hy])]
    simp [norm, own_idem, this]
  | tuple m n fs ih =>
    have : normTup (normTup fs) = normTup fs := by
      induction fs with
      | nil => rfl
      | cons x xs ihx =>
        obtain ⟨t, l, v⟩ := x
        have h := ih (t, l, v) (by simp)
        simp [normTup, h, ihx fun y hy => ih y (by simp [hy])]
    simp [norm, own_idem, this]
  | recordTuple m n fs ih =>
    have : normRT (normRT fs) = normRT fs := by
      induction fs with
      | nil => rfl
      | cons x xs ihx =>
        obtain ⟨t, l, i, v⟩ := x
        have h := ih (t, l, i, v) (by simp)
        simp [normRT, toOwned_idem, h, ihx fun y hy => ih y (by simp [hy])]
    simp [norm, own_idem, this]
  | tag m => simp [norm, own_idem]
  | tagged m v ih => simp [norm, own_idem, ih]
  | enum m v ih => simp [norm, own_idem, ih]
  | hint t v ih => simp [norm, ih]
  | _ => rfl

theorem toOwned_text (l : Label) : l.toOwned.text = l.text := by
  unfold Label.toOwned
  split <;> simp_all [Label.new, Label.newOwned]

theorem den_norm (v : V) : den (norm v) = den v := by
  induction v using V.ind with
  | text n fs => simp [norm, den, fragsText_merged]
  | binary n fs => simp [norm, den, fragsBytes_merged]
  | seq n xs ih =>
    have : denSeq (normSeq xs) = denSeq xs := by
      induction xs with
      | nil => rfl
      | cons x xs ihx => simp [normSeq, denSeq, ih x (by simp), ihx fun y hy => ih y (by simp [hy])]
    simp [norm, den, this]
  | map n kvs ih =>
    have : denMap (normMap kvs) = denMap kvs := by
      induction kvs with
      | nil => rfl
      | cons x xs ihx =>
        obtain ⟨k, v⟩ := x
        have h := ih (k, v) (by simp)
        simp [normMap, denMap, h.1, h.2, ihx fun y hy => ih y (by simp [hy])]
    simp [norm, den, this]
  | record m n fs ih =>
    have : denRec (normRec fs) = denRec fs := by
      induction fs with
      | nil => rfl
      | cons x xs ihx =>
        obtain ⟨t, l, v⟩ := x
        have h := ih (t, l, v) (by simp)
        simp [normRec, denRec, toOwned_text, h, ihx fun y hy => ih y (by simp [hy])]
    simp [norm, den, this]
  | tuple m n fs ih =>
    have : denTup (normTup fs) = denTup fs := by
      induction fs with
      | nil => rfl
      | cons x xs ihx =>
        obtain ⟨t, l, v⟩ := x
        have h := ih (t, l, v) (by simp)
        simp [normTup, denTup, h, ihx fun y hy => ih y (by simp [hy])]
    simp [norm, den, this]
  | recordTuple m n fs ih =>
    have : denRT (normRT fs) = denRT fs := by
      induction fs with
      | nil => rfl
      | cons x xs ihx =>
        obtain ⟨t, l, i, v⟩ := x
        have h := ih (t, l, i, v) (by simp)
        simp [normRT, denRT, toOwned_text, h, ihx fun y hy => ih y (by simp [hy])]
    simp [norm, den, this]
  | tag m =>
    obtain ⟨t, l, i⟩ := m
    cases l with
    | none => rfl
    | some l => simp [norm, own, den, toOwned_text]
  | tagged m v ih => simp [norm, den, ih]
  | enum m v ih => simp [norm, den, ih]
  | hint t v ih => simp [norm, den, ih]
  | _ => rfl

/-! ## Nothing borrowed -/

theorem merged_comp {α : Type} (fs : List (Frag (List α))) (s : List α)
    (h : merged (fs.map fragComp) = .borrowed s) : s = [] := by
  rcases List.eq_nil_or_concat fs with rfl | ⟨P, f, rfl⟩
  · simp [merged] at h; exact h
  · rw [List.concat_eq_append, List.map_append] at h
    simp [merged, fragComp] at h

end Sval.Buf
