import Verif.Reader.Lemmas
import Verif.Reader.Spec
import Verif.Json.GrammarLemmas
import Verif.Json.Text

set_option autoImplicit false

/-!
# Reading documents
-/

namespace Sval.Reader

open Act
open Json (J StrLit Ws Val Elems Members Doc VFollow isWs rawOk escOf takeWhile_append J.ind escC escT quoteT)

section
variable (checks : Bool)

/-! ## Strings -/

theorem rawOk_isPlain {c : Char} (h : rawOk c = true) : isPlain c = true := by
  unfold rawOk at h
  unfold isPlain
  simp only [Bool.and_eq_true] at h
  simp [h.1.2, h.2]

/-- A string up to the first escape. -/
theorem strLit_prefix {u s : Text} (h : StrLit u s) :
    ∃ f u' s', (f.all isPlain = true ∧ f.all rawOk = true) ∧ u = f ++ u' ∧ s = f ++ s' ∧ StrLit u' s' ∧ (u' = [] ∨ ∃ e x, u' = '\\' :: e :: x) := by
  induction h with
  | nil => exact ⟨[], [], [], ⟨rfl, rfl⟩, rfl, rfl, .nil, .inl rfl⟩
  | raw c hc _ ih =>
    obtain ⟨f, u', s', ⟨h0, h1⟩, rfl, rfl, h2, h3⟩ := ih
    exact ⟨c :: f, u', s', ⟨by simp [rawOk_isPlain hc]; simpa using h0, by simp [hc]; simpa using h1⟩, rfl, rfl, h2, h3⟩
  | esc e c he h _ => exact ⟨[], _, _, ⟨rfl, rfl⟩, rfl, rfl, .esc e c he h, .inr ⟨_, _, rfl⟩⟩
  | uni a b c d n h1 h2 h _ => exact ⟨[], _, _, ⟨rfl, rfl⟩, rfl, rfl, .uni a b c d n h1 h2 h, .inr ⟨_, _, rfl⟩⟩
  | pair a b c d a' b' c' d' n n' h1 h2 h3 h4 h _ =>
    exact ⟨[], _, _, ⟨rfl, rfl⟩, rfl, rfl, .pair a b c d a' b' c' d' n n' h1 h2 h3 h4 h, .inr ⟨_, _, rfl⟩⟩

theorem plain_raw (f r : Text) (h : f.all isPlain = true) : plain true (f ++ r) = plain true r := by
  induction f with
  | nil => rfl
  | cons c f ih =>
    simp only [List.all_cons, Bool.and_eq_true, isPlain, bne_iff_ne, ne_eq] at h
    rw [List.cons_append, plain, ih h.2]
    · exact h.1.2
    · intro e x hc _; exact h.1.1 hc

theorem escC_raw {c : Char} (h : rawOk c = true) : escC c = [c] := by
  unfold rawOk at h
  simp only [Bool.and_eq_true, decide_eq_true_eq, bne_iff_ne, ne_eq] at h
  have hn : ∀ d : Char, d.toNat < 32 → c ≠ d := fun d hd e => by rw [e] at h; omega
  unfold escC
  rw [if_neg h.1.2, if_neg h.2, if_neg (hn _ (by decide)), if_neg (hn _ (by decide)), if_neg (hn _ (by decide)),
    if_neg (hn _ (by decide)), if_neg (hn _ (by decide)), if_neg (by omega)]

theorem squeeze_raw (f r : Text) (h : f.all rawOk = true) : squeeze true (f ++ r) = escT f ++ squeeze true r := by
  induction f with
  | nil => rfl
  | cons c f ih =>
    simp only [List.all_cons, Bool.and_eq_true] at h
    have hc := rawOk_isPlain h.1
    simp only [isPlain, Bool.and_eq_true, bne_iff_ne, ne_eq] at hc
    rw [List.cons_append, squeeze, ih h.2]
    · simp [escT, List.flatMap_cons, escC_raw h.1]
    · exact hc.2
    · intro e x hc' _; exact hc.1 hc'

theorem strFragment_raw (c : Char) (f r : Text) (hc : isPlain c = true) (h : f.all isPlain = true) :
    strFragment (c :: f ++ '\\' :: r) = .pure (c :: f, true, '\\' :: r) ∧
      strFragment (c :: f ++ '"' :: r) = .pure (c :: f, false, r) := by
  have hne : c ≠ '\\' := by rintro rfl; cases hc
  have key (d : Char) (hd : isPlain d = false) := takeWhile_append isPlain (c :: f) (d :: r) (by simp [hc]; simpa using h)
    (by intro d' hd'; simp at hd'; subst hd'; exact hd)
  constructor
  · unfold strFragment
    split
    · rename_i e; cases e
    · rename_i e; exact absurd (List.cons.inj e).1 hne
    · simp only [(key '\\' rfl).1, (key '\\' rfl).2]
      rfl
  · unfold strFragment
    split
    · rename_i e; cases e
    · rename_i e; exact absurd (List.cons.inj e).1 hne
    · simp only [(key '"' rfl).1, (key '"' rfl).2]
      rfl

/-- One fragment of a string. -/
theorem strFragment_lit {u s : Text} (h : StrLit u s) (r : Text) :
    (strFragment (u ++ '"' :: r) = .pure (s, false, r) ∧ plain true (u ++ '"' :: r) = plain false r ∧
      squeeze true (u ++ '"' :: r) = escT s ++ '"' :: squeeze false r) ∨
    (∃ f u' s', StrLit u' s' ∧ s = f ++ s' ∧ u'.length < u.length ∧
      strFragment (u ++ '"' :: r) = .pure (f, true, u' ++ '"' :: r) ∧
      plain true (u ++ '"' :: r) = plain true (u' ++ '"' :: r) ∧
      squeeze true (u ++ '"' :: r) = escT f ++ squeeze true (u' ++ '"' :: r)) ∨
    (strFragment (u ++ '"' :: r) = .panic ∧ plain true (u ++ '"' :: r) = false) := by
  obtain ⟨f, u', s', ⟨hf, hq⟩, rfl, rfl, h', hu⟩ := strLit_prefix h
  cases f with
  | cons c f =>
    have hc : isPlain c = true ∧ f.all isPlain = true := by simpa using hf
    rcases hu with rfl | ⟨e, x, rfl⟩
    · left
      cases h'
      simp only [List.append_nil]
      rw [(strFragment_raw c f _ hc.1 hc.2).2, plain_raw _ _ hf, squeeze_raw _ _ hq]
      exact ⟨rfl, rfl, rfl⟩
    · right; left
      refine ⟨c :: f, _, _, h', rfl, by simp; omega, ?_, ?_, ?_⟩
      · rw [List.append_assoc]
        exact (strFragment_raw c f _ hc.1 hc.2).1
      · rw [List.append_assoc, plain_raw _ _ hf]
      · rw [List.append_assoc, squeeze_raw _ _ hq]
  | nil =>
    simp only [List.nil_append]
    rcases hu with rfl | ⟨e, x, rfl⟩
    · left
      cases h'
      exact ⟨rfl, rfl, rfl⟩
    · by_cases he : e = 'n' ∨ e = 'r' ∨ e = '"' ∨ e = '\\'
      · right; left
        cases h' with
        | raw _ hc => exact absurd hc (by decide)
        | esc _ c hc ht =>
          rcases he with rfl | rfl | rfl | rfl <;>
            exact ⟨_, _, _, ht, by injection hc with hc; rw [← hc]; exact (List.singleton_append).symm, by simp; omega,
              rfl, by simp [plain], rfl⟩
        | uni => simp at he
        | pair => simp at he
      · right; right
        simp only [not_or] at he
        constructor
        · unfold strFragment
          simp only [List.cons_append]
          split <;> simp_all
        · simp [plain, he]

/-- The calls for the fragments of a string. -/
def fragCalls (fs : List Text) : List Token := fs.map .textFragment

theorem toks_str (fs : List Text) : toks (.text none (fs.map .borrowed)) = .textBegin none :: (fragCalls fs ++ [.textEnd]) := by
  simp only [toks, List.map_map, fragCalls]
  rfl

/-- The rest of a string. -/
theorem resume_str (n : Nat) (u s : Text) (hn : u.length < n) (h : StrLit u s) (r : Text) (k : Stack) (p : Position) :
    (∃ fs, fs.flatten = s ∧ plain true (u ++ '"' :: r) = plain false r ∧
      squeeze true (u ++ '"' :: r) = escT s ++ '"' :: squeeze false r ∧
      readFrom checks ⟨u ++ '"' :: r, true, k, p⟩ = (readFrom checks ⟨r, false, k, p⟩).pre (fragCalls fs ++ [.textEnd])) ∨
    (plain true (u ++ '"' :: r) = false ∧ (readFrom checks ⟨u ++ '"' :: r, true, k, p⟩).res = .panic) := by
  induction n generalizing u s with
  | zero => omega
  | succ n ih =>
    rw [readFrom_eq]
    simp only [resume, if_true, resumeStr, bind_def]
    rcases strFragment_lit h r with ⟨e1, e2, e3⟩ | ⟨f, u', s', h', rfl, hl, e1, e2, e3⟩ | ⟨e1, e2⟩
    · left
      refine ⟨[s], by simp, e2, e3, ?_⟩
      rw [e1]
      simp only [pure_bind, call_bind, Bool.not_false, if_true, pre_bind]
      rw [maybeDone_next _ _ rfl]
      simp [fragCalls]
    · rw [e1]
      simp only [pure_bind, call_bind, Bool.not_true, Bool.false_eq_true, if_false, pre_bind, pure_def, next, if_true]
      rcases ih u' s' (by omega) h' with ⟨fs, g1, g2, g4, g3⟩ | ⟨g1, g2⟩
      · left
        refine ⟨f :: fs, by simp [g1], by rw [e2, g2], by rw [e3, g4]; simp [escT], ?_⟩
        rw [g3]
        simp [fragCalls]
      · right
        exact ⟨by rw [e2, g1], by rw [pre_res]; exact g2⟩
    · right
      rw [e1]
      exact ⟨e2, rfl⟩

/-- A string from its opening quote on. -/
theorem begin_str (u s : Text) (h : StrLit u s) (r : Text) (k : Stack) (p p' : Position) (b : List Token)
    (hb : ∀ t, strBegin ⟨t, false, k, p⟩ = ⟨b, .ok ⟨t, false, k, p'⟩⟩) :
    (∃ v, StrV s v ∧ plain false ('"' :: (u ++ '"' :: r)) = plain false r ∧
      squeeze false ('"' :: (u ++ '"' :: r)) = quoteT (escT s) ++ squeeze false r ∧
      readFrom checks ⟨'"' :: (u ++ '"' :: r), false, k, p⟩ = (readFrom checks ⟨r, false, k, p'⟩).pre (b ++ toks v)) ∨
    (plain false ('"' :: (u ++ '"' :: r)) = false ∧
      (readFrom checks ⟨'"' :: (u ++ '"' :: r), false, k, p⟩).res = .panic) := by
  have hp : plain false ('"' :: (u ++ '"' :: r)) = plain true (u ++ '"' :: r) := by simp [plain]
  have hq : squeeze false ('"' :: (u ++ '"' :: r)) = '"' :: squeeze true (u ++ '"' :: r) := by simp [squeeze]
  have hb' (t : Text) : strBegin ⟨t, false, k, p⟩ = (Act.pure (⟨t, false, k, p'⟩ : St)).pre b := by rw [hb]; simp [Act.pre, Act.pure]
  rw [hp, hq, readFrom_eq]
  simp only [resume, Bool.false_eq_true, if_false, scan, beginStr, bind_def, hb', pre_bind, pure_bind]
  rcases strFragment_lit h r with ⟨e1, e2, e3⟩ | ⟨f, u', s', h', rfl, hl, e1, e2, e3⟩ | ⟨e1, e2⟩
  · left
    refine ⟨_, ⟨[s], by simp, rfl⟩, e2, by rw [e3]; simp [quoteT], ?_⟩
    rw [e1, toks_str]
    simp only [pure_bind, call_bind, Bool.not_false, if_true, pre_bind]
    rw [maybeDone_next _ _ rfl]
    simp [fragCalls]
  · rw [e1]
    simp only [pure_bind, call_bind, Bool.not_true, Bool.false_eq_true, if_false, pre_bind, pure_def, next, if_true]
    rcases resume_str checks _ u' s' (Nat.lt_succ_self _) h' r k p' with ⟨fs, g1, g2, g4, g3⟩ | ⟨g1, g2⟩
    · left
      refine ⟨_, ⟨f :: fs, by simp [g1], rfl⟩, by rw [e2, g2], by rw [e3, g4]; simp [quoteT, escT], ?_⟩
      rw [g3, toks_str]
      simp [fragCalls]
    · right
      exact ⟨by rw [e2, g1], by simpa using g2⟩
  · right
    rw [e1]
    exact ⟨e2, rfl⟩

/-! ## Whitespace -/

theorem scan_state (t a b : Text) (i : Bool) (k : Stack) (p : Position) :
    scan checks ⟨a, i, k, p⟩ t = scan checks ⟨b, i, k, p⟩ t := by
  induction t with
  | nil => rfl
  | cons c t ih =>
    unfold scan
    rw [ih]

theorem read_ws (w t : Text) (hw : Ws w) (k : Stack) (p : Position) :
    readFrom checks ⟨w ++ t, false, k, p⟩ = readFrom checks ⟨t, false, k, p⟩ := by
  induction w with
  | nil => rfl
  | cons c w ih =>
    unfold Ws at hw
    simp only [List.all_cons, Bool.and_eq_true] at hw
    rw [← ih hw.2, readFrom_eq, readFrom_eq checks ⟨w ++ t, false, k, p⟩]
    simp only [resume, Bool.false_eq_true, if_false, List.cons_append]
    rw [← scan_state checks (w ++ t) (c :: (w ++ t)) (w ++ t)]
    have : isWs c = true := hw.1
    simp only [isWs, Bool.or_eq_true, beq_iff_eq] at this
    rcases this with ((rfl | rfl) | rfl) | rfl <;> rfl

theorem plain_ws (w t : Text) (hw : Ws w) : plain false (w ++ t) = plain false t := by
  induction w with
  | nil => rfl
  | cons c w ih =>
    unfold Ws at hw
    simp only [List.all_cons, Bool.and_eq_true] at hw
    rw [List.cons_append, plain, ih hw.2]
    have : isWs c = true := hw.1
    simp only [isWs, Bool.or_eq_true, beq_iff_eq] at this
    rcases this with ((rfl | rfl) | rfl) | rfl <;> rfl

/-! ## Positions -/

/-- The position where a value begins, with these brackets open. -/
def At : Position → List Kind → Prop
  | .root, st => st = []
  | .mapValue, st => ∃ st', st = .map :: st'
  | .seqEmpty, st => ∃ st', st = .seq :: st'
  | .seqElem, st => ∃ st', st = .seq :: st'
  | _, _ => False

/-- The call before a value. -/
def begins : Position → List Token
  | .mapValue => [.mapValueBegin]
  | .seqEmpty => [.seqValueBegin]
  | .seqElem => [.seqValueBegin]
  | _ => []

/-- The position after a value. -/
def past : Position → Position
  | .seqEmpty => .seqElem
  | p => p

theorem At.innermost {p : Position} {st : List Kind} (h : At p st) : innermost st = past p := by
  cases p <;> simp only [At] at h
  · subst h; rfl
  · obtain ⟨_, rfl⟩ := h; rfl
  · obtain ⟨_, rfl⟩ := h; rfl
  · obtain ⟨_, rfl⟩ := h; rfl

theorem At.valueBegin {p : Position} {st : List Kind} (h : At p st) (t : Text) (k : Stack) :
    valueBegin ⟨t, false, k, p⟩ = ⟨begins p, .ok ⟨t, false, k, past p⟩⟩ := by
  cases p <;> first | rfl | exact h.elim

theorem At.strBegin {p : Position} {st : List Kind} (h : At p st) (t : Text) (k : Stack) :
    strBegin ⟨t, false, k, p⟩ = ⟨begins p, .ok ⟨t, false, k, past p⟩⟩ := by
  cases p <;> first | rfl | exact h.elim

theorem At.nestedBegin {p : Position} {st : List Kind} (h : At p st) (t : Text) (k : Stack) :
    nestedBegin ⟨t, false, k, p⟩ = ⟨begins p, .ok ()⟩ := by
  cases p <;> first | rfl | exact h.elim

theorem act_pure (c : List Token) {α : Type} (a : α) : (⟨c, .ok a⟩ : Act α) = (Act.pure a).pre c := by
  simp [Act.pre, Act.pure]

/-! ## Words, numbers and brackets -/

theorem read_word (w : Text) (x : Token) (t : Text) (k : Stack) (p : Position) {st : List Kind} (h : At p st) :
    (word w x ⟨w ++ t, false, k, p⟩).bind (next checks) = (readFrom checks ⟨t, false, k, past p⟩).pre (begins p ++ [x]) := by
  unfold word
  rw [if_pos (by simp)]
  simp only [List.drop_left, h.valueBegin, act_pure, bind_def, pre_bind, pure_bind, call_bind, pre_pre]
  rw [maybeDone_next _ _ rfl]

theorem readFrom_scan (t : Text) (k : Stack) (p : Position) :
    readFrom checks ⟨t, false, k, p⟩ = (scan checks ⟨t, false, k, p⟩ t).bind (next checks) := by
  rw [readFrom_eq]
  simp only [resume, Bool.false_eq_true, if_false]

theorem read_map_begin (r : Text) (st : List Kind) (p : Position) (h : At p st) (hl : (enc st).map + (enc st).seq + 1 < 2 ^ 64) :
    readFrom checks ⟨'{' :: r, false, enc st, p⟩ =
      (readFrom checks ⟨r, false, enc (.map :: st), .mapEmpty⟩).pre (begins p ++ [.mapBegin none]) := by
  have hc := (push_room checks .map st).1 hl
  simp only [Op.count] at hc
  rw [readFrom_scan]
  simp only [scan, goOn_next, mapBegin, h.nestedBegin, bind_def]
  simp only [act_pure, pre_bind, pure_bind, hc, ofRes, call_bind, pure_def, pre_pre]

theorem read_seq_begin (r : Text) (st : List Kind) (p : Position) (h : At p st) (hl : (enc st).map + (enc st).seq + 1 < 2 ^ 64) :
    readFrom checks ⟨'[' :: r, false, enc st, p⟩ =
      (readFrom checks ⟨r, false, enc (.seq :: st), .seqEmpty⟩).pre (begins p ++ [.seqBegin none]) := by
  have hc := (push_room checks .seq st).1 hl
  simp only [Op.count] at hc
  rw [readFrom_scan]
  simp only [scan, goOn_next, seqBegin, h.nestedBegin, bind_def]
  simp only [act_pure, pre_bind, pure_bind, hc, ofRes, call_bind, pure_def, pre_pre]

theorem read_map_refused (r : Text) (st : List Kind) (p : Position) (h : At p st)
    (hl : ¬ (enc st).map + (enc st).seq + 1 < 2 ^ 64) (hc : checks = true) :
    (readFrom checks ⟨'{' :: r, false, enc st, p⟩).res ≠ .ok () := by
  have hc := (push_room checks .map st).2 hl hc
  simp only [Op.count] at hc
  rw [readFrom_scan]
  simp only [scan, goOn_next, mapBegin, h.nestedBegin, bind_def]
  simp only [act_pure, pre_bind, pure_bind]
  cases hp : Stack.pushMap checks (enc st) with
  | ok s => exact absurd hp (hc s)
  | err e s => exact (nofun : End.err ≠ End.ok ())
  | panic => exact (nofun : End.panic ≠ End.ok ())

theorem read_seq_refused (r : Text) (st : List Kind) (p : Position) (h : At p st)
    (hl : ¬ (enc st).map + (enc st).seq + 1 < 2 ^ 64) (hc : checks = true) :
    (readFrom checks ⟨'[' :: r, false, enc st, p⟩).res ≠ .ok () := by
  have hc := (push_room checks .seq st).2 hl hc
  simp only [Op.count] at hc
  rw [readFrom_scan]
  simp only [scan, goOn_next, seqBegin, h.nestedBegin, bind_def]
  simp only [act_pure, pre_bind, pure_bind]
  cases hp : Stack.pushSeq checks (enc st) with
  | ok s => exact absurd hp (hc s)
  | err e s => exact (nofun : End.err ≠ End.ok ())
  | panic => exact (nofun : End.panic ≠ End.ok ())

theorem read_map_end (r : Text) (st : List Kind) (hl : (enc st).map + (enc st).seq + 1 < 2 ^ 64) (b : List Token) (p : Position)
    (hb : ∀ s : St, s.position = p → lastEntry s = ⟨b, .ok ()⟩) :
    readFrom checks ⟨'}' :: r, false, enc (.map :: st), p⟩ =
      (readFrom checks ⟨r, false, enc st, innermost st⟩).pre (b ++ [.mapEnd]) := by
  have hc := pop_room checks .map st hl
  simp only [Op.count] at hc
  rw [readFrom_scan]
  simp only [scan, mapEnd, hb ⟨r, false, enc (.map :: st), p⟩ rfl, bind_def]
  simp only [act_pure, pre_bind, pure_bind, hc, ofRes, call_bind, pure_def, pre_pre]
  rw [maybeDone_next _ _ rfl, enc_position]

theorem read_seq_end (r : Text) (st : List Kind) (hl : (enc st).map + (enc st).seq + 1 < 2 ^ 64) (b : List Token) (p : Position)
    (hb : ∀ s : St, s.position = p → lastElem s = ⟨b, .ok ()⟩) :
    readFrom checks ⟨']' :: r, false, enc (.seq :: st), p⟩ =
      (readFrom checks ⟨r, false, enc st, innermost st⟩).pre (b ++ [.seqEnd]) := by
  have hc := pop_room checks .seq st hl
  simp only [Op.count] at hc
  rw [readFrom_scan]
  simp only [scan, seqEnd, hb ⟨r, false, enc (.seq :: st), p⟩ rfl, bind_def]
  simp only [act_pure, pre_bind, pure_bind, hc, ofRes, call_bind, pure_def, pre_pre]
  rw [maybeDone_next _ _ rfl, enc_position]

end

end Sval.Reader
