import Verif.Reader.Values

set_option autoImplicit false

/-!
# Reading documents: numbers, arrays and objects
-/

namespace Sval.Reader

open Act
open Json (J StrLit Ws Val Elems Members Doc VFollow isWs takeWhile_append J.ind Num NumLit digit_ne escT quoteT
  commas brackets braces keyLit)

section
variable (checks : Bool)

theorem isDigit_numberChar {c : Char} (h : isDigit c = true) : isNumberChar c = true := by
  unfold isNumberChar
  rw [h]; rfl

theorem scan_number (s : St) (c : Char) (r : Text) (h : c = '-' ∨ isDigit c = true) :
    scan checks s (c :: r) = number { s with rest := c :: r } := by
  rcases h with rfl | h
  · rfl
  · unfold scan
    simp only
    split
    all_goals first
      | (exact absurd h (by decide))
      | (rw [if_pos h])

theorem read_number (n r : Text) (hn : ∃ c x, n = c :: x ∧ (c = '-' ∨ isDigit c = true)) (ha : n.all isNumberChar = true)
    (hr : ∀ c, r.head? = some c → isNumberChar c = false) (k : Stack) (p : Position) {st : List Kind} (h : At p st) :
    readFrom checks ⟨n ++ r, false, k, p⟩ = (readFrom checks ⟨r, false, k, past p⟩).pre (begins p ++ toks (numV n)) := by
  obtain ⟨e1, e2⟩ := takeWhile_append isNumberChar n r ha hr
  obtain ⟨c, x, rfl, hc⟩ := hn
  rw [readFrom_scan]
  rw [List.cons_append, scan_number _ _ _ _ hc, ← List.cons_append]
  unfold number
  simp only [e1, e2, h.valueBegin, act_pure, bind_def, pre_bind, pure_bind, call_bind, pre_pre]
  rw [maybeDone_next _ _ rfl]
  rfl

theorem plain_skip (n r : Text) (h : n.all (fun c => c != '"' && c != 'E') = true) : plain false (n ++ r) = plain false r := by
  induction n with
  | nil => rfl
  | cons c n ih =>
    simp only [List.all_cons, Bool.and_eq_true, bne_iff_ne, ne_eq] at h
    rw [List.cons_append, plain, if_neg h.1.1, ih h.2]
    simp [h.1.2]

theorem digits_chars {d : Text} (h : d.all isDigit = true) :
    d.all isNumberChar = true ∧ d.all (fun c => c != '"' && c != 'E') = true := by
  induction d with
  | nil => exact ⟨rfl, rfl⟩
  | cons c d ih =>
    simp only [List.all_cons, Bool.and_eq_true] at h
    obtain ⟨h1, h2⟩ := ih h.2
    refine ⟨by simp only [List.all_cons, h1, isDigit_numberChar h.1, Bool.and_self], ?_⟩
    simp only [List.all_cons, h2, Bool.and_true, Bool.and_eq_true, bne_iff_ne, ne_eq]
    exact ⟨digit_ne h.1 _ rfl, digit_ne h.1 _ rfl⟩

/-- Characters of a number that are not an exponent. -/
theorem num_chars (n : Num) (h : n.IsJson) :
    (n.sign ++ (n.int ++ Num.fracText n.frac)).all isNumberChar = true ∧
      (n.sign ++ (n.int ++ Num.fracText n.frac)).all (fun c => c != '"' && c != 'E') = true := by
  obtain ⟨h1, h2, _, h4, _⟩ := h
  have hi := digits_chars h2.2
  have hf : (Num.fracText n.frac).all isNumberChar = true ∧ (Num.fracText n.frac).all (fun c => c != '"' && c != 'E') = true := by
    cases hf : n.frac with
    | none => exact ⟨rfl, rfl⟩
    | some d =>
      have := digits_chars (h4 d hf).2
      exact ⟨by simp only [Num.fracText, List.all_cons, this.1]; rfl, by simp only [Num.fracText, List.all_cons, this.2]; rfl⟩
  rcases h1 with h | h <;> simp only [h, List.all_append, hi, hf, List.all_cons, List.all_nil] <;> decide

theorem follow_number {r : Text} (h : VFollow r) : ∀ c, r.head? = some c → isNumberChar c = false := by
  intro c hc
  rcases h c hc with h | rfl | rfl | rfl
  · simp only [isWs, Bool.or_eq_true, beq_iff_eq] at h
    rcases h with ((rfl | rfl) | rfl) | rfl <;> decide
  all_goals decide

mutual
/-- The text of a value that was read. -/
def spell : V → Text
  | .null => t! "null"
  | .bool b => if b then t! "true" else t! "false"
  | .tagged _ (.tagged _ (.text _ fs)) => fragsText fs
  | .text _ fs => quoteT (escT (fragsText fs))
  | .seq _ xs => brackets (spells xs)
  | .map _ kvs => braces (spellsM kvs)
  | _ => []
def spells : List V → List Text
  | [] => []
  | x :: xs => spell x :: spells xs
def spellsM : List (V × V) → List Text
  | [] => []
  | (k, v) :: r => (spell k ++ ':' :: spell v) :: spellsM r
end

theorem squeeze_skip (n r : Text) (h : n.all (fun c => c != '"' && !isWs c) = true) :
    squeeze false (n ++ r) = n ++ squeeze false r := by
  induction n with
  | nil => rfl
  | cons c n ih =>
    simp only [List.all_cons, Bool.and_eq_true, bne_iff_ne, ne_eq, Bool.not_eq_true', isWs, Bool.or_eq_false_iff,
      beq_eq_false_iff_ne] at h
    rw [List.cons_append, squeeze, if_neg h.1.1, if_neg (by simp [h.1.2]), ih (by simpa [isWs] using h.2)]
    rfl

theorem squeeze_ws (w r : Text) (hw : Ws w) : squeeze false (w ++ r) = squeeze false r := by
  induction w with
  | nil => rfl
  | cons c w ih =>
    unfold Ws at hw
    simp only [List.all_cons, Bool.and_eq_true] at hw
    have hc : c ≠ '"' := by rintro rfl; exact absurd hw.1 (by decide)
    have := hw.1
    simp only [isWs, Bool.or_eq_true, beq_iff_eq] at this
    rw [List.cons_append, squeeze, if_neg hc, if_pos (by simpa only [or_assoc] using this), ih hw.2]

theorem squeeze_one {c : Char} (r : Text) (h1 : c ≠ '"') (h2 : isWs c = false) : squeeze false (c :: r) = c :: squeeze false r :=
  squeeze_skip [c] r (by simp [h1, h2])

theorem numberChar_ws {c : Char} (h : isNumberChar c = true) : (c != '"' && !isWs c) = true := by
  simp only [Bool.and_eq_true, bne_iff_ne, ne_eq, Bool.not_eq_true', isWs, Bool.or_eq_false_iff, beq_eq_false_iff_ne]
  refine ⟨?_, ⟨⟨?_, ?_⟩, ?_⟩, ?_⟩ <;> (rintro rfl; exact absurd h (by decide))

theorem squeeze_number (n r : Text) (h : n.all isNumberChar = true) : squeeze false (n ++ r) = n ++ squeeze false r :=
  squeeze_skip n r (by
    rw [List.all_eq_true] at h ⊢
    exact fun c hc => numberChar_ws (h c hc))

theorem spell_str {s : Text} {v : V} (h : StrV s v) : spell v = quoteT (escT s) := by
  obtain ⟨fs, rfl, rfl⟩ := h
  have : fragsText (fs.map Frag.borrowed) = fs.flatten := by
    simp only [fragsText, List.map_map]
    congr 1
    induction fs with
    | nil => rfl
    | cons f fs ih => simp only [List.map_cons, ih]; rfl
  rw [spell, this]

/-- What reading does to a value without brackets in front of other text, whatever the counters. -/
def Scalar (j : J) : Prop :=
  ∀ u, Val j u → ∀ (k : Stack) (st : List Kind) (p : Position) (r : Text), At p st → VFollow r →
    (∃ v, Tree j v ∧ plain false (u ++ r) = plain false r ∧ squeeze false (u ++ r) = spell v ++ squeeze false r ∧
      readFrom checks ⟨u ++ r, false, k, p⟩ = (readFrom checks ⟨r, false, k, past p⟩).pre (begins p ++ toks v)) ∨
    (plain false (u ++ r) = false ∧ (readFrom checks ⟨u ++ r, false, k, p⟩).res = .panic)

theorem reads_num (q : Rat) : Scalar checks (.num q) := by
  intro u hu k st p r hp hr
  simp only [Val] at hu
  have hh := hu.head
  have hu' := hu
  obtain ⟨n, hn, rfl, hq⟩ := hu
  have hc := num_chars n hn
  obtain ⟨hc1, hc2⟩ := hc
  have ht : n.text = (n.sign ++ (n.int ++ Num.fracText n.frac)) ++ Num.expText n.exp := by simp [Num.text]
  generalize n.sign ++ (n.int ++ Num.fracText n.frac) = b at *
  have hE := hn.2.2.2.2
  cases he : n.exp with
  | none =>
    left
    rw [he] at ht
    simp only [Num.expText, List.append_nil] at ht
    rw [ht] at hu' hh ⊢
    exact ⟨numV b, ⟨b, hu', rfl⟩, plain_skip b r hc2, by rw [squeeze_number b r hc1]; simp [spell, numV, fragsText, Frag.content], read_number checks b r hh hc1 (follow_number hr) _ _ hp⟩
  | some x =>
    obtain ⟨c, s, d⟩ := x
    obtain ⟨h1, h2, h3⟩ := hE c s d he
    have hs : s.all isNumberChar = true ∧ s.all (fun c => c != '"' && c != 'E') = true := by
      rcases h2 with rfl | rfl | rfl <;> decide
    have hd := digits_chars h3.2
    rw [he] at ht
    simp only [Num.expText] at ht
    rcases h1 with rfl | rfl
    · left
      rw [ht] at hu' hh ⊢
      refine ⟨numV _, ⟨_, hu', rfl⟩, plain_skip _ r ?_, ?_, read_number checks _ r hh ?_ (follow_number hr) _ _ hp⟩
      · simp only [List.all_append, List.all_cons, hc2, hs.2, hd.2]; rfl
      · rw [squeeze_number _ r (by simp only [List.all_append, List.all_cons, hc1, hs.1, hd.1]; rfl)]
        simp [spell, numV, fragsText, Frag.content]
      · simp only [List.all_append, List.all_cons, hc1, hs.1, hd.1]; rfl
    · right
      rw [ht] at hh ⊢
      have hb : ∃ c x, b = c :: x ∧ (c = '-' ∨ isDigit c = true) := by
        obtain ⟨c, x, e, hc⟩ := hh
        cases b with
        | nil => injection e with e _; subst e; rcases hc with h | h <;> exact absurd h (by decide)
        | cons y b => injection e with e _; subst e; exact ⟨_, _, rfl, hc⟩
      rw [List.append_assoc, List.cons_append]
      constructor
      · rw [plain_skip _ _ hc2]
        rfl
      · rw [read_number checks b _ hb hc1 (by intro c hc; simp at hc; subst hc; rfl) _ _ hp]
        rw [pre_res, readFrom_scan]
        rfl

theorem not_num_plain {c : Char} {r : Text} (h1 : c ≠ '"') (h2 : c ≠ 'E') : plain false (c :: r) = plain false r := by
  rw [plain, if_neg h1]
  simp [h2]

theorem past_past (p : Position) : past (past p) = past p := by cases p <;> rfl

theorem reads_scalar (j : J) (hj : flat j = true) : Scalar checks j := by
  cases j with
  | null =>
    intro u hu k st p r hp _
    simp only [Val] at hu; subst hu
    left
    refine ⟨.null, rfl, by simp [plain], squeeze_skip _ _ (by decide), ?_⟩
    rw [readFrom_scan]
    exact read_word checks (t! "null") .null r _ p hp
  | bool b =>
    intro u hu k st p r hp _
    simp only [Val] at hu
    left
    cases b with
    | false =>
      simp only [Bool.false_eq_true, if_false] at hu; subst hu
      refine ⟨.bool false, rfl, by simp [plain], squeeze_skip _ _ (by decide), ?_⟩
      rw [readFrom_scan]
      exact read_word checks (t! "false") (.bool false) r _ p hp
    | true =>
      simp only [if_true] at hu; subst hu
      refine ⟨.bool true, rfl, by simp [plain], squeeze_skip _ _ (by decide), ?_⟩
      rw [readFrom_scan]
      exact read_word checks (t! "true") (.bool true) r _ p hp
  | num q => exact reads_num checks q
  | str s =>
    intro u hu k st p r hp _
    simp only [Val] at hu
    obtain ⟨x, hx, rfl⟩ := hu
    have e1 : '"' :: (x ++ ['"']) ++ r = '"' :: (x ++ '"' :: r) := by simp
    rw [e1]
    rcases begin_str checks x s hx r k p (past p) (begins p) (fun t => hp.strBegin t _) with ⟨v, f1, f2, f4, f3⟩ | h
    · exact .inl ⟨v, by simpa only [Tree] using f1, f2, by rw [f4, spell_str f1], f3⟩
    · exact .inr h
  | arr xs => cases hj
  | obj xs => cases hj

/-! ## Arrays -/

theorem read_comma_seq (r : Text) (k : Stack) :
    readFrom checks ⟨',' :: r, false, k, .seqElem⟩ = (readFrom checks ⟨r, false, k, .seqElem⟩).pre [.seqValueEnd] := by
  rw [readFrom_scan]
  simp only [scan, goOn_next, valueEnd, bind_def, call_bind, pre_bind, pure_def, pure_bind]

theorem read_comma_map (r : Text) (k : Stack) :
    readFrom checks ⟨',' :: r, false, k, .mapValue⟩ = (readFrom checks ⟨r, false, k, .mapKey⟩).pre [.mapValueEnd] := by
  rw [readFrom_scan]
  simp only [scan, goOn_next, valueEnd, bind_def, call_bind, pre_bind, pure_def, pure_bind]

theorem read_colon (r : Text) (k : Stack) :
    readFrom checks ⟨':' :: r, false, k, .mapKey⟩ = (readFrom checks ⟨r, false, k, .mapValue⟩).pre [.mapKeyEnd] := by
  rw [readFrom_scan]
  simp only [scan, goOn_next, mapKeyEnd, bind_def, call_bind, pre_bind, pure_def, pure_bind]

/-- What can follow an element of an array. -/
def SeqFollow (R : Text) : Prop :=
  ∃ w r, Ws w ∧ (R = w ++ ']' :: r ∨ ∃ y ys t, Elems (y :: ys) t ∧ R = w ++ ',' :: (t ++ ']' :: r))

theorem SeqFollow.value {R : Text} (h : SeqFollow R) : VFollow R := by
  obtain ⟨w, r, hw, rfl | ⟨y, ys, t, -, rfl⟩⟩ := h
  · exact VFollow.ws hw (VFollow.cons (by simp))
  · exact VFollow.ws hw (VFollow.cons (by simp))

/-- What reading does to an element of an array, with these counters; `Q` are the elements that can be read. -/
def ElemTo (K : Stack) (Q : J → Bool) (j : J) : Prop :=
  ∀ u, Val j u → ∀ (p : Position) (r : Text), p = .seqEmpty ∨ p = .seqElem → SeqFollow r →
    (∃ v, Q j = true ∧ Tree j v ∧ plain false (u ++ r) = plain false r ∧ squeeze false (u ++ r) = spell v ++ squeeze false r ∧
      readFrom checks ⟨u ++ r, false, K, p⟩ = (readFrom checks ⟨r, false, K, .seqElem⟩).pre (.seqValueBegin :: toks v)) ∨
    (plain false (u ++ r) = false ∧ (readFrom checks ⟨u ++ r, false, K, p⟩).res = .panic) ∨
    (Q j = false ∧ (readFrom checks ⟨u ++ r, false, K, p⟩).res ≠ .ok ())

/-- The end of an array, with these counters before and after. -/
def SeqEnds (K K' : Stack) : Prop :=
  ∀ (r : Text) (b : List Token) (p : Position), (∀ s : St, s.position = p → lastElem s = ⟨b, .ok ()⟩) →
    readFrom checks ⟨']' :: r, false, K, p⟩ = (readFrom checks ⟨r, false, K', K'.position⟩).pre (b ++ [.seqEnd])

theorem reads_elems (K K' : Stack) (hK : SeqEnds checks K K') (Q : J → Bool) (xs : List J) (hne : xs ≠ [])
    (ih : ∀ x ∈ xs, ElemTo checks K Q x) (t : Text) (ht : Elems xs t) (p : Position) (hp : p = .seqEmpty ∨ p = .seqElem) (r : Text) :
    (∃ vs, xs.all Q = true ∧ Trees xs vs ∧ plain false (t ++ ']' :: r) = plain false r ∧
      squeeze false (t ++ ']' :: r) = commas (spells vs) ++ ']' :: squeeze false r ∧
      readFrom checks ⟨t ++ ']' :: r, false, K, p⟩ =
        (readFrom checks ⟨r, false, K', K'.position⟩).pre (toksSeq vs ++ [.seqEnd])) ∨
    (plain false (t ++ ']' :: r) = false ∧ (readFrom checks ⟨t ++ ']' :: r, false, K, p⟩).res = .panic) ∨
    (xs.all Q = false ∧ (readFrom checks ⟨t ++ ']' :: r, false, K, p⟩).res ≠ .ok ()) := by
  induction xs generalizing t p with
  | nil => exact absurd rfl hne
  | cons x xs ihx =>
    have hx := ih x (by simp)
    cases xs with
    | nil =>
      simp only [Elems] at ht
      obtain ⟨w, u, w', hw, hu, hw', rfl⟩ := ht
      have e1 : (w ++ (u ++ w')) ++ ']' :: r = w ++ (u ++ (w' ++ ']' :: r)) := by simp
      rw [e1, plain_ws _ _ hw, squeeze_ws _ _ hw, read_ws _ _ _ hw]
      rcases hx u hu p (w' ++ ']' :: r) hp ⟨w', r, hw', .inl rfl⟩ with ⟨v, g0, g1, g2, g4, g3⟩ | ⟨g1, g2⟩ | ⟨g1, g2⟩
      · left
        refine ⟨[v], by rw [List.all_cons, g0]; rfl, ⟨v, [], rfl, g1, rfl⟩, ?_, ?_, ?_⟩
        · rw [g2, plain_ws _ _ hw', not_num_plain (by decide) (by decide)]
        · rw [g4, squeeze_ws _ _ hw', squeeze_one _ (by decide) (by decide)]
          simp [spells, commas]
        · rw [g3, read_ws _ _ _ hw', hK r [.seqValueEnd] .seqElem
            (by intro s hs; simp only [lastElem, hs]; rfl), pre_pre]
          simp [toksSeq]
      · exact .inr (.inl ⟨g1, g2⟩)
      · exact .inr (.inr ⟨by rw [List.all_cons, g1]; rfl, g2⟩)
    | cons y ys =>
      simp only [Elems] at ht
      obtain ⟨w, u, w', r', hw, hu, hw', hr', rfl⟩ := ht
      have e1 : (w ++ (u ++ (w' ++ ',' :: r'))) ++ ']' :: r = w ++ (u ++ (w' ++ ',' :: (r' ++ ']' :: r))) := by simp
      rw [e1, plain_ws _ _ hw, squeeze_ws _ _ hw, read_ws _ _ _ hw]
      rcases hx u hu p (w' ++ ',' :: (r' ++ ']' :: r)) hp ⟨w', r, hw', .inr ⟨y, ys, r', hr', rfl⟩⟩ with ⟨v, g0, g1, g2, g4, g3⟩ | ⟨g1, g2⟩ | ⟨g1, g2⟩
      · rw [g2, plain_ws _ _ hw', not_num_plain (by decide) (by decide), g4, squeeze_ws _ _ hw',
          squeeze_one _ (by decide) (by decide), g3, read_ws _ _ _ hw', read_comma_seq]
        rcases ihx (by simp) (fun z hz => ih z (by simp [hz])) r' hr' .seqElem (.inr rfl) with
          ⟨vs, k0, k1, k2, k4, k3⟩ | ⟨k1, k2⟩ | ⟨k1, k2⟩
        · left
          refine ⟨v :: vs, by rw [List.all_cons, g0, k0]; rfl, ⟨v, vs, rfl, g1, k1⟩, k2, ?_, ?_⟩
          · rw [k4]
            obtain ⟨_, _, rfl, -⟩ := k1
            simp [spells, commas]
          rw [k3, pre_pre, pre_pre]
          simp [toksSeq]
        · exact .inr (.inl ⟨k1, by simpa using k2⟩)
        · exact .inr (.inr ⟨by rw [List.all_cons, g0, k1]; rfl, by simpa using k2⟩)
      · exact .inr (.inl ⟨g1, g2⟩)
      · exact .inr (.inr ⟨by rw [List.all_cons, g1]; rfl, g2⟩)

/-! ## Objects -/

/-- What can follow the value of a member of an object. -/
def MapFollow (R : Text) : Prop :=
  ∃ w r, Ws w ∧ (R = w ++ '}' :: r ∨ ∃ y ys t, Members (y :: ys) t ∧ R = w ++ ',' :: (t ++ '}' :: r))

theorem MapFollow.value {R : Text} (h : MapFollow R) : VFollow R := by
  obtain ⟨w, r, hw, rfl | ⟨y, ys, t, -, rfl⟩⟩ := h
  · exact VFollow.ws hw (VFollow.cons (by simp))
  · exact VFollow.ws hw (VFollow.cons (by simp))

/-- What reading does to the value of a member of an object, with these counters; `Q` are the values that can be read. -/
def MemberTo (K : Stack) (Q : J → Bool) (j : J) : Prop :=
  ∀ u, Val j u → ∀ r : Text, MapFollow r →
    (∃ v, Q j = true ∧ Tree j v ∧ plain false (u ++ r) = plain false r ∧ squeeze false (u ++ r) = spell v ++ squeeze false r ∧
      readFrom checks ⟨u ++ r, false, K, .mapValue⟩ = (readFrom checks ⟨r, false, K, .mapValue⟩).pre (.mapValueBegin :: toks v)) ∨
    (plain false (u ++ r) = false ∧ (readFrom checks ⟨u ++ r, false, K, .mapValue⟩).res = .panic) ∨
    (Q j = false ∧ (readFrom checks ⟨u ++ r, false, K, .mapValue⟩).res ≠ .ok ())

/-- The end of an object, with these counters before and after. -/
def MapEnds (K K' : Stack) : Prop :=
  ∀ (r : Text) (b : List Token) (p : Position), (∀ s : St, s.position = p → lastEntry s = ⟨b, .ok ()⟩) →
    readFrom checks ⟨'}' :: r, false, K, p⟩ = (readFrom checks ⟨r, false, K', K'.position⟩).pre (b ++ [.mapEnd])

theorem reads_members (K K' : Stack) (hK : MapEnds checks K K') (Q : J → Bool) (xs : List (Text × J)) (hne : xs ≠ [])
    (ih : ∀ x ∈ xs, MemberTo checks K Q x.2) (t : Text) (ht : Members xs t) (p : Position) (hp : p = .mapEmpty ∨ p = .mapKey)
    (r : Text) :
    (∃ vs, xs.all (fun x => Q x.2) = true ∧ TreesM xs vs ∧ plain false (t ++ '}' :: r) = plain false r ∧
      squeeze false (t ++ '}' :: r) = commas (spellsM vs) ++ '}' :: squeeze false r ∧
      readFrom checks ⟨t ++ '}' :: r, false, K, p⟩ =
        (readFrom checks ⟨r, false, K', K'.position⟩).pre (toksMap vs ++ [.mapEnd])) ∨
    (plain false (t ++ '}' :: r) = false ∧ (readFrom checks ⟨t ++ '}' :: r, false, K, p⟩).res = .panic) ∨
    (xs.all (fun x => Q x.2) = false ∧ (readFrom checks ⟨t ++ '}' :: r, false, K, p⟩).res ≠ .ok ()) := by
  induction xs generalizing t p with
  | nil => exact absurd rfl hne
  | cons x xs ihx =>
    have hx := ih x (by simp)
    obtain ⟨key, x⟩ := x
    have hb (t : Text) : strBegin ⟨t, false, K, p⟩ = ⟨[.mapKeyBegin], .ok ⟨t, false, K, .mapKey⟩⟩ := by
      rcases hp with rfl | rfl <;> rfl
    cases xs with
    | nil =>
      simp only [Members] at ht
      obtain ⟨w, k', w1, w2, u, w', hw, hk, hw1, hw2, hu, hw', rfl⟩ := ht
      have e1 : (w ++ ('"' :: (k' ++ '"' :: (w1 ++ ':' :: (w2 ++ (u ++ w')))))) ++ '}' :: r =
          w ++ ('"' :: (k' ++ '"' :: (w1 ++ ':' :: (w2 ++ (u ++ (w' ++ '}' :: r)))))) := by simp
      rw [e1, plain_ws _ _ hw, squeeze_ws _ _ hw, read_ws _ _ _ hw]
      rcases begin_str checks k' key hk (w1 ++ ':' :: (w2 ++ (u ++ (w' ++ '}' :: r)))) K p .mapKey
        [.mapKeyBegin] hb with ⟨kv, f1, f2, f4, f3⟩ | ⟨f1, f2⟩
      · rw [f2, f3, f4, plain_ws _ _ hw1, squeeze_ws _ _ hw1, read_ws _ _ _ hw1, not_num_plain (by decide) (by decide),
          squeeze_one _ (by decide) (by decide), read_colon, plain_ws _ _ hw2, squeeze_ws _ _ hw2, read_ws _ _ _ hw2]
        rcases hx u hu (w' ++ '}' :: r) ⟨w', r, hw', .inl rfl⟩ with ⟨v, g0, g1, g2, g4, g3⟩ | ⟨g1, g2⟩ | ⟨g1, g2⟩
        · left
          refine ⟨[(kv, v)], by rw [List.all_cons, g0]; rfl, ⟨kv, v, [], rfl, f1, g1, rfl⟩, ?_, ?_, ?_⟩
          · rw [g2, plain_ws _ _ hw', not_num_plain (by decide) (by decide)]
          · rw [g4, squeeze_ws _ _ hw', squeeze_one _ (by decide) (by decide)]
            simp [spellsM, commas, spell_str f1]
          · rw [g3, read_ws _ _ _ hw']
            rw [hK r [.mapValueEnd] .mapValue (by intro s hs; simp only [lastEntry, hs]; rfl)]
            simp [toksMap]
        · exact .inr (.inl ⟨g1, by simpa using g2⟩)
        · exact .inr (.inr ⟨by rw [List.all_cons, g1]; rfl, by simpa using g2⟩)
      · exact .inr (.inl ⟨f1, f2⟩)
    | cons y ys =>
      simp only [Members] at ht
      obtain ⟨w, k', w1, w2, u, w', r', hw, hk, hw1, hw2, hu, hw', hr', rfl⟩ := ht
      have e1 : (w ++ ('"' :: (k' ++ '"' :: (w1 ++ ':' :: (w2 ++ (u ++ (w' ++ ',' :: r'))))))) ++ '}' :: r =
          w ++ ('"' :: (k' ++ '"' :: (w1 ++ ':' :: (w2 ++ (u ++ (w' ++ ',' :: (r' ++ '}' :: r))))))) := by simp
      rw [e1, plain_ws _ _ hw, squeeze_ws _ _ hw, read_ws _ _ _ hw]
      rcases begin_str checks k' key hk (w1 ++ ':' :: (w2 ++ (u ++ (w' ++ ',' :: (r' ++ '}' :: r))))) K p
        .mapKey [.mapKeyBegin] hb with ⟨kv, f1, f2, f4, f3⟩ | ⟨f1, f2⟩
      · rw [f2, f3, f4, plain_ws _ _ hw1, squeeze_ws _ _ hw1, read_ws _ _ _ hw1, not_num_plain (by decide) (by decide),
          squeeze_one _ (by decide) (by decide), read_colon, plain_ws _ _ hw2, squeeze_ws _ _ hw2, read_ws _ _ _ hw2]
        rcases hx u hu (w' ++ ',' :: (r' ++ '}' :: r)) ⟨w', r, hw', .inr ⟨y, ys, r', hr', rfl⟩⟩ with ⟨v, g0, g1, g2, g4, g3⟩ | ⟨g1, g2⟩ | ⟨g1, g2⟩
        · rw [g2, plain_ws _ _ hw', not_num_plain (by decide) (by decide), g4, squeeze_ws _ _ hw',
            squeeze_one _ (by decide) (by decide), g3, read_ws _ _ _ hw']
          rw [read_comma_map]
          rcases ihx (by simp) (fun z hz => ih z (by simp [hz])) r' hr' .mapKey (.inr rfl) with
            ⟨vs, k0, k1, k2, k4, k3⟩ | ⟨k1, k2⟩ | ⟨k1, k2⟩
          · left
            refine ⟨(kv, v) :: vs, by rw [List.all_cons, g0, k0]; rfl, ⟨kv, v, vs, rfl, f1, g1, k1⟩, k2, ?_, ?_⟩
            · rw [k4]
              obtain ⟨_, _, _, rfl, -⟩ := k1
              simp [spellsM, commas, spell_str f1]
            rw [k3]
            simp [toksMap]
          · exact .inr (.inl ⟨k1, by simpa using k2⟩)
          · exact .inr (.inr ⟨by rw [List.all_cons, g0, k1]; rfl, by simpa using k2⟩)
        · exact .inr (.inl ⟨g1, by simpa using g2⟩)
        · exact .inr (.inr ⟨by rw [List.all_cons, g1]; rfl, by simpa using g2⟩)
      · exact .inr (.inl ⟨f1, f2⟩)

/-! ## Counters at the brim

Builds without overflow checks only: one counter is as high as it gets, and brackets of the other kind do not change it. -/

/-- The counter of objects is full. -/
structure FullMap (K : Stack) : Prop where
  push : Stack.pushSeq false K = .ok K
  pop : Stack.popSeq false K = .ok K
  refused : ∃ s, Stack.pushMap false K = .err () s
  position : K.position = .mapValue

/-- The counter of arrays is full. -/
structure FullSeq (K : Stack) : Prop where
  push : Stack.pushMap false K = .ok K
  pop : Stack.popMap false K = .ok K
  refused : ∃ s, Stack.pushSeq false K = .err () s
  position : K.position = .seqElem

theorem fullMap {K : Stack} (h1 : K.map + 1 = 2 ^ 64) (h2 : K.seq < K.map) : FullMap K := by
  have e1 : Stack.succ false K.map = some 0 := by rw [Stack.succ, if_neg (by omega)]; rfl
  have e2 : Stack.succ false K.seq = some (1 + K.seq) := by rw [Stack.succ, if_pos (by omega)]
  refine ⟨?_, ?_, ⟨K, ?_⟩, ?_⟩
  · rw [Stack.pushSeq, Stack.change, e1]; simp only [Stack.add]; rw [if_pos (by omega)]; rfl
  · rw [Stack.popSeq, Stack.change, e1]; simp only [Stack.sub]; rw [if_pos (by omega)]; rfl
  · rw [Stack.pushMap, Stack.change, e2]; simp only [Stack.add]; rw [if_neg (by omega)]; rfl
  · rw [Stack.position, if_pos h2]

theorem fullSeq {K : Stack} (h1 : K.seq + 1 = 2 ^ 64) (h2 : K.map < K.seq) : FullSeq K := by
  have e1 : Stack.succ false K.seq = some 0 := by rw [Stack.succ, if_neg (by omega)]; rfl
  have e2 : Stack.succ false K.map = some (1 + K.map) := by rw [Stack.succ, if_pos (by omega)]
  refine ⟨?_, ?_, ⟨K, ?_⟩, ?_⟩
  · rw [Stack.pushMap, Stack.change, e1]; simp only [Stack.add]; rw [if_pos (by omega)]; rfl
  · rw [Stack.popMap, Stack.change, e1]; simp only [Stack.sub]; rw [if_pos (by omega)]; rfl
  · rw [Stack.pushSeq, Stack.change, e2]; simp only [Stack.add]; rw [if_neg (by omega)]; rfl
  · rw [Stack.position, if_neg (by omega), if_pos h2]

theorem FullMap.ends {K : Stack} (h : FullMap K) : SeqEnds false K K := by
  intro r b p hb
  rw [readFrom_scan]
  simp only [scan, seqEnd, hb ⟨r, false, K, p⟩ rfl, bind_def]
  simp only [act_pure, pre_bind, pure_bind, h.pop, ofRes, call_bind, pure_def, pre_pre]
  rw [maybeDone_next _ _ rfl]

theorem FullSeq.ends {K : Stack} (h : FullSeq K) : MapEnds false K K := by
  intro r b p hb
  rw [readFrom_scan]
  simp only [scan, mapEnd, hb ⟨r, false, K, p⟩ rfl, bind_def]
  simp only [act_pure, pre_bind, pure_bind, h.pop, ofRes, call_bind, pure_def, pre_pre]
  rw [maybeDone_next _ _ rfl]

theorem FullMap.seq_begin {K : Stack} (h : FullMap K) (r : Text) (st : List Kind) (p : Position) (hp : At p st) :
    readFrom false ⟨'[' :: r, false, K, p⟩ = (readFrom false ⟨r, false, K, .seqEmpty⟩).pre (begins p ++ [.seqBegin none]) := by
  rw [readFrom_scan]
  simp only [scan, goOn_next, seqBegin, hp.nestedBegin, bind_def]
  simp only [act_pure, pre_bind, pure_bind, h.push, ofRes, call_bind, pure_def, pre_pre]

theorem FullSeq.map_begin {K : Stack} (h : FullSeq K) (r : Text) (st : List Kind) (p : Position) (hp : At p st) :
    readFrom false ⟨'{' :: r, false, K, p⟩ = (readFrom false ⟨r, false, K, .mapEmpty⟩).pre (begins p ++ [.mapBegin none]) := by
  rw [readFrom_scan]
  simp only [scan, goOn_next, mapBegin, hp.nestedBegin, bind_def]
  simp only [act_pure, pre_bind, pure_bind, h.push, ofRes, call_bind, pure_def, pre_pre]

theorem FullMap.map_refused {K : Stack} (h : FullMap K) (r : Text) (st : List Kind) (p : Position) (hp : At p st) :
    (readFrom false ⟨'{' :: r, false, K, p⟩).res ≠ .ok () := by
  obtain ⟨s, h⟩ := h.refused
  rw [readFrom_scan]
  simp only [scan, goOn_next, mapBegin, hp.nestedBegin, bind_def]
  simp only [act_pure, pre_bind, pure_bind, h, ofRes]
  exact (nofun : End.err ≠ End.ok ())

theorem FullSeq.seq_refused {K : Stack} (h : FullSeq K) (r : Text) (st : List Kind) (p : Position) (hp : At p st) :
    (readFrom false ⟨'[' :: r, false, K, p⟩).res ≠ .ok () := by
  obtain ⟨s, h⟩ := h.refused
  rw [readFrom_scan]
  simp only [scan, goOn_next, seqBegin, hp.nestedBegin, bind_def]
  simp only [act_pure, pre_bind, pure_bind, h, ofRes]
  exact (nofun : End.err ≠ End.ok ())

/-- A character on which the reader panics. -/
theorem read_stuck (c : Char) (r : Text) (K : Stack) (p : Position)
    (h : (scan checks ⟨c :: r, false, K, p⟩ (c :: r)).res = .panic) : (readFrom checks ⟨c :: r, false, K, p⟩).res = .panic := by
  rw [readFrom_scan]
  revert h
  generalize scan checks ⟨c :: r, false, K, p⟩ (c :: r) = x
  obtain ⟨c, x⟩ := x
  intro h
  cases h
  rfl

/-- No value begins where a key is expected, but strings do. -/
theorem value_at_key (y : J) (u : Text) (hu : Val y u) (K : Stack) (r : Text) :
    (readFrom checks ⟨u ++ r, false, K, .mapKey⟩).res = .panic ∨
      ∃ b, readFrom checks ⟨u ++ r, false, K, .mapKey⟩ = (readFrom checks ⟨r, false, K, .mapKey⟩).pre b := by
  cases y with
  | null =>
    simp only [Val] at hu; subst hu
    exact .inl (read_stuck checks _ _ K _ (by simp only [scan, word]; rw [if_pos (by simp)]; rfl))
  | bool b =>
    simp only [Val] at hu
    cases b with
    | false =>
      simp only [Bool.false_eq_true, if_false] at hu; subst hu
      exact .inl (read_stuck checks _ _ K _ (by simp only [scan, word]; rw [if_pos (by simp)]; rfl))
    | true =>
      simp only [if_true] at hu; subst hu
      exact .inl (read_stuck checks _ _ K _ (by simp only [scan, word]; rw [if_pos (by simp)]; rfl))
  | num q =>
    simp only [Val] at hu
    obtain ⟨c, x, rfl, hc⟩ := hu.head
    exact .inl (read_stuck checks _ _ K _ (by rw [scan_number _ _ _ _ hc]; rfl))
  | str s =>
    simp only [Val] at hu
    obtain ⟨x, hx, rfl⟩ := hu
    have e1 : '"' :: (x ++ ['"']) ++ r = '"' :: (x ++ '"' :: r) := by simp
    rw [e1]
    rcases begin_str checks x s hx r K .mapKey .mapKey [.mapKeyBegin] (fun t => rfl) with ⟨v, -, -, -, f3⟩ | h
    · exact .inr ⟨_, f3⟩
    · exact .inl h.2
  | arr xs =>
    simp only [Val] at hu
    obtain ⟨x, hx, rfl⟩ := hu
    exact .inl (read_stuck checks _ _ K _ rfl)
  | obj xs =>
    simp only [Val] at hu
    obtain ⟨x, hx, rfl⟩ := hu
    exact .inl (read_stuck checks _ _ K _ rfl)

/-- Inside of an array the position of a member of an object leads nowhere. -/
theorem dead_seq (R : Text) (h : SeqFollow R) (K : Stack) : (readFrom checks ⟨R, false, K, .mapValue⟩).res = .panic := by
  obtain ⟨w, r, hw, rfl | ⟨y, ys, t, ht, rfl⟩⟩ := h
  · rw [read_ws _ _ _ hw]
    exact read_stuck checks _ _ K _ rfl
  · rw [read_ws _ _ _ hw, read_comma_map, pre_res]
    have key : ∃ w u w' R, Ws w ∧ Val y u ∧ Ws w' ∧ t ++ ']' :: r = w ++ (u ++ (w' ++ R)) ∧ ((∃ x, R = ']' :: x) ∨ ∃ x, R = ',' :: x) := by
      cases ys with
      | nil =>
        simp only [Elems] at ht
        obtain ⟨w, u, w', hw, hu, hw', rfl⟩ := ht
        exact ⟨w, u, w', _, hw, hu, hw', by simp, .inl ⟨r, rfl⟩⟩
      | cons z zs =>
        simp only [Elems] at ht
        obtain ⟨w, u, w', r', hw, hu, hw', hr', rfl⟩ := ht
        exact ⟨w, u, w', ',' :: (r' ++ ']' :: r), hw, hu, hw', by simp, .inr ⟨_, rfl⟩⟩
    obtain ⟨w, u, w', R, hw, hu, hw', e, hR⟩ := key
    rw [e, read_ws _ _ _ hw]
    rcases value_at_key checks y u hu K (w' ++ R) with h | ⟨b, h⟩
    · exact h
    · rw [h, pre_res, read_ws _ _ _ hw']
      rcases hR with ⟨x, rfl⟩ | ⟨x, rfl⟩ <;> exact read_stuck checks _ _ K _ rfl

/-- Inside of an object the position of an element of an array leads nowhere. -/
theorem dead_map (R : Text) (h : MapFollow R) (K : Stack) : (readFrom checks ⟨R, false, K, .seqElem⟩).res = .panic := by
  obtain ⟨w, r, hw, rfl | ⟨y, ys, t, ht, rfl⟩⟩ := h
  · rw [read_ws _ _ _ hw]
    exact read_stuck checks _ _ K _ rfl
  · rw [read_ws _ _ _ hw, read_comma_seq, pre_res]
    obtain ⟨key, y⟩ := y
    have key : ∃ w k' w1 R, Ws w ∧ StrLit k' key ∧ Ws w1 ∧ t ++ '}' :: r = w ++ ('"' :: (k' ++ '"' :: (w1 ++ ':' :: R))) := by
      cases ys with
      | nil =>
        simp only [Members] at ht
        obtain ⟨w, k', w1, w2, u, w', hw, hk, hw1, hw2, hu, hw', rfl⟩ := ht
        exact ⟨w, k', w1, _, hw, hk, hw1, by simp; rfl⟩
      | cons z zs =>
        simp only [Members] at ht
        obtain ⟨w, k', w1, w2, u, w', r', hw, hk, hw1, hw2, hu, hw', hr', rfl⟩ := ht
        exact ⟨w, k', w1, _, hw, hk, hw1, by simp; rfl⟩
    obtain ⟨w, k', w1, R, hw, hk, hw1, e⟩ := key
    rw [e, read_ws _ _ _ hw]
    rcases begin_str checks k' _ hk (w1 ++ ':' :: R) K .seqElem .seqElem [.seqValueBegin] (fun t => rfl) with ⟨v, -, -, -, f3⟩ | h
    · rw [f3, pre_res, read_ws _ _ _ hw1]
      exact read_stuck checks _ _ K _ rfl
    · exact h.2

theorem elem_scalar (K : Stack) (Q : J → Bool) (j : J) (hQ : Q j = true) (h : Scalar checks j) : ElemTo checks K Q j := by
  intro u hu p r hp hr
  have hpast : past p = .seqElem := by rcases hp with rfl | rfl <;> rfl
  have hbeg : begins p = [.seqValueBegin] := by rcases hp with rfl | rfl <;> rfl
  rcases h u hu K [.seq] p r (by rcases hp with rfl | rfl <;> exact ⟨[], rfl⟩) hr.value with ⟨v, h1, h2, h3, h4⟩ | h
  · exact .inl ⟨v, hQ, h1, h2, h3, by rw [h4, hpast, hbeg]; rfl⟩
  · exact .inr (.inl h)

theorem member_scalar (K : Stack) (Q : J → Bool) (j : J) (hQ : Q j = true) (h : Scalar checks j) : MemberTo checks K Q j := by
  intro u hu r hr
  rcases h u hu K [.map] .mapValue r ⟨[], rfl⟩ hr.value with ⟨v, h1, h2, h3, h4⟩ | h
  · exact .inl ⟨v, hQ, h1, h2, h3, h4⟩
  · exact .inr (.inl h)

/-- In an array at the brim only values without brackets can be read. -/
theorem elem_full (K : Stack) (hK : FullMap K) (j : J) : ElemTo false K flat j := by
  induction j using J.ind with
  | null => exact elem_scalar _ _ _ _ rfl (reads_scalar _ _ rfl)
  | bool b => exact elem_scalar _ _ _ _ rfl (reads_scalar _ _ rfl)
  | num q => exact elem_scalar _ _ _ _ rfl (reads_scalar _ _ rfl)
  | str s => exact elem_scalar _ _ _ _ rfl (reads_scalar _ _ rfl)
  | arr xs ih =>
    intro u hu p r hp hr
    have hat : At p [.seq] := by rcases hp with rfl | rfl <;> exact ⟨[], rfl⟩
    simp only [Val] at hu
    obtain ⟨x, hx, rfl⟩ := hu
    have e1 : '[' :: (x ++ [']']) ++ r = '[' :: (x ++ ']' :: r) := by simp
    refine .inr (.inr ⟨rfl, ?_⟩)
    rw [e1, hK.seq_begin _ _ p hat, pre_res]
    have hd := dead_seq false r hr K
    cases xs with
    | nil =>
      simp only [Elems] at hx
      rw [read_ws _ _ _ hx, hK.ends r [] .seqEmpty (by intro s hs; simp only [lastElem, hs]; rfl), pre_res, hK.position, hd]
      nofun
    | cons y ys =>
      rcases reads_elems false K K hK.ends flat (y :: ys) (by simp) ih x hx .seqEmpty (.inl rfl) r with
        ⟨vs, -, -, -, -, k⟩ | ⟨-, k⟩ | ⟨-, k⟩
      · rw [k, pre_res, hK.position, hd]; nofun
      · rw [k]; nofun
      · exact k
  | obj xs ih =>
    intro u hu p r hp hr
    have hat : At p [.seq] := by rcases hp with rfl | rfl <;> exact ⟨[], rfl⟩
    simp only [Val] at hu
    obtain ⟨x, hx, rfl⟩ := hu
    exact .inr (.inr ⟨rfl, hK.map_refused _ _ p hat⟩)

/-- In an object at the brim only values without brackets can be read. -/
theorem member_full (K : Stack) (hK : FullSeq K) (j : J) : MemberTo false K flat j := by
  induction j using J.ind with
  | null => exact member_scalar _ _ _ _ rfl (reads_scalar _ _ rfl)
  | bool b => exact member_scalar _ _ _ _ rfl (reads_scalar _ _ rfl)
  | num q => exact member_scalar _ _ _ _ rfl (reads_scalar _ _ rfl)
  | str s => exact member_scalar _ _ _ _ rfl (reads_scalar _ _ rfl)
  | arr xs ih =>
    intro u hu r hr
    simp only [Val] at hu
    obtain ⟨x, hx, rfl⟩ := hu
    exact .inr (.inr ⟨rfl, hK.seq_refused _ [.map] .mapValue ⟨[], rfl⟩⟩)
  | obj xs ih =>
    intro u hu r hr
    simp only [Val] at hu
    obtain ⟨x, hx, rfl⟩ := hu
    have e1 : '{' :: (x ++ ['}']) ++ r = '{' :: (x ++ '}' :: r) := by simp
    refine .inr (.inr ⟨rfl, ?_⟩)
    rw [e1, hK.map_begin _ [.map] .mapValue ⟨[], rfl⟩, pre_res]
    have hd := dead_map false r hr K
    cases xs with
    | nil =>
      simp only [Members] at hx
      rw [read_ws _ _ _ hx, hK.ends r [] .mapEmpty (by intro s hs; simp only [lastEntry, hs]; rfl), pre_res, hK.position, hd]
      nofun
    | cons y ys =>
      rcases reads_members false K K hK.ends flat (y :: ys) (by simp) ih x hx .mapEmpty (.inl rfl) r with
        ⟨vs, -, -, -, -, k⟩ | ⟨-, k⟩ | ⟨-, k⟩
      · rw [k, pre_res, hK.position, hd]; nofun
      · rw [k]; nofun
      · exact k

/-! ## Documents -/

theorem seqEnds (st : List Kind) (hl : (enc st).map + (enc st).seq + 1 < 2 ^ 64) : SeqEnds checks (enc (.seq :: st)) (enc st) := by
  intro r b p hb
  rw [enc_position]
  exact read_seq_end checks r st hl b p hb

theorem mapEnds (st : List Kind) (hl : (enc st).map + (enc st).seq + 1 < 2 ^ 64) : MapEnds checks (enc (.map :: st)) (enc st) := by
  intro r b p hb
  rw [enc_position]
  exact read_map_end checks r st hl b p hb

/-- What reading does to a value in front of other text. -/
def ReadsTo (j : J) : Prop :=
  ∀ u, Val j u → ∀ (st : List Kind) (p : Position) (r : Text), At p st → (enc st).map < 2 ^ 64 → (enc st).seq < 2 ^ 64 → VFollow r →
    (∃ v, holds checks (enc st).map (enc st).seq j = true ∧ Tree j v ∧ plain false (u ++ r) = plain false r ∧
      squeeze false (u ++ r) = spell v ++ squeeze false r ∧
      readFrom checks ⟨u ++ r, false, enc st, p⟩ =
        (readFrom checks ⟨r, false, enc st, past p⟩).pre (begins p ++ toks v)) ∨
    (plain false (u ++ r) = false ∧ (readFrom checks ⟨u ++ r, false, enc st, p⟩).res = .panic) ∨
    (holds checks (enc st).map (enc st).seq j = false ∧ (readFrom checks ⟨u ++ r, false, enc st, p⟩).res ≠ .ok ())

theorem reads_flat (j : J) (hj : flat j = true) (hh : ∀ m n, holds checks m n j = true) : ReadsTo checks j := by
  intro u hu st p r hp _ _ hr
  rcases reads_scalar checks j hj u hu (enc st) st p r hp hr with ⟨v, h1, h2, h3, h4⟩ | h
  · exact .inl ⟨v, hh _ _, h1, h2, h3, h4⟩
  · exact .inr (.inl h)

/-- Elements in an array as values. -/
theorem ReadsTo.elem {j : J} (h : ReadsTo checks j) (st : List Kind) (hs : (enc (.seq :: st)).map < 2 ^ 64 ∧ (enc (.seq :: st)).seq < 2 ^ 64) :
    ElemTo checks (enc (.seq :: st)) (holds checks (enc (.seq :: st)).map (enc (.seq :: st)).seq) j := by
  intro u hu p r hp hr
  have hpast : past p = .seqElem := by rcases hp with rfl | rfl <;> rfl
  have hbeg : begins p = [.seqValueBegin] := by rcases hp with rfl | rfl <;> rfl
  have := h u hu (.seq :: st) p r (by rcases hp with rfl | rfl <;> exact ⟨st, rfl⟩) hs.1 hs.2 hr.value
  rwa [hpast, hbeg] at this

theorem ReadsTo.member {j : J} (h : ReadsTo checks j) (st : List Kind) (hs : (enc (.map :: st)).map < 2 ^ 64 ∧ (enc (.map :: st)).seq < 2 ^ 64) :
    MemberTo checks (enc (.map :: st)) (holds checks (enc (.map :: st)).map (enc (.map :: st)).seq) j :=
  fun u hu r hr => h u hu (.map :: st) .mapValue r ⟨st, rfl⟩ hs.1 hs.2 hr.value

theorem holdss_all (m n : Nat) (xs : List J) : holdss checks m n xs = xs.all (holds checks m n) := by
  induction xs with
  | nil => rfl
  | cons x xs ih => rw [holdss, List.all_cons, ih]

theorem holdsM_all (m n : Nat) (xs : List (Text × J)) : holdsM checks m n xs = xs.all (fun x => holds checks m n x.2) := by
  induction xs with
  | nil => rfl
  | cons x xs ih => obtain ⟨k, x⟩ := x; rw [holdsM, List.all_cons, ih]

/-- Without room the counters refuse, but for what does not change them. -/
theorem read_seq_none (r : Text) (st : List Kind) (p : Position) (h : At p st) (hs : (enc st).map < 2 ^ 64)
    (hl : ¬ (enc st).map + (enc st).seq + 1 < 2 ^ 64) (hc : ¬ (checks = false ∧ (enc st).map + 1 = 2 ^ 64)) :
    (readFrom checks ⟨'[' :: r, false, enc st, p⟩).res ≠ .ok () := by
  cases checks with
  | true => exact read_seq_refused true r st p h hl rfl
  | false =>
    have e : Stack.succ false (enc st).map = some (1 + (enc st).map) := succ_fits false _ (by
      have : (enc st).map + 1 ≠ 2 ^ 64 := fun e => hc ⟨rfl, e⟩
      omega)
    have : Stack.pushSeq false (enc st) = .err () (enc st) := by
      rw [Stack.pushSeq, Stack.change, e]; simp only [Stack.add]; rw [if_neg (by omega)]; rfl
    rw [readFrom_scan]
    simp only [scan, goOn_next, seqBegin, h.nestedBegin, bind_def]
    simp only [act_pure, pre_bind, pure_bind, this, ofRes]
    exact (nofun : End.err ≠ End.ok ())

theorem read_map_none (r : Text) (st : List Kind) (p : Position) (h : At p st) (hs : (enc st).seq < 2 ^ 64)
    (hl : ¬ (enc st).map + (enc st).seq + 1 < 2 ^ 64) (hc : ¬ (checks = false ∧ (enc st).seq + 1 = 2 ^ 64)) :
    (readFrom checks ⟨'{' :: r, false, enc st, p⟩).res ≠ .ok () := by
  cases checks with
  | true => exact read_map_refused true r st p h hl rfl
  | false =>
    have e : Stack.succ false (enc st).seq = some (1 + (enc st).seq) := succ_fits false _ (by
      have : (enc st).seq + 1 ≠ 2 ^ 64 := fun e => hc ⟨rfl, e⟩
      omega)
    have : Stack.pushMap false (enc st) = .err () (enc st) := by
      rw [Stack.pushMap, Stack.change, e]; simp only [Stack.add]; rw [if_neg (by omega)]; rfl
    rw [readFrom_scan]
    simp only [scan, goOn_next, mapBegin, h.nestedBegin, bind_def]
    simp only [act_pure, pre_bind, pure_bind, this, ofRes]
    exact (nofun : End.err ≠ End.ok ())

theorem full_map_gt (st : List Kind) (hf : (enc st).map + 1 = 2 ^ 64) (hs : (enc st).seq < 2 ^ 64) : (enc st).seq < (enc st).map := by
  cases st with
  | nil => exact absurd hf (by decide)
  | cons c st =>
    cases c with
    | map => simp only [enc]; omega
    | seq => simp only [enc] at hf hs; omega

theorem full_seq_gt (st : List Kind) (hf : (enc st).seq + 1 = 2 ^ 64) (hs : (enc st).map < 2 ^ 64) : (enc st).map < (enc st).seq := by
  cases st with
  | nil => exact absurd hf (by decide)
  | cons c st =>
    cases c with
    | map => simp only [enc] at hf hs; omega
    | seq => simp only [enc]; omega

theorem reads_to (j : J) : ReadsTo checks j := by
  induction j using J.ind with
  | null => exact reads_flat checks _ rfl (fun _ _ => rfl)
  | bool b => exact reads_flat checks _ rfl (fun _ _ => rfl)
  | num q => exact reads_flat checks _ rfl (fun _ _ => rfl)
  | str s => exact reads_flat checks _ rfl (fun _ _ => rfl)
  | arr xs ih =>
    intro u hu st p r hp hs1 hs2 _
    simp only [Val] at hu
    obtain ⟨x, hx, rfl⟩ := hu
    have e1 : '[' :: (x ++ [']']) ++ r = '[' :: (x ++ ']' :: r) := by simp
    -- the inside, for counters inside and what can be read there
    have key : ∀ (K : Stack) (Q : J → Bool), SeqEnds checks K (enc st) → (∀ x ∈ xs, ElemTo checks K Q x) →
        readFrom checks ⟨'[' :: (x ++ ']' :: r), false, enc st, p⟩ =
          (readFrom checks ⟨x ++ ']' :: r, false, K, .seqEmpty⟩).pre (begins p ++ [.seqBegin none]) →
        holds checks (enc st).map (enc st).seq (.arr xs) = xs.all Q →
        (∃ v, holds checks (enc st).map (enc st).seq (.arr xs) = true ∧ Tree (.arr xs) v ∧
          plain false ('[' :: (x ++ ']' :: r)) = plain false r ∧
          squeeze false ('[' :: (x ++ ']' :: r)) = spell v ++ squeeze false r ∧
          readFrom checks ⟨'[' :: (x ++ ']' :: r), false, enc st, p⟩ =
            (readFrom checks ⟨r, false, enc st, past p⟩).pre (begins p ++ toks v)) ∨
        (plain false ('[' :: (x ++ ']' :: r)) = false ∧ (readFrom checks ⟨'[' :: (x ++ ']' :: r), false, enc st, p⟩).res = .panic) ∨
        (holds checks (enc st).map (enc st).seq (.arr xs) = false ∧
          (readFrom checks ⟨'[' :: (x ++ ']' :: r), false, enc st, p⟩).res ≠ .ok ()) := by
      intro K Q hK hQ hb hh
      rw [hb, hh, not_num_plain (by decide) (by decide), squeeze_one _ (by decide) (by decide), ← hp.innermost, ← enc_position]
      cases xs with
      | nil =>
        left
        simp only [Elems] at hx
        refine ⟨.seq none [], rfl, ⟨[], rfl, rfl⟩, ?_, ?_, ?_⟩
        · rw [plain_ws _ _ hx, not_num_plain (by decide) (by decide)]
        · rw [squeeze_ws _ _ hx, squeeze_one _ (by decide) (by decide)]
          rfl
        · rw [read_ws _ _ _ hx, hK r [] .seqEmpty (by intro s hs; simp only [lastElem, hs]; rfl)]
          simp [toks, toksSeq]
      | cons y ys =>
        rcases reads_elems checks K (enc st) hK Q (y :: ys) (by simp) hQ x hx .seqEmpty (.inl rfl) r with
          ⟨vs, k0, k1, k2, k4, k3⟩ | ⟨k1, k2⟩ | ⟨k1, k2⟩
        · left
          refine ⟨.seq none vs, k0, ⟨vs, rfl, k1⟩, k2, by rw [k4]; simp [spell, brackets], ?_⟩
          rw [k3]
          simp [toks]
        · exact .inr (.inl ⟨k1, by simpa using k2⟩)
        · exact .inr (.inr ⟨k1, by simpa using k2⟩)
    rw [e1]
    by_cases hf : checks = false ∧ (enc st).map + 1 = 2 ^ 64
    · obtain ⟨rfl, hf⟩ := hf
      have hst := full_map_gt st hf hs2
      have hK := fullMap hf hst
      exact key (enc st) flat hK.ends (fun x _ => elem_full _ hK x) (hK.seq_begin _ st p hp)
        (by rw [holds, if_pos ⟨rfl, hf⟩])
    · by_cases hl : (enc st).map + (enc st).seq + 1 < 2 ^ 64
      · refine key (enc (.seq :: st)) _ (seqEnds checks st hl) (fun x hx => (ih x hx).elem checks st ?_)
          (read_seq_begin checks _ st p hp hl) ?_
        · simp only [enc]; omega
        · rw [holds, if_neg hf, decide_eq_true hl, Bool.true_and, ← holdss_all]; rfl
      · exact .inr (.inr ⟨by rw [holds, if_neg hf, decide_eq_false hl, Bool.false_and], read_seq_none checks _ st p hp hs1 hl hf⟩)
  | obj xs ih =>
    intro u hu st p r hp hs1 hs2 _
    simp only [Val] at hu
    obtain ⟨x, hx, rfl⟩ := hu
    have e1 : '{' :: (x ++ ['}']) ++ r = '{' :: (x ++ '}' :: r) := by simp
    have key : ∀ (K : Stack) (Q : J → Bool), MapEnds checks K (enc st) → (∀ x ∈ xs, MemberTo checks K Q x.2) →
        readFrom checks ⟨'{' :: (x ++ '}' :: r), false, enc st, p⟩ =
          (readFrom checks ⟨x ++ '}' :: r, false, K, .mapEmpty⟩).pre (begins p ++ [.mapBegin none]) →
        holds checks (enc st).map (enc st).seq (.obj xs) = xs.all (fun x => Q x.2) →
        (∃ v, holds checks (enc st).map (enc st).seq (.obj xs) = true ∧ Tree (.obj xs) v ∧
          plain false ('{' :: (x ++ '}' :: r)) = plain false r ∧
          squeeze false ('{' :: (x ++ '}' :: r)) = spell v ++ squeeze false r ∧
          readFrom checks ⟨'{' :: (x ++ '}' :: r), false, enc st, p⟩ =
            (readFrom checks ⟨r, false, enc st, past p⟩).pre (begins p ++ toks v)) ∨
        (plain false ('{' :: (x ++ '}' :: r)) = false ∧ (readFrom checks ⟨'{' :: (x ++ '}' :: r), false, enc st, p⟩).res = .panic) ∨
        (holds checks (enc st).map (enc st).seq (.obj xs) = false ∧
          (readFrom checks ⟨'{' :: (x ++ '}' :: r), false, enc st, p⟩).res ≠ .ok ()) := by
      intro K Q hK hQ hb hh
      rw [hb, hh, not_num_plain (by decide) (by decide), squeeze_one _ (by decide) (by decide), ← hp.innermost, ← enc_position]
      cases xs with
      | nil =>
        left
        simp only [Members] at hx
        refine ⟨.map none [], rfl, ⟨[], rfl, rfl⟩, ?_, ?_, ?_⟩
        · rw [plain_ws _ _ hx, not_num_plain (by decide) (by decide)]
        · rw [squeeze_ws _ _ hx, squeeze_one _ (by decide) (by decide)]
          rfl
        · rw [read_ws _ _ _ hx, hK r [] .mapEmpty (by intro s hs; simp only [lastEntry, hs]; rfl)]
          simp [toks, toksMap]
      | cons y ys =>
        rcases reads_members checks K (enc st) hK Q (y :: ys) (by simp) hQ x hx .mapEmpty (.inl rfl) r with
          ⟨vs, k0, k1, k2, k4, k3⟩ | ⟨k1, k2⟩ | ⟨k1, k2⟩
        · left
          refine ⟨.map none vs, k0, ⟨vs, rfl, k1⟩, k2, by rw [k4]; simp [spell, braces], ?_⟩
          rw [k3]
          simp [toks]
        · exact .inr (.inl ⟨k1, by simpa using k2⟩)
        · exact .inr (.inr ⟨k1, by simpa using k2⟩)
    rw [e1]
    by_cases hf : checks = false ∧ (enc st).seq + 1 = 2 ^ 64
    · obtain ⟨rfl, hf⟩ := hf
      have hst := full_seq_gt st hf hs1
      have hK := fullSeq hf hst
      exact key (enc st) flat hK.ends (fun x _ => member_full _ hK x.2) (hK.map_begin _ st p hp)
        (by rw [holds, if_pos ⟨rfl, hf⟩])
    · by_cases hl : (enc st).map + (enc st).seq + 1 < 2 ^ 64
      · refine key (enc (.map :: st)) _ (mapEnds checks st hl) (fun x hx => (ih x hx).member checks st ?_)
          (read_map_begin checks _ st p hp hl) ?_
        · simp only [enc]; omega
        · rw [holds, if_neg hf, decide_eq_true hl, Bool.true_and, ← holdsM_all]; rfl
      · exact .inr (.inr ⟨by rw [holds, if_neg hf, decide_eq_false hl, Bool.false_and], read_map_none checks _ st p hp hs2 hl hf⟩)

/-- Reading a document. -/
theorem read_doc_exact (j : J) (t : Text) (h : Doc j t) :
    (∃ v, holds checks 0 0 j = true ∧ Tree j v ∧ plain false t = true ∧ squeeze false t = spell v ∧ read checks t = ⟨toks v, .ok ()⟩) ∨
    (plain false t = false ∧ (read checks t).res = .panic) ∨
    (holds checks 0 0 j = false ∧ (read checks t).res ≠ .ok ()) := by
  obtain ⟨w, u, w', hw, hu, hw', rfl⟩ := h
  have hn : (St.new (w ++ (u ++ w'))) = ⟨w ++ (u ++ w'), false, enc [], .root⟩ := rfl
  rw [read_eq, hn, plain_ws _ _ hw, squeeze_ws _ _ hw, read_ws _ _ _ hw]
  have hp : plain false w' = true := by
    have := plain_ws w' [] hw'
    rw [List.append_nil] at this
    rw [this]; rfl
  have hq : squeeze false w' = [] := by
    have := squeeze_ws w' [] hw'
    rw [List.append_nil] at this
    rw [this]; rfl
  rcases reads_to checks j u hu [] .root w' rfl (by decide) (by decide)
    (by have := VFollow.ws hw' (r := []) (by intro c hc; cases hc); rwa [List.append_nil] at this) with
    ⟨v, g0, g1, g2, g4, g3⟩ | h | h
  · left
    refine ⟨v, g0, g1, by rw [g2, hp], by rw [g4, hq, List.append_nil], ?_⟩
    rw [g3]
    have := read_ws checks w' [] hw' (enc []) (past .root)
    rw [List.append_nil] at this
    rw [this]
    show Act.pre (toks v) _ = _
    have : readFrom checks ⟨[], false, enc [], past .root⟩ = .pure () := rfl
    rw [this]
    simp [Act.pre, Act.pure]
  · exact .inr (.inl h)
  · exact .inr (.inr h)

theorem holds_room (j : J) : ∀ m n, (room m n j = true → m < 2 ^ 64 → n < 2 ^ 64 → holds checks m n j = true) ∧ holds true m n j = room m n j := by
  induction j using J.ind with
  | null => exact fun _ _ => ⟨fun _ _ _ => rfl, rfl⟩
  | bool b => exact fun _ _ => ⟨fun _ _ _ => rfl, rfl⟩
  | num q => exact fun _ _ => ⟨fun _ _ _ => rfl, rfl⟩
  | str s => exact fun _ _ => ⟨fun _ _ _ => rfl, rfl⟩
  | arr xs ih =>
    intro m n
    have h1 : ∀ m n, m < 2 ^ 64 → n < 2 ^ 64 → rooms m n xs = true → holdss checks m n xs = true := by
      intro m n hm hn
      induction xs with
      | nil => exact fun _ => rfl
      | cons x xs ihx =>
        simp only [rooms, holdss, Bool.and_eq_true]
        exact fun h => ⟨(ih x (.head _) m n).1 h.1 hm hn, ihx (fun y hy => ih y (.tail _ hy)) h.2⟩
    have h2 : ∀ m n, holdss true m n xs = rooms m n xs := by
      intro m n
      clear h1
      induction xs with
      | nil => rfl
      | cons x xs ihx => rw [rooms, holdss, (ih x (.head _) m n).2, ihx (fun y hy => ih y (.tail _ hy))]
    simp only [room, holds, Bool.and_eq_true, decide_eq_true_eq]
    refine ⟨fun h hm hn => ?_, by rw [if_neg (by simp), h2]⟩
    rw [if_neg (by omega), decide_eq_true h.1, Bool.true_and]
    exact h1 _ _ (by omega) (by omega) h.2
  | obj xs ih =>
    intro m n
    have h1 : ∀ m n, m < 2 ^ 64 → n < 2 ^ 64 → roomsM m n xs = true → holdsM checks m n xs = true := by
      intro m n hm hn
      induction xs with
      | nil => exact fun _ => rfl
      | cons x xs ihx =>
        simp only [roomsM, holdsM, Bool.and_eq_true]
        exact fun h => ⟨(ih x (.head _) m n).1 h.1 hm hn, ihx (fun y hy => ih y (.tail _ hy)) h.2⟩
    have h2 : ∀ m n, holdsM true m n xs = roomsM m n xs := by
      intro m n
      clear h1
      induction xs with
      | nil => rfl
      | cons x xs ihx => rw [roomsM, holdsM, (ih x (.head _) m n).2, ihx (fun y hy => ih y (.tail _ hy))]
    simp only [room, holds, Bool.and_eq_true, decide_eq_true_eq]
    refine ⟨fun h hm hn => ?_, by rw [if_neg (by simp), h2]⟩
    rw [if_neg (by omega), decide_eq_true h.1, Bool.true_and]
    exact h1 _ _ (by omega) (by omega) h.2

/-- Reading a document, in terms of `room`. -/
theorem read_doc (j : J) (t : Text) (h : Doc j t) :
    (∃ v, room 0 0 j = true ∧ Tree j v ∧ plain false t = true ∧ squeeze false t = spell v ∧ read checks t = ⟨toks v, .ok ()⟩) ∨
    (plain false t = false ∧ (read checks t).res = .panic) ∨
    (room 0 0 j = false ∧ (checks = true → (read checks t).res ≠ .ok ())) := by
  rcases read_doc_exact checks j t h with ⟨v, h0, h1⟩ | h | ⟨h0, h1⟩
  · cases hr : room 0 0 j with
    | true => exact .inl ⟨v, rfl, h1⟩
    | false =>
      refine .inr (.inr ⟨rfl, fun hc => ?_⟩)
      subst hc
      rw [(holds_room true j 0 0).2, hr] at h0
      cases h0
  · exact .inr (.inl h)
  · refine .inr (.inr ⟨?_, fun _ => h1⟩)
    cases hr : room 0 0 j with
    | true => rw [(holds_room checks j 0 0).1 hr (by decide) (by decide)] at h0; cases h0
    | false => rfl

/-- There is room for every document that is not nested deeper than 91. -/
theorem nesting_room (j : J) : ∀ st : List Kind, st.length + nesting j ≤ 91 → room (enc st).map (enc st).seq j = true := by
  induction j using J.ind with
  | arr xs ih =>
    intro st h
    simp only [nesting] at h
    rw [room, decide_eq_true (room_fits st (by omega)), Bool.true_and]
    show rooms (enc (.seq :: st)).map (enc (.seq :: st)).seq xs = true
    have h' : (Kind.seq :: st).length + nestings xs ≤ 91 := by simp only [List.length_cons]; omega
    clear h
    generalize Kind.seq :: st = st at h'
    induction xs with
    | nil => rfl
    | cons x xs ihx =>
      simp only [nestings] at h'
      rw [rooms, ih x (by simp) st (by omega), ihx (fun y hy => ih y (by simp [hy])) (by omega)]
      rfl
  | obj xs ih =>
    intro st h
    simp only [nesting] at h
    rw [room, decide_eq_true (room_fits st (by omega)), Bool.true_and]
    show roomsM (enc (.map :: st)).map (enc (.map :: st)).seq xs = true
    have h' : (Kind.map :: st).length + nestingsM xs ≤ 91 := by simp only [List.length_cons]; omega
    clear h
    generalize Kind.map :: st = st at h'
    induction xs with
    | nil => rfl
    | cons x xs ihx =>
      simp only [nestingsM] at h'
      rw [roomsM, ih x (by simp) st (by omega), ihx (fun y hy => ih y (by simp [hy])) (by omega)]
      rfl
  | _ => intros; rfl

end

end Sval.Reader
