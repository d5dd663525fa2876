import Verif.Json.Spec
import Verif.Core.LowerLemmas

set_option autoImplicit false

/-!
# Running the formatter on parts of values
-/

namespace Sval.Json

variable (env : Env)

theorem ixI64_eq (i : Option Index) :
    ixI64 i = i.bind fun i => if -2 ^ 63 ≤ i.val ∧ i.val ≤ 2 ^ 63 - 1 then some i.val else none := by
  cases i with
  | none => rfl
  | some i =>
    simp only [ixI64, Option.bind_some, Index.toTy]
    have h1 : castI128 (IxTy.i64.min 64) = -2 ^ 63 := by decide +kernel
    have h2 : castI128 (IxTy.i64.max 64) = 2 ^ 63 - 1 := by decide +kernel
    rw [h1, h2]
    by_cases h : -2 ^ 63 ≤ i.val ∧ i.val ≤ 2 ^ 63 - 1
    · rw [if_pos h, if_pos h]
      congr 1
      simp only [asInt, IxTy.signed, IxTy.bits, true_and]
      split <;> omega
    · rw [if_neg h, if_neg h]

theorem idOf_eq (m : Meta) : idOf m = match m.label with
    | some l => some l.text
    | none => (ixI64 m.index).map intDec := by
  rw [idOf, ixI64_eq]
  cases m.label with
  | some l => rfl
  | none =>
    cases m.index with
    | none => rfl
    | some i => simp only [Option.bind_some]; split <;> rfl

theorem hasId_eq (m : Meta) : (m.label.isSome || (ixI64 m.index).isSome) = (idOf m).isSome := by
  rw [idOf_eq]
  cases m.label with
  | some l => rfl
  | none => cases ixI64 m.index <;> rfl

/-! ## Digits need no escaping -/

theorem digit_raw {c : Char} (h : isDigit c = true) : rawOk c = true := by
  simp only [isDigit, Bool.and_eq_true, decide_eq_true_eq] at h
  have h1 : c ≠ '"' := by rintro rfl; revert h; decide
  have h2 : c ≠ '\\' := by rintro rfl; revert h; decide
  simp [rawOk, h1, h2]; omega

theorem digits_raw {t : Text} (h : t.all isDigit = true) : t.all rawOk = true := by
  simp only [List.all_eq_true] at h ⊢
  exact fun c hc => digit_raw (h c hc)

theorem num_raw (n : Num) (h : n.IsNumber) : n.text.all rawOk = true := by
  obtain ⟨h1, h2, h3, h4⟩ := h
  simp only [Num.text, List.all_append, Bool.and_eq_true]
  refine ⟨?_, digits_raw h2.2, ?_, ?_⟩
  · rcases h1 with h | h | h <;> rw [h] <;> rfl
  · cases hf : n.frac with
    | none => rfl
    | some d => simp only [Num.fracText, List.all_cons, digits_raw (h3 d hf).2]; rfl
  · cases he : n.exp with
    | none => rfl
    | some e =>
      obtain ⟨c, s, d⟩ := e
      obtain ⟨h1, h2, h3⟩ := h4 c s d he
      simp only [Num.expText, List.all_cons, List.all_append, digits_raw h3.2, Bool.and_true]
      rcases h1 with rfl | rfl <;> rcases h2 with rfl | rfl | rfl <;> rfl

theorem IsJson.isNumber {n : Num} (h : n.IsJson) : n.IsNumber :=
  ⟨by rcases h.1 with h | h <;> simp [h], h.2.1, h.2.2.2.1, h.2.2.2.2⟩

theorem intDec_num (v : Int) : ∃ n : Num, n.IsJson ∧ n.text = intDec v ∧ n.val = v := by
  have hd : Num.IsDigits (natDec v.natAbs) := ⟨natDec_ne_nil _, natDec_digits _⟩
  have hz : (natDec v.natAbs).head? = some '0' → natDec v.natAbs = ['0'] := by
    intro h
    by_cases h0 : v.natAbs = 0
    · rw [h0]; exact natDec_zero
    · exact absurd h (natDec_head _ h0)
  have hf : Num.FracOk none := by intro d h; cases h
  have he : Num.ExpOk none := by intro c s d h; cases h
  by_cases h : v < 0
  · refine ⟨{ sign := ['-'], int := natDec v.natAbs, frac := none, exp := none }, ⟨.inr rfl, hd, hz, hf, he⟩, ?_, ?_⟩
    · simp [Num.text, intDec, h, Num.fracText, Num.expText]
    · simp only [Num.val, Option.getD_none, List.append_nil, digitsVal_natDec, Num.expVal, if_true, List.length_nil]
      have : (v.natAbs : Int) = -v := by omega
      have h' : ((v.natAbs : Nat) : Rat) = ((v.natAbs : Int) : Rat) := rfl
      rw [h', this]
      simp [Rat.neg_mul, Rat.neg_neg]
  · refine ⟨{ sign := [], int := natDec v.natAbs, frac := none, exp := none }, ⟨.inl rfl, hd, hz, hf, he⟩, ?_, ?_⟩
    · simp [Num.text, intDec, h, Num.fracText, Num.expText]
    · simp only [Num.val, Option.getD_none, List.append_nil, digitsVal_natDec, Num.expVal, List.length_nil]
      have : (v.natAbs : Int) = v := by omega
      have h' : ((v.natAbs : Nat) : Rat) = ((v.natAbs : Int) : Rat) := rfl
      rw [h', this]
      simp

theorem intDec_raw (v : Int) : (intDec v).all rawOk = true := by
  obtain ⟨n, h, ht, _⟩ := intDec_num v
  rw [← ht]; exact num_raw n (IsJson.isNumber h)

theorem intDec_val (v : Int) : Val (.num v) (intDec v) := by
  obtain ⟨n, h, ht, hv⟩ := intDec_num v
  exact ⟨n, h, ht, hv⟩

theorem numOf_sound {t : Text} {j : J} (h : numOf t = some j) : Val j t ∧ t.all rawOk = true := by
  unfold numOf at h
  split at h
  · rename_i n hn
    cases h
    obtain ⟨h1, h2⟩ := pNum_sound t n [] hn
    rw [List.append_nil] at h2
    exact ⟨⟨n, h1, h2.symm, rfl⟩, by rw [h2]; exact num_raw n (IsJson.isNumber h1)⟩
  · cases h

theorem strOf_sound {t s : Text} (h : strOf t = some s) : StrLit t s := by
  unfold strOf at h
  split at h
  · rename_i s' hs
    cases h
    obtain ⟨u, h1, h2⟩ := pStr_sound _ _ _ _ hs
    have := List.append_cancel_right h2
    rwa [this]
  · cases h

theorem pNumber_sound {t : Text} {n : Num} (h : pNumber t = some n) : n.IsNumber ∧ n.text = t := by
  unfold pNumber at h
  simp only at h
  split at h
  · cases h
  · rename_i hd
    split at h
    · cases h
    · rename_i f r hf
      split at h
      · rename_i e he
        cases h
        obtain ⟨h1, h2⟩ := pExpSign_sound t
        obtain ⟨h3, h4⟩ := pFrac_sound _ _ _ hf
        obtain ⟨h5, h6⟩ := pExp_sound _ _ _ he
        refine ⟨⟨h1, ⟨hd, takeWhile_all _ _⟩, h3, h5⟩, ?_⟩
        rw [List.append_nil] at h6
        simp only [Num.text]
        rw [← h6, ← h4, List.takeWhile_append_dropWhile, ← h2]
      · cases h

theorem zeroExp_iff {t : Text} {n : Num} (h : pNumber t = some n) : zeroExp t = true ↔ n.ZeroExp := by
  simp only [zeroExp, h, Num.ZeroExp, Bool.and_eq_true, Option.isNone_iff_eq_none, Option.isSome_iff_ne_none, and_assoc]

theorem lowerC_special {c : Char} (h : lowerC c = 'n' ∨ lowerC c = 's' ∨ lowerC c = 'i') : isSpecial c = true := by
  by_cases hc : 65 ≤ c.toNat ∧ c.toNat ≤ 90
  · have : ∀ n, 65 ≤ n → n ≤ 90 → (lowerC (Char.ofNat n) = 'n' ∨ lowerC (Char.ofNat n) = 's' ∨ lowerC (Char.ofNat n) = 'i') →
        isSpecial (Char.ofNat n) = true := by
      have : ∀ n ≤ 90, 65 ≤ n → (lowerC (Char.ofNat n) = 'n' ∨ lowerC (Char.ofNat n) = 's' ∨ lowerC (Char.ofNat n) = 'i') →
        isSpecial (Char.ofNat n) = true := by decide +kernel
      exact fun n h1 h2 => this n h2 h1
    have h' := this c.toNat hc.1 hc.2
    rw [ofNat_toNat] at h'
    exact h' h
  · simp only [lowerC, hc, if_false] at h
    rcases h with rfl | rfl | rfl <;> rfl

theorem isNan_split {t : Text} (h : isNan t = true) :
    ∃ a c r, t = a ++ c :: r ∧ a.all isLead = true ∧ isSpecial c = true := by
  obtain ⟨h1, h2⟩ := pExpSign_sound t
  have ha : (pExpSign t).1.all isLead = true := by
    rcases h1 with h | h | h <;> rw [h] <;> rfl
  simp only [isNan, decide_eq_true_eq] at h
  cases hr : (pExpSign t).2 with
  | nil => rw [hr] at h; simp at h
  | cons c r =>
    refine ⟨(pExpSign t).1, c, r, by rw [← hr]; exact h2, ha, ?_⟩
    rw [hr] at h
    apply lowerC_special
    simp only [List.map_cons, List.mem_cons, List.not_mem_nil, or_false, List.cons.injEq] at h
    rcases h with h | h | h | h
    · exact .inl h.1
    · exact .inr (.inl h.1)
    · exact .inr (.inr h.1)
    · exact .inr (.inr h.1)

/-- What the handler writes for a text, in any fragmentation. -/
theorem number_frags {t u : Text} (h : numberKey t = some u) (hz : zeroExp t = false) (fs : List Text) (hf : fs.flatten = t)
    (o : Text) : ∃ st p, numFrags strWriter fs ({}, o) = .ok (st, o ++ p) ∧
      p ++ (if st.atStart then ['0'] else []) = u := by
  unfold numberKey at h
  split at h
  · rename_i n hn
    cases h
    obtain ⟨h1, h2⟩ := pNumber_sound hn
    have hz' : ¬ n.ZeroExp := by rw [← zeroExp_iff hn, hz]; simp
    obtain ⟨h3, h4⟩ := Num.norm_spec n h1 hz'
    have := numFrags_clean fs {} o rfl (by rw [hf, ← h2]; exact h3)
    rw [hf, ← h2] at this
    exact ⟨_, _, this, h4⟩
  · split at h
    · rename_i hn
      cases h
      obtain ⟨a, c, r, h1, h2, h3⟩ := isNan_split hn
      obtain ⟨st, h4, h5⟩ := numFrags_special fs a r c h2 h3 (hf.trans h1) {} o rfl rfl
      exact ⟨st, _, h5, by simp [h4]⟩
    · cases h

/-- The handler's output stands for the number. -/
theorem numberOf_sound {t : Text} {j : J} (h : numberOf t = some j) : ∃ u, numberKey t = some u ∧ Val j u := by
  unfold numberOf at h
  unfold numberKey
  split at h
  · rename_i n hn
    cases h
    obtain ⟨h1, _⟩ := pNumber_sound hn
    exact ⟨_, by simp, n.norm, Num.norm_isJson n h1, rfl, Num.norm_val n⟩
  · split at h
    · cases h; rename_i hn; exact ⟨_, by simp [hn], rfl⟩
    · cases h

theorem numberKey_raw {t u : Text} (h : numberKey t = some u) : u.all rawOk = true := by
  unfold numberKey at h
  split at h
  · rename_i n hn
    cases h
    exact num_raw _ (IsJson.isNumber (Num.norm_isJson n (pNumber_sound hn).1))
  · split at h
    · cases h; rfl
    · cases h

/-! ## Text -/

theorem call_frag (f : Frag Text) (s : St Text) :
    call strWriter env (textFragTok f) s = textFragment strWriter f.content s := by
  have : ∀ r : Res Unit (St Text), r.bind (fun s => .ok s) = r := by intro r; cases r <;> rfl
  cases f <;> exact this _

theorem run_frags_plain (fs : List (Frag Text)) (s : St Text) (h : s.handler = none) :
    run (call strWriter env) (fs.map textFragTok) s = .ok { s with out := s.out ++ escape (fragsText fs) } := by
  induction fs generalizing s with
  | nil => simp [fragsText]
  | cons f fs ih =>
    obtain ⟨tg, em, q, hd, bk, o⟩ := s
    cases h
    rw [List.map_cons, run_cons, call_frag, textFragment]
    simp only [wr, escapeStr_str, Res.bind]
    rw [ih _ rfl]
    simp [fragsText, escape_append]

theorem run_frags_native (fs : List (Frag Text)) (s : St Text) (h : s.handler = some .native) :
    run (call strWriter env) (fs.map textFragTok) s = .ok { s with out := s.out ++ fragsText fs } := by
  induction fs generalizing s with
  | nil => simp [fragsText]
  | cons f fs ih =>
    obtain ⟨tg, em, q, hd, bk, o⟩ := s
    cases h
    rw [List.map_cons, run_cons, call_frag, textFragment]
    simp only [wr, strWriter, Res.bind]
    rw [ih _ rfl]
    simp [fragsText]

theorem run_frags_number (fs : List (Frag Text)) (s : St Text) (n n' : NumSt) (o : Text) (h : s.handler = some (.number n))
    (hr : numFrags strWriter (fs.map Frag.content) (n, s.out) = .ok (n', o)) :
    run (call strWriter env) (fs.map textFragTok) s = .ok { s with handler := some (.number n'), out := o } := by
  induction fs generalizing s n with
  | nil =>
    simp only [List.map_nil, numFrags, Res.ok.injEq, Prod.mk.injEq] at hr
    obtain ⟨rfl, rfl⟩ := hr
    rw [List.map_nil, run_nil, ← h]
  | cons f fs ih =>
    rw [List.map_cons, run_cons, call_frag, textFragment, h]
    simp only [List.map_cons, numFrags] at hr
    cases hf : numFragment strWriter f.content (n, s.out) with
    | ok r =>
      rw [hf] at hr
      simp only [hf, Res.bind] at hr ⊢
      rw [ih { s with handler := some (.number r.1), out := r.2 } r.1 rfl hr]
    | err e r => rw [hf] at hr; cases hr
    | panic => rw [hf] at hr; cases hr

/-- Specially tagged text runs as its fragments. -/
theorem textOf_run {v : V} {t : Text} (h : textOf v = some t) : ∃ n fs, fragsText fs = t ∧
    ∀ s, run (call strWriter env) (toks v) s = run (call strWriter env) (toks (.text n fs)) s := by
  induction v using V.ind with
  | text n fs => cases h; exact ⟨n, fs, rfl, fun _ => rfl⟩
  | hint tg v ih =>
    obtain ⟨n, fs, h1, h2⟩ := ih h
    exact ⟨n, fs, h1, fun s => by rw [← h2 s]; rfl⟩
  | _ => cases h

end Sval.Json
