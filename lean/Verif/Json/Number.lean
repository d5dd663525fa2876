import Verif.Json.Escape

set_option autoImplicit false

/-!
# Text tagged NUMBER: what the handler writes

`clean` is the set of inputs on which the handler keeps a contiguous part of each fragment: nothing but
zeroes and signs before the first character that is kept, which is a digit or a point.
-/

namespace Sval.Json

/-! ## Slices -/

theorem dropBytes_append (a b : Text) : dropBytes (a ++ b) (utf8Len a) = some b := by
  induction a with
  | nil => cases b <;> rfl
  | cons c a ih =>
    have h : utf8Len (c :: a) = c.utf8Size + utf8Len a := by simp [utf8Len]
    have hp : 0 < c.utf8Size := c.utf8Size_pos
    rw [h]
    obtain ⟨n, hn⟩ : ∃ n, c.utf8Size + utf8Len a = n + 1 := ⟨c.utf8Size + utf8Len a - 1, by omega⟩
    rw [hn, List.cons_append, dropBytes, if_pos (by omega), ← hn, Nat.add_sub_cancel_left, ih]

theorem takeBytes_all (a : Text) : takeBytes a (utf8Len a) = some a := by
  induction a with
  | nil => rfl
  | cons c a ih =>
    have h : utf8Len (c :: a) = c.utf8Size + utf8Len a := by simp [utf8Len]
    have hp : 0 < c.utf8Size := c.utf8Size_pos
    rw [h]
    obtain ⟨n, hn⟩ : ∃ n, c.utf8Size + utf8Len a = n + 1 := ⟨c.utf8Size + utf8Len a - 1, by omega⟩
    rw [hn, takeBytes, if_pos (by omega), ← hn, Nat.add_sub_cancel_left, ih]; rfl

@[simp] theorem utf8Len_nil : utf8Len [] = 0 := rfl
theorem utf8Len_append (a b : Text) : utf8Len (a ++ b) = utf8Len a + utf8Len b := by simp [utf8Len]

theorem sliceBytes_suffix (a b : Text) : sliceBytes (a ++ b) (utf8Len a) (utf8Len a + utf8Len b) = some b := by
  rw [sliceBytes, if_pos (by omega), dropBytes_append, Option.bind_some, Nat.add_sub_cancel_left, takeBytes_all]

/-! ## Clean input -/

/-- What `NumberTextHandler` skips at the start: `json/src/to_fmt.rs:594-632`. Then what makes it give up: 634-644. -/
def isLead (c : Char) : Bool := c == '0' || c == '+' || c == '-'
def isSpecial (c : Char) : Bool := decide (c ∈ t! "sniSNI")

/-- What follows the first kept character. -/
def cleanTail (t : Text) : Bool := t.all fun c => !isSpecial c

/-- Text after which the handler has not given up; at the start of the number or not. -/
def clean : Bool → Text → Bool
  | false, t => cleanTail t
  | true, [] => true
  | true, c :: t => if isLead c then clean true t else (isDigit c || c == '.') && cleanTail t

/-- The handler's state after clean text. -/
def after : NumSt → Text → NumSt
  | st, [] => st
  | st, c :: t =>
    if st.atStart then
      if isLead c then after { st with neg := st.neg || c == '-' } t else { st with atStart := false }
    else st

/-- What is written for clean text. -/
def emits : NumSt → Text → Text
  | _, [] => []
  | st, c :: t =>
    if st.atStart then
      if isLead c then emits { st with neg := st.neg || c == '-' } t
      else (if st.neg then ['-'] else []) ++ ((if c = '.' then ['0'] else []) ++ (c :: t))
    else c :: t

theorem clean_false (t : Text) : clean false t = cleanTail t := by cases t <;> rfl

theorem cleanTail_append (a b : Text) : cleanTail (a ++ b) = (cleanTail a && cleanTail b) := by
  simp [cleanTail, List.all_append]

theorem emits_tail (st : NumSt) (t : Text) (h : st.atStart = false) : emits st t = t := by
  cases t <;> simp [emits, h]
theorem after_tail (st : NumSt) (t : Text) (h : st.atStart = false) : after st t = st := by
  cases t <;> simp [after, h]

theorem after_nan (st : NumSt) (t : Text) : (after st t).nan = st.nan := by
  induction t generalizing st with
  | nil => rfl
  | cons c t ih =>
    simp only [after]
    split
    · split
      · rw [ih]
      · rfl
    · rfl

theorem clean_append (st : NumSt) (a b : Text) :
    clean st.atStart (a ++ b) = (clean st.atStart a && clean (after st a).atStart b) := by
  induction a generalizing st with
  | nil =>
    cases h : st.atStart
    · simp [clean, after, h, cleanTail]
    · simp [clean, after, h]
  | cons c a ih =>
    cases h : st.atStart
    · rw [after_tail st _ h, h]; simp only [clean_false]; exact cleanTail_append _ _
    · simp only [List.cons_append, clean, after, h, if_true]
      split
      · have := ih { st with neg := st.neg || c == '-' }
        simp only [h] at this
        simpa only [h] using this
      · rw [cleanTail_append, Bool.and_assoc, clean_false]

theorem after_append (st : NumSt) (a b : Text) : after st (a ++ b) = after (after st a) b := by
  induction a generalizing st with
  | nil => rfl
  | cons c a ih =>
    simp only [List.cons_append, after]
    split
    · split
      · exact ih _
      · rw [after_tail _ _ rfl]
    · rename_i h
      rw [after_tail _ _ (by simpa using h)]

theorem emits_append (st : NumSt) (a b : Text) : emits st (a ++ b) = emits st a ++ emits (after st a) b := by
  induction a generalizing st with
  | nil => rfl
  | cons c a ih =>
    simp only [List.cons_append, emits, after]
    split
    · split
      · exact ih _
      · rw [emits_tail _ _ rfl]; simp
    · rename_i h
      rw [emits_tail _ _ (by simpa using h)]; simp

/-! ## The loop on clean input -/

theorem digit_size {c : Char} (hd : isDigit c = true) : c.utf8Size = 1 := by
  rw [Char.utf8Size_eq_one_iff]
  simp only [isDigit, Bool.and_eq_true, decide_eq_true_eq] at hd
  rw [UInt32.le_iff_toNat_le]; show c.toNat ≤ 127
  omega

theorem numLoop_tail (t : Text) (r : NumRun Text) (h : r.st.atStart = false) (ht : cleanTail t = true) :
    numLoop strWriter t r = .ok { r with stop := r.stop + utf8Len t } := by
  induction t generalizing r with
  | nil => simp [numLoop, utf8Len]
  | cons c t ih =>
    have hu : utf8Len (c :: t) = c.utf8Size + utf8Len t := by simp [utf8Len]
    simp only [cleanTail, List.all_cons, Bool.and_eq_true, isSpecial, Bool.not_eq_true',
      decide_eq_false_iff_not] at ht
    have hst : ({ atStart := false, neg := r.st.neg, nan := r.st.nan } : NumSt) = r.st := by
      rw [← h]
    have key : ∀ r' : NumRun Text, r' = { r with stop := r.stop + c.utf8Size } →
        numLoop strWriter t r' = .ok { r with stop := r.stop + utf8Len (c :: t) } := by
      rintro r' rfl
      rw [ih { r with stop := r.stop + c.utf8Size } h ht.2, hu]
      simp only [Nat.add_assoc]
    simp only [numLoop, h, Bool.false_and, Bool.false_eq_true, and_false, if_false]
    split
    · rename_i hd
      have := digit_size hd
      simp only [Res.bind]
      refine key _ ?_
      rw [this, hst]
    · split
      · rename_i hd
        simp only [Res.bind]
        refine key _ ?_
        rw [hst, hd]; rfl
      · simp only [ht.1, if_false]
        exact key _ rfl

theorem numLoop_clean (t : Text) (r : NumRun Text) (h : r.st.atStart = true) (ht : clean true t = true) :
    ∃ a b p, t = a ++ b ∧ emits r.st t = p ++ b ∧
      numLoop strWriter t r = .ok { st := after r.st t, start := r.start + utf8Len a, stop := r.stop + utf8Len t, out := r.out ++ p } := by
  induction t generalizing r with
  | nil => exact ⟨[], [], [], rfl, rfl, by simp [numLoop, after, utf8Len]⟩
  | cons c t ih =>
    have hu : ∀ t, utf8Len (c :: t) = c.utf8Size + utf8Len t := by intro t; simp [utf8Len]
    simp only [clean] at ht
    split at ht
    · rename_i hl
      have h1 : c.utf8Size = 1 := by
        simp only [isLead, Bool.or_eq_true, beq_iff_eq] at hl
        rcases hl with (rfl | rfl) | rfl <;> rfl
      have key : ∀ r' : NumRun Text, r' = { r with st := { r.st with neg := r.st.neg || c == '-' }, start := r.start + 1, stop := r.stop + 1 } →
          numLoop strWriter (c :: t) r = numLoop strWriter t r' → ∃ a b p, c :: t = a ++ b ∧ emits r.st (c :: t) = p ++ b ∧
            numLoop strWriter (c :: t) r = .ok { st := after r.st (c :: t), start := r.start + utf8Len a, stop := r.stop + utf8Len (c :: t), out := r.out ++ p } := by
        rintro r' rfl heq
        obtain ⟨a, b, p, hab, he, hr⟩ := ih { r with st := { r.st with neg := r.st.neg || c == '-' }, start := r.start + 1, stop := r.stop + 1 } h ht
        refine ⟨c :: a, b, p, by rw [hab]; rfl, ?_, ?_⟩
        · rw [emits, if_pos h, if_pos hl]; exact he
        · rw [heq, hr, hu, hu, h1, after, if_pos h, if_pos hl]
          simp only [Nat.add_assoc]
      simp only [isLead, Bool.or_eq_true, beq_iff_eq] at hl
      rcases hl with (rfl | rfl) | rfl
      · exact key { r with start := r.start + 1, stop := r.stop + 1 } (by simp) (by rw [numLoop, if_pos ⟨rfl, h⟩])
      · exact key { r with start := r.start + 1, stop := r.stop + 1 } (by simp) (by simp [numLoop, h, isDigit])
      · exact key { r with st := { r.st with neg := true }, start := r.start + 1, stop := r.stop + 1 } (by simp)
          (by simp [numLoop, h, isDigit])
    · rename_i hl
      simp only [Bool.and_eq_true, Bool.or_eq_true, beq_iff_eq] at ht
      have h0 : c ≠ '0' := by rintro rfl; exact hl rfl
      have hstop : ∀ n, c.utf8Size = 1 → n + 1 + utf8Len t = n + utf8Len (c :: t) := by
        intro n h; rw [hu, h]; omega
      rcases ht.1 with hd | rfl
      · have hne : c ≠ '.' := by rintro rfl; cases hd
        refine ⟨[], c :: t, if r.st.neg then ['-'] else [], rfl, ?_, ?_⟩
        · simp [emits, h, hl, hne]
        · simp only [numLoop, h0, false_and, if_false, hd, if_true, h, Bool.true_and, after, hl]
          cases hn : r.st.neg
          · simp only [Bool.false_eq_true, if_false, Res.bind]
            rw [numLoop_tail _ _ rfl ht.2, hn]
            simp [hstop _ (digit_size hd)]
          · simp only [if_true, Res.bind, NumRun.write, strWriter]
            rw [numLoop_tail _ _ rfl ht.2]
            simp [hstop _ (digit_size hd), hn]
      · refine ⟨[], '.' :: t, (if r.st.neg then ['-'] else []) ++ ['0'], rfl, ?_, ?_⟩
        · simp [emits, h, hl]
        · have hd : isDigit '.' = false := rfl
          simp only [numLoop, h0, false_and, if_false, hd, Bool.false_eq_true, if_true, h, after, hl]
          cases hn : r.st.neg
          · simp only [Bool.false_eq_true, if_false, Res.bind, NumRun.write, strWriter]
            rw [numLoop_tail _ _ rfl ht.2, hn]
            simp [hstop _ (show '.'.utf8Size = 1 from rfl)]
          · simp only [if_true, Res.bind, NumRun.write, strWriter]
            rw [numLoop_tail _ _ rfl ht.2]
            simp [hstop _ (show '.'.utf8Size = 1 from rfl), hn]

theorem numFragment_clean (t : Text) (st : NumSt) (o : Text) (hn : st.nan = false) (h : clean st.atStart t = true) :
    numFragment strWriter t (st, o) = .ok (after st t, o ++ emits st t) := by
  simp only [numFragment, hn, Bool.false_eq_true, if_false]
  cases ha : st.atStart with
  | false =>
    rw [ha, clean_false] at h
    rw [numLoop_tail t _ ha h]
    simp only [Nat.zero_add]
    have := sliceBytes_suffix [] t
    simp only [List.nil_append, utf8Len, List.map_nil, List.sum_nil, Nat.zero_add] at this
    simp only [utf8Len, this, strWriter, emits_tail st t ha, after_tail st t ha]
  | true =>
    rw [ha] at h
    obtain ⟨a, b, p, hab, he, hr⟩ := numLoop_clean t { st := st, out := o } ha h
    rw [hr]
    have := sliceBytes_suffix a b
    simp only [Nat.zero_add, hab, utf8Len_append, this, strWriter]
    rw [← hab, he, List.append_assoc]

/-! ## Fragments -/

/-- `NumberTextHandler` over the fragments of a text. -/
def numFrags {ω : Type} (w : Writer ω) : List Text → NumSt × ω → Res Unit (NumSt × ω)
  | [], r => .ok r
  | f :: fs, r => (numFragment w f r).bind (numFrags w fs)

theorem numFrags_clean (fs : List Text) (st : NumSt) (o : Text) (hn : st.nan = false)
    (h : clean st.atStart fs.flatten = true) :
    numFrags strWriter fs (st, o) = .ok (after st fs.flatten, o ++ emits st fs.flatten) := by
  induction fs generalizing st o with
  | nil => simp [numFrags, after, emits]
  | cons f fs ih =>
    rw [List.flatten_cons, clean_append, Bool.and_eq_true] at h
    rw [numFrags, numFragment_clean f st o hn h.1]
    simp only [Res.bind]
    rw [ih _ _ (by rw [after_nan, hn]) h.2, List.flatten_cons, after_append, emits_append, List.append_assoc]

theorem isLead_clean (a t : Text) (ha : a.all isLead = true) (h : clean true t = true) : clean true (a ++ t) = true := by
  induction a with
  | nil => exact h
  | cons c a ih =>
    rw [List.all_cons, Bool.and_eq_true] at ha
    rw [List.cons_append, clean, if_pos ha.1]
    exact ih ha.2

theorem emits_lead (a t : Text) (ha : a.all isLead = true) (st : NumSt) (h : st.atStart = true) :
    emits st (a ++ t) = emits { st with neg := st.neg || a.any (· == '-') } t := by
  induction a generalizing st with
  | nil => simp
  | cons c a ih =>
    rw [List.all_cons, Bool.and_eq_true] at ha
    rw [List.cons_append, emits, if_pos h, if_pos ha.1, ih ha.2 { st with neg := st.neg || c == '-' } h, List.any_cons]
    simp only [Bool.or_assoc]

theorem after_lead (a t : Text) (ha : a.all isLead = true) (st : NumSt) (h : st.atStart = true) :
    after st (a ++ t) = after { st with neg := st.neg || a.any (· == '-') } t := by
  induction a generalizing st with
  | nil => simp
  | cons c a ih =>
    rw [List.all_cons, Bool.and_eq_true] at ha
    rw [List.cons_append, after, if_pos h, if_pos ha.1, ih ha.2 { st with neg := st.neg || c == '-' } h, List.any_cons]
    simp only [Bool.or_assoc]

/-! ## Conforming numbers -/

namespace Num

/-- The number as JSON spells it. -/
def norm (n : Num) : Num :=
  let i := n.int.dropWhile (· == '0')
  { sign := if n.sign = ['-'] ∧ (i ≠ [] ∨ n.frac ≠ none) then ['-'] else []
    int := if i = [] then ['0'] else i
    frac := n.frac
    exp := n.exp }

/-- The numbers the formatter gets wrong: no digit but zeroes, no point, but an exponent. -/
def ZeroExp (n : Num) : Prop := n.int.all (· == '0') = true ∧ n.frac = none ∧ n.exp ≠ none

theorem digit_zero : isDigit '0' = true := rfl

theorem IsDigits.tail {t : Text} (h : t.all isDigit = true) : cleanTail t = true := by
  simp only [cleanTail, List.all_eq_true] at h ⊢
  intro c hc
  have hd := h c hc
  simp only [isDigit, Bool.and_eq_true, decide_eq_true_eq] at hd
  simp only [isSpecial, Bool.not_eq_true', decide_eq_false_iff_not]
  intro hm
  simp only [List.mem_cons, List.not_mem_nil, or_false] at hm
  rcases hm with rfl | rfl | rfl | rfl | rfl | rfl <;> revert hd <;> decide

theorem cleanTail_cons (c : Char) (t : Text) (h : isSpecial c = false) : cleanTail (c :: t) = cleanTail t := by
  simp [cleanTail, h]

theorem expText_tail (e : Option (Char × Text × Text)) (he : ExpOk e) : cleanTail (expText e) = true := by
  cases e with
  | none => rfl
  | some e =>
    obtain ⟨c, s, d⟩ := e
    obtain ⟨h1, h2, h3⟩ := he c s d rfl
    have : cleanTail (s ++ d) = true := by
      rcases h2 with rfl | rfl | rfl
      · exact IsDigits.tail h3.2
      · exact (cleanTail_cons _ _ (by decide)).trans (IsDigits.tail h3.2)
      · exact (cleanTail_cons _ _ (by decide)).trans (IsDigits.tail h3.2)
    rcases h1 with rfl | rfl
    · exact (cleanTail_cons _ _ (by decide)).trans this
    · exact (cleanTail_cons _ _ (by decide)).trans this

theorem fracText_tail (f : Option Text) (hf : FracOk f) : cleanTail (fracText f) = true := by
  cases f with
  | none => rfl
  | some d => exact (cleanTail_cons _ _ (by decide)).trans (IsDigits.tail (hf d rfl).2)

theorem zeros_lead {z : Text} (h : z.all (· == '0') = true) : z.all isLead = true := by
  simp only [List.all_eq_true, beq_iff_eq] at h ⊢
  intro c hc; rw [h c hc]; rfl

theorem zeros_any {z : Text} (h : z.all (· == '0') = true) : z.any (· == '-') = false := by
  rw [List.any_eq_false]
  simp only [List.all_eq_true, beq_iff_eq] at h ⊢
  intro c hc; rw [h c hc]; decide

theorem int_split (n : Num) : ∃ z, z.all (· == '0') = true ∧ n.int = z ++ n.int.dropWhile (· == '0') :=
  ⟨n.int.takeWhile (· == '0'), takeWhile_all _ _, (List.takeWhile_append_dropWhile).symm⟩

theorem zeroExp_iff (n : Num) : n.int.all (· == '0') = true ↔ n.int.dropWhile (· == '0') = [] := by
  generalize n.int = t
  induction t with
  | nil => simp
  | cons c t ih =>
    rw [List.all_cons, List.dropWhile_cons]
    cases h : c == '0'
    · simp
    · simpa using ih

theorem sign_lead {n : Num} (h : n.IsNumber) : n.sign.all isLead = true ∧ (n.sign.any (· == '-') = true ↔ n.sign = ['-']) := by
  rcases h.1 with h | h | h <;> rw [h] <;> exact ⟨rfl, by decide⟩

/-- What the handler does with a conforming number. -/
theorem norm_spec (n : Num) (h : n.IsNumber) (hz : ¬ n.ZeroExp) :
    clean true n.text = true ∧
    emits {} n.text ++ (if (after {} n.text).atStart then ['0'] else []) = n.norm.text := by
  obtain ⟨z, hz0, hz1⟩ := int_split n
  obtain ⟨hs1, hs2⟩ := sign_lead h
  have htext : n.text = (n.sign ++ z) ++ (n.int.dropWhile (· == '0') ++ (fracText n.frac ++ expText n.exp)) := by
    rw [text, List.append_assoc, ← List.append_assoc z, ← hz1]
  have hl : (n.sign ++ z).all isLead = true := by rw [List.all_append, hs1, zeros_lead hz0]; rfl
  have hneg : (n.sign ++ z).any (· == '-') = decide (n.sign = ['-']) := by
    rw [List.any_append, zeros_any hz0, Bool.or_false, Bool.eq_iff_iff, hs2, decide_eq_true_iff]
  have hft : cleanTail (fracText n.frac ++ expText n.exp) = true := by
    rw [cleanTail_append, fracText_tail _ h.2.2.1, expText_tail _ h.2.2.2]; rfl
  rw [htext, emits_lead _ _ hl _ rfl, after_lead _ _ hl _ rfl, hneg]
  simp only [norm, text, Bool.false_or]
  cases hi : n.int.dropWhile (· == '0') with
  | cons d ds =>
    have hd0 : (d == '0') = false := by
      have := dropWhile_head (· == '0') n.int d (by rw [hi]; rfl)
      simpa using this
    have hdig : (d :: ds).all isDigit = true := by
      have := h.2.1.2
      rw [hz1, List.all_append, Bool.and_eq_true, hi] at this
      exact this.2
    rw [List.all_cons, Bool.and_eq_true] at hdig
    have hl' : isLead d = false := by
      simp only [isLead, hd0, Bool.false_or, Bool.or_eq_false_iff, beq_eq_false_iff_ne, ne_eq]
      constructor <;> (rintro rfl; cases hdig.1)
    have hp : d ≠ '.' := by rintro rfl; cases hdig.1
    constructor
    · refine isLead_clean _ _ hl ?_
      simp only [List.cons_append, clean, hl', Bool.false_eq_true, if_false, hdig.1, Bool.true_or, Bool.true_and]
      rw [cleanTail_append, IsDigits.tail hdig.2, hft]; rfl
    · simp only [List.cons_append, emits, after, hl', if_true, Bool.false_eq_true, if_false, hp, List.nil_append,
        List.append_nil, reduceCtorEq, not_false_eq_true, ne_eq, true_or, and_true, decide_eq_true_eq]
  | nil =>
    cases hf : n.frac with
    | some f =>
      have hl' : isLead '.' = false := rfl
      constructor
      · refine isLead_clean _ _ hl ?_
        rw [hf] at hft
        simp only [fracText, List.nil_append, List.cons_append] at hft ⊢
        rw [cleanTail_cons _ _ (by decide)] at hft
        simp only [clean, hl', Bool.false_eq_true, if_false, beq_self_eq_true, Bool.or_true, Bool.true_and, hft]
      · simp only [fracText, List.nil_append, List.cons_append, emits, after, hl', if_true, Bool.false_eq_true, if_false,
          List.append_nil, reduceCtorEq, not_false_eq_true, ne_eq, or_true, and_true, decide_eq_true_eq]
    | none =>
      have he : n.exp = none := by
        cases he : n.exp with
        | none => rfl
        | some e => exact absurd ⟨(zeroExp_iff n).2 hi, hf, by rw [he]; simp⟩ hz
      rw [he]
      constructor
      · refine isLead_clean _ _ hl rfl
      · simp [fracText, expText, emits, after]

theorem norm_isJson (n : Num) (h : n.IsNumber) : n.norm.IsJson := by
  obtain ⟨z, hz0, hz1⟩ := int_split n
  refine ⟨?_, ?_, ?_, h.2.2.1, h.2.2.2⟩
  · simp only [norm]; split <;> simp
  · simp only [norm]; split
    · exact ⟨by simp, rfl⟩
    · rename_i hi
      refine ⟨hi, ?_⟩
      have := h.2.1.2
      rw [hz1, List.all_append, Bool.and_eq_true] at this
      exact this.2
  · simp only [norm]; split
    · intro _; rfl
    · intro h0
      have := dropWhile_head (· == '0') n.int _ h0
      simp at this

theorem digitsVal_zeros (z t : Text) (h : z.all (· == '0') = true) : digitsVal (z ++ t) = digitsVal t := by
  induction z with
  | nil => rfl
  | cons c z ih =>
    simp only [List.all_cons, Bool.and_eq_true, beq_iff_eq] at h
    rw [h.1, List.cons_append]
    exact ih (by simpa using h.2)

theorem norm_val (n : Num) : n.norm.val = n.val := by
  obtain ⟨z, hz0, hz1⟩ := int_split n
  have hint : digitsVal (n.norm.int ++ n.frac.getD []) = digitsVal (n.int ++ n.frac.getD []) := by
    rw [hz1, List.append_assoc, digitsVal_zeros _ _ hz0]
    simp only [norm]; split
    · rename_i hi
      rw [hi]; exact digitsVal_zeros ['0'] _ rfl
    · rfl
  simp only [val]
  rw [show n.norm.frac = n.frac from rfl, show n.norm.exp = n.exp from rfl, hint]
  by_cases hs : n.norm.sign = ['-']
  · have : n.sign = ['-'] := by
      simp only [norm] at hs
      split at hs
      · rename_i h; exact h.1
      · cases hs
    rw [if_pos hs, if_pos this]
  · rw [if_neg hs]
    split
    · rename_i hs'
      have : n.int.dropWhile (· == '0') = [] ∧ n.frac = none := by
        simp only [norm, hs', true_and] at hs
        split at hs
        · exact absurd rfl hs
        · rename_i hh
          by_cases hi : n.int.dropWhile (· == '0') = []
          · exact ⟨hi, by
              by_cases hf : n.frac = none
              · exact hf
              · exact absurd (.inr hf) hh⟩
          · exact absurd (.inl hi) hh
      have h0 : digitsVal (n.int ++ n.frac.getD []) = 0 := by
        rw [hz1, this.1, this.2, List.append_nil, digitsVal_zeros _ _ hz0]; rfl
      rw [h0]
      simp
    · rfl

end Num

/-! ## Text that is not a number -/

theorem numLoop_special (a r : Text) (c : Char) (ha : a.all isLead = true) (hc : isSpecial c = true) (x : NumRun Text)
    (h : x.st.atStart = true) :
    ∃ st : NumSt, st.nan = true ∧ st.atStart = false ∧
      numLoop strWriter (a ++ c :: r) x = .ok { st := st, start := 0, stop := 0, out := x.out ++ t! "null" } := by
  induction a generalizing x with
  | nil =>
    refine ⟨{ x.st with nan := true, atStart := false }, rfl, rfl, ?_⟩
    simp only [isSpecial, decide_eq_true_eq] at hc
    have hm := hc
    simp only [List.mem_cons, List.not_mem_nil, or_false] at hc
    rw [List.nil_append, numLoop]
    rcases hc with rfl | rfl | rfl | rfl | rfl | rfl <;>
      simp [isDigit, NumRun.write, strWriter, Res.bind]
  | cons d a ih =>
    rw [List.all_cons, Bool.and_eq_true] at ha
    have hl := ha.1
    simp only [isLead, Bool.or_eq_true, beq_iff_eq] at hl
    rcases hl with (rfl | rfl) | rfl
    · have := ih ha.2 { x with start := x.start + 1, stop := x.stop + 1 } h
      simpa [numLoop, h] using this
    · have := ih ha.2 { x with start := x.start + 1, stop := x.stop + 1 } h
      simpa [numLoop, h, isDigit] using this
    · have := ih ha.2 { x with st := { x.st with neg := true }, start := x.start + 1, stop := x.stop + 1 } h
      simpa [numLoop, h, isDigit] using this

theorem numFrags_nan (fs : List Text) (st : NumSt) (o : Text) (h : st.nan = true) :
    numFrags strWriter fs (st, o) = .ok (st, o) := by
  induction fs with
  | nil => rfl
  | cons f fs ih => simp only [numFrags, numFragment, h, if_true, Res.bind]; exact ih

/-- A letter of `snan` or `inf`, after nothing but signs and zeroes, makes the whole text `null`. -/
theorem numFrags_special (fs : List Text) (a r : Text) (c : Char) (ha : a.all isLead = true) (hc : isSpecial c = true)
    (hf : fs.flatten = a ++ c :: r) (st : NumSt) (o : Text) (h : st.atStart = true) (hn : st.nan = false) :
    ∃ st' : NumSt, st'.atStart = false ∧ numFrags strWriter fs (st, o) = .ok (st', o ++ t! "null") := by
  induction fs generalizing a st o with
  | nil => simp at hf
  | cons f fs ih =>
    rw [List.flatten_cons] at hf
    rw [List.append_eq_append_iff] at hf
    have key : ∀ b, f = a ++ c :: b → ∃ st' : NumSt, st'.atStart = false ∧
        numFrags strWriter (f :: fs) (st, o) = .ok (st', o ++ t! "null") := by
      rintro b rfl
      obtain ⟨st', h1, h2, h3⟩ := numLoop_special a b c ha hc { st := st, out := o } h
      refine ⟨st', h2, ?_⟩
      have hs : ∀ t, sliceBytes t 0 0 = some [] := by
        intro t; cases t <;> rfl
      simp only [numFrags, numFragment, hn, Bool.false_eq_true, if_false, h3, hs, strWriter, List.append_nil, Res.bind]
      exact numFrags_nan fs st' _ h1
    rcases hf with ⟨a', rfl, hf⟩ | ⟨c', rfl, hf⟩
    · rw [List.all_append, Bool.and_eq_true] at ha
      have hcl : clean st.atStart f = true := by
        have := isLead_clean f [] ha.1 rfl
        rw [List.append_nil] at this
        rw [h]; exact this
      have haf := after_lead f [] ha.1 st h
      rw [List.append_nil] at haf
      have hem := emits_lead f [] ha.1 st h
      rw [List.append_nil] at hem
      obtain ⟨st', h1, h2⟩ := ih a' ha.2 hf (after st f) o (by rw [haf]; exact h) (by rw [after_nan, hn])
      refine ⟨st', h1, ?_⟩
      rw [numFrags, numFragment_clean f st o hn hcl, hem]
      simp only [emits, List.append_nil, Res.bind]
      exact h2
    · cases c' with
      | nil =>
        rw [List.append_nil] at key ⊢
        have hcl : clean st.atStart a = true := by
          have := isLead_clean a [] ha rfl
          rw [List.append_nil] at this
          rw [h]; exact this
        have haf := after_lead a [] ha st h
        rw [List.append_nil] at haf
        have hem := emits_lead a [] ha st h
        rw [List.append_nil] at hem
        obtain ⟨st', h1, h2⟩ := ih [] rfl hf.symm (after st a) o (by rw [haf]; exact h) (by rw [after_nan, hn])
        refine ⟨st', h1, ?_⟩
        rw [numFrags, numFragment_clean a st o hn hcl, hem]
        simp only [emits, List.append_nil, Res.bind]
        exact h2
      | cons d b =>
        rw [List.cons_append, List.cons.injEq] at hf
        exact key b (by rw [hf.1])

end Sval.Json
