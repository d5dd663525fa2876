import Verif.Json.Number

set_option autoImplicit false

/-! What comes out for a number that is a zero with an exponent, in one fragment: never a number of JSON. -/

namespace Sval.Json

/-- The loop skips signs and zeroes at the start of a number. -/
theorem numLoop_lead (a t : Text) (ha : a.all isLead = true) (x : NumRun Text) (h : x.st.atStart = true) :
    numLoop strWriter (a ++ t) x =
      numLoop strWriter t { x with st := { x.st with neg := x.st.neg || a.any (· == '-') },
                                   start := x.start + utf8Len a, stop := x.stop + utf8Len a } := by
  induction a generalizing x with
  | nil => simp
  | cons d a ih =>
    rw [List.all_cons, Bool.and_eq_true] at ha
    have hl := ha.1
    have hu : ∀ t c, utf8Len (c :: t) = c.utf8Size + utf8Len t := by intro t c; simp [utf8Len]
    simp only [isLead, Bool.or_eq_true, beq_iff_eq] at hl
    rcases hl with (rfl | rfl) | rfl
    · have := ih ha.2 { x with start := x.start + 1, stop := x.stop + 1 } h
      rw [List.cons_append, numLoop, if_pos ⟨rfl, h⟩, this, hu]
      simp only [List.any_cons, show ('0' == '-') = false from rfl, Bool.false_or, show '0'.utf8Size = 1 from rfl, Nat.add_assoc]
    · have := ih ha.2 { x with start := x.start + 1, stop := x.stop + 1 } h
      have h1 : numLoop strWriter ('+' :: (a ++ t)) x = numLoop strWriter (a ++ t) { x with start := x.start + 1, stop := x.stop + 1 } := by
        simp [numLoop, h, isDigit]
      rw [List.cons_append, h1, this, hu]
      simp only [List.any_cons, show ('+' == '-') = false from rfl, Bool.false_or, show '+'.utf8Size = 1 from rfl, Nat.add_assoc]
    · have := ih ha.2 { x with st := { x.st with neg := true }, start := x.start + 1, stop := x.stop + 1 } h
      have h1 : numLoop strWriter ('-' :: (a ++ t)) x =
          numLoop strWriter (a ++ t) { x with st := { x.st with neg := true }, start := x.start + 1, stop := x.stop + 1 } := by
        simp [numLoop, h, isDigit]
      rw [List.cons_append, h1, this, hu]
      simp only [List.any_cons, show ('-' == '-') = true from rfl, Bool.true_or, Bool.or_true, show '-'.utf8Size = 1 from rfl, Nat.add_assoc]

theorem lead_len {a : Text} (h : a.all isLead = true) : utf8Len a = a.length := by
  induction a with
  | nil => rfl
  | cons c a ih =>
    rw [List.all_cons, Bool.and_eq_true] at h
    have hl := h.1
    have : c.utf8Size = 1 := by
      simp only [isLead, Bool.or_eq_true, beq_iff_eq] at hl
      rcases hl with (rfl | rfl) | rfl <;> rfl
    have h2 := ih h.2
    simp only [utf8Len, List.map_cons, List.sum_cons, List.length_cons] at h2 ⊢
    omega

/-- What is left of `e`, a sign and zeroes once as many characters as the sign and the zeroes are dropped:
the last. -/
theorem drop_last (c : Char) (x : Text) : (c :: x).drop x.length = [x.getLastD c] := by
  induction x generalizing c with
  | nil => rfl
  | cons d x ih =>
    rw [List.length_cons, List.drop_succ_cons, ih, List.getLastD_cons]

/-- One fragment: signs and zeroes, then `e`, then signs and zeroes, then the rest of the digits. -/
theorem numFragment_zeroExp (a x r : Text) (c : Char) (ha : a.all isLead = true) (hx : x.all isLead = true)
    (hc : c = 'e' ∨ c = 'E') (hr : r.all isDigit = true) (h0 : r.head? ≠ some '0') :
    numFragment strWriter (a ++ c :: (x ++ r)) ({}, []) =
      .ok ({ atStart := r.isEmpty, neg := a.any (· == '-') || x.any (· == '-'), nan := false },
        (if (a.any (· == '-') || x.any (· == '-')) && !r.isEmpty then ['-'] else []) ++ x.getLastD c :: r) := by
  have hc1 : c.utf8Size = 1 := by rcases hc with rfl | rfl <;> rfl
  have hstep : ∀ (t : Text) (y : NumRun Text), numLoop strWriter (c :: t) y = numLoop strWriter t { y with stop := y.stop + 1 } := by
    intro t y
    rcases hc with rfl | rfl <;> simp [numLoop, isDigit, show 'e'.utf8Size = 1 from rfl, show 'E'.utf8Size = 1 from rfl]
  -- the loop
  have hloop : numLoop strWriter (a ++ c :: (x ++ r)) { st := {}, out := [] } =
      .ok { st := { atStart := r.isEmpty, neg := a.any (· == '-') || x.any (· == '-'), nan := false },
            start := utf8Len a + utf8Len x, stop := utf8Len a + 1 + utf8Len x + utf8Len r,
            out := if (a.any (· == '-') || x.any (· == '-')) && !r.isEmpty then ['-'] else [] } := by
    rw [numLoop_lead a _ ha _ rfl, hstep, numLoop_lead x _ hx _ rfl]
    simp only [Nat.zero_add, Bool.false_or]
    generalize (a.any (· == '-') || x.any (· == '-')) = ng
    cases r with
    | nil => simp [numLoop]
    | cons d r =>
      rw [List.all_cons, Bool.and_eq_true] at hr
      have hd0 : d ≠ '0' := by rintro rfl; exact h0 rfl
      have hu : utf8Len (d :: r) = 1 + utf8Len r := by simp [utf8Len, digit_size hr.1]
      simp only [numLoop, hd0, false_and, if_false, hr.1, if_true, Bool.true_and, List.isEmpty_cons, Bool.not_false, Bool.and_true]
      cases ng
      · simp only [Bool.false_eq_true, if_false, Res.bind]
        rw [numLoop_tail _ _ rfl (Num.IsDigits.tail hr.2)]
        simp only [hu, Nat.add_assoc]
      · simp only [if_true, Res.bind, NumRun.write, strWriter]
        rw [numLoop_tail _ _ rfl (Num.IsDigits.tail hr.2)]
        simp only [hu, Nat.add_assoc, List.nil_append]
  simp only [numFragment, Bool.false_eq_true, if_false, hloop]
  -- the slice
  have hsplit : a ++ c :: (x ++ r) = (a ++ (c :: x).take x.length) ++ (x.getLastD c :: r) := by
    have h1 := List.take_append_drop x.length (c :: x)
    rw [drop_last] at h1
    calc a ++ c :: (x ++ r) = a ++ ((c :: x) ++ r) := rfl
      _ = a ++ (((c :: x).take x.length ++ [x.getLastD c]) ++ r) := by rw [h1]
      _ = _ := by simp
  have hlast : (x.getLastD c).utf8Size = 1 := by
    cases hg : x.getLast? with
    | none =>
      have : x = [] := by simpa using hg
      subst this; exact hc1
    | some d =>
      have hm : d ∈ x := List.mem_of_getLast? hg
      have hl := List.all_eq_true.1 hx d hm
      have : x.getLastD c = d := by rw [List.getLastD_eq_getLast?, hg]; rfl
      rw [this]
      simp only [isLead, Bool.or_eq_true, beq_iff_eq] at hl
      rcases hl with (rfl | rfl) | rfl <;> rfl
  have htake : utf8Len ((c :: x).take x.length) = utf8Len x := by
    have h1 : utf8Len (c :: x) = 1 + utf8Len x := by simp [utf8Len, hc1]
    have h2 : utf8Len (c :: x) = utf8Len ((c :: x).take x.length) + utf8Len [x.getLastD c] := by
      rw [← utf8Len_append, ← drop_last, List.take_append_drop]
    have h3 : utf8Len [x.getLastD c] = 1 := by simp only [utf8Len, List.map_cons, List.map_nil, List.sum_cons, List.sum_nil, hlast, Nat.add_zero]
    omega
  have hslice := sliceBytes_suffix (a ++ (c :: x).take x.length) (x.getLastD c :: r)
  rw [utf8Len_append, htake] at hslice
  have hu : utf8Len (x.getLastD c :: r) = 1 + utf8Len r := by simp only [utf8Len, List.map_cons, List.sum_cons, hlast]
  rw [hu, ← hsplit] at hslice
  have e : utf8Len a + 1 + utf8Len x + utf8Len r = utf8Len a + utf8Len x + (1 + utf8Len r) := by omega
  rw [e, hslice]
  rfl

/-- Below its sign a number of JSON starts with a digit, and with a zero only if no digit follows it. -/
theorem isJson_shape (k : Num) (h : k.IsJson) :
    ∃ d t, (k.text = d :: t ∨ k.text = '-' :: d :: t) ∧ isDigit d = true ∧ (d = '0' → ∀ e, t.head? = some e → isDigit e = false) := by
  obtain ⟨h1, h2, h3, h4, h5⟩ := h
  cases hi : k.int with
  | nil => exact absurd hi h2.1
  | cons d ds =>
    rw [hi] at h2 h3
    have hd := h2.2
    rw [List.all_cons, Bool.and_eq_true] at hd
    refine ⟨d, ds ++ (Num.fracText k.frac ++ Num.expText k.exp), ?_, hd.1, ?_⟩
    · rcases h1 with h1 | h1
      · exact .inl (by rw [Num.text, h1, hi]; rfl)
      · exact .inr (by rw [Num.text, h1, hi]; rfl)
    · rintro rfl e he
      have := h3 rfl
      simp only [List.cons.injEq, true_and] at this
      subst this
      rw [List.nil_append] at he
      cases hf : k.frac with
      | some f => rw [hf] at he; cases he; rfl
      | none =>
        rw [hf] at he
        cases hx : k.exp with
        | none => rw [hx] at he; cases he
        | some p =>
          obtain ⟨c, s, g⟩ := p
          rw [hx] at he
          cases he
          rcases (h5 _ _ _ hx).1 with rfl | rfl <;> rfl

/-- The text of a zero with an exponent, by the loop: signs and zeroes, `e`, signs and zeroes, digits. -/
theorem zeroExp_text (n : Num) (h : n.IsNumber) (hz : n.ZeroExp) :
    ∃ a c s z r, n.text = a ++ c :: ((s ++ z) ++ r) ∧ a.all isLead = true ∧ (c = 'e' ∨ c = 'E') ∧
      (s = [] ∨ s = ['+'] ∨ s = ['-']) ∧ z.all (· == '0') = true ∧ r.all isDigit = true ∧ r.head? ≠ some '0' ∧
      (r = [] → z ≠ []) := by
  obtain ⟨h1, h2, h3⟩ := hz
  cases hx : n.exp with
  | none => exact absurd hx h3
  | some p =>
    obtain ⟨c, s, d⟩ := p
    obtain ⟨hc, hs, hd⟩ := h.2.2.2 _ _ _ hx
    refine ⟨n.sign ++ n.int, c, s, d.takeWhile (· == '0'), d.dropWhile (· == '0'), ?_, ?_, hc, hs, ?_, ?_, ?_, ?_⟩
    · simp [Num.text, h2, hx, Num.fracText, Num.expText, List.append_assoc, List.takeWhile_append_dropWhile]
    · rw [List.all_append, (Num.sign_lead h).1, Num.zeros_lead h1]; rfl
    · rw [List.all_eq_true]; intro e he
      exact List.all_eq_true.1 (List.all_takeWhile) e he
    · have := hd.2
      rw [← List.takeWhile_append_dropWhile (p := (· == '0')) (l := d), List.all_append, Bool.and_eq_true] at this
      exact this.2
    · intro hh
      have := dropWhile_head (· == '0') d '0' hh
      simp at this
    · intro hr hz
      have := List.takeWhile_append_dropWhile (p := (· == '0')) (l := d)
      rw [hr, hz] at this
      exact hd.1 this.symm

/-- What comes out is not a number of JSON. -/
theorem zeroExp_bad (x r : Text) (c : Char) (ng : Bool) (s z : Text) (hx : x = s ++ z)
    (hc : c = 'e' ∨ c = 'E') (hs : s = [] ∨ s = ['+'] ∨ s = ['-']) (hz : z.all (· == '0') = true)
    (hng : s = ['-'] → ng = true) (hr : r.all isDigit = true) (hrz : r = [] → z ≠ []) (k : Num) (hk : k.IsJson) :
    k.text ≠ ((if ng && !r.isEmpty then ['-'] else []) ++ x.getLastD c :: r) ++ (if r.isEmpty then ['0'] else []) := by
  intro ht
  obtain ⟨d, t, hd, h1, h2⟩ := isJson_shape k hk
  have hl : (x.getLastD c = '0') ∨ (isDigit (x.getLastD c) = false ∧ z = [] ∧ (x.getLastD c = '-' → ng = true)) := by
    subst hx
    cases hz' : z.getLast? with
    | some e =>
      have hm := List.mem_of_getLast? hz'
      have he := List.all_eq_true.1 hz e hm
      simp only [beq_iff_eq] at he
      refine .inl ?_
      rw [List.getLastD_eq_getLast?, List.getLast?_append, hz', he]; rfl
    | none =>
      have : z = [] := by simpa using hz'
      subst this
      refine .inr ?_
      rcases hs with rfl | rfl | rfl
      · rcases hc with rfl | rfl <;> exact ⟨rfl, rfl, fun h => by simp at h⟩
      · exact ⟨rfl, rfl, fun h => by simp at h⟩
      · exact ⟨rfl, rfl, fun _ => hng rfl⟩
  generalize x.getLastD c = l at ht hl
  cases r with
  | nil =>
    have hl0 : l = '0' := by
      rcases hl with h | h
      · exact h
      · exact absurd h.2.1 (hrz rfl)
    subst hl0
    simp only [List.isEmpty_nil, Bool.not_true, Bool.and_false, Bool.false_eq_true, if_false, if_true, List.nil_append,
      List.cons_append] at ht
    rw [ht] at hd
    rcases hd with hd | hd
    · simp only [List.cons.injEq] at hd
      obtain ⟨rfl, rfl⟩ := hd
      have := h2 rfl '0' rfl
      simp [isDigit] at this
    · simp at hd
  | cons e r =>
    rw [List.all_cons, Bool.and_eq_true] at hr
    simp only [List.isEmpty_cons, Bool.not_false, Bool.and_true, Bool.false_eq_true, if_false, List.append_nil] at ht
    -- the text below the sign
    have hbelow : ∀ g u, isDigit g = true → (g = '0' → ∀ e, u.head? = some e → isDigit e = false) → l :: e :: r ≠ g :: u := by
      intro g u hg h0 he
      simp only [List.cons.injEq] at he
      obtain ⟨rfl, rfl⟩ := he
      rcases hl with rfl | h
      · have := h0 rfl e rfl
        rw [hr.1] at this; cases this
      · rw [h.1] at hg; cases hg
    cases ng with
    | false =>
      simp only [Bool.false_eq_true, if_false, List.nil_append] at ht
      rw [ht] at hd
      rcases hd with hd | hd
      · exact hbelow d t h1 h2 hd
      · simp only [List.cons.injEq] at hd
        rcases hl with h | h
        · rw [hd.1] at h; simp at h
        · exact absurd (h.2.2 hd.1) (by simp)
    | true =>
      simp only [if_true, List.cons_append, List.nil_append] at ht
      rw [ht] at hd
      rcases hd with hd | hd
      · simp only [List.cons.injEq] at hd
        rw [← hd.1] at h1; simp [isDigit] at h1
      · simp only [List.cons.injEq, true_and] at hd
        exact hbelow d t h1 h2 (by rw [hd.1, hd.2])

/-- A zero with an exponent, in one fragment. -/
theorem zeroExp_frags (n : Num) (h : n.IsNumber) (hz : n.ZeroExp) :
    ∃ st o, numFrags strWriter [n.text] ({}, []) = .ok (st, o) ∧
      ∀ k : Num, k.IsJson → k.text ≠ o ++ (if st.atStart then ['0'] else []) := by
  obtain ⟨a, c, s, z, r, ht, ha, hc, hs, hz0, hr, h0, hrz⟩ := zeroExp_text n h hz
  have hsl : s.all isLead = true := by rcases hs with rfl | rfl | rfl <;> rfl
  have hxl : (s ++ z).all isLead = true := by rw [List.all_append, hsl, Num.zeros_lead hz0]; rfl
  have := numFragment_zeroExp a (s ++ z) r c ha hxl hc hr h0
  refine ⟨_, _, by rw [numFrags, ht, this]; rfl, fun k hk => ?_⟩
  refine zeroExp_bad (s ++ z) r c _ s z rfl hc hs hz0 ?_ hr hrz k hk
  rintro rfl
  simp

end Sval.Json
