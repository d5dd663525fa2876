import Verif.Core.Tree

set_option autoImplicit false

/-!
# A call sequence is the call sequence of at most one tree

So statements of the form "the calls are those of a well-formed tree with property X" do not
depend on how the calls are read back.
-/

namespace Sval

theorem textFrag_ne_end (f : Frag Text) : textFragTok f ≠ .textEnd := by cases f <;> simp [textFragTok]
theorem textFrag_inj {f g : Frag Text} (h : textFragTok f = textFragTok g) : f = g := by
  cases f <;> cases g <;> simp_all [textFragTok]
theorem binFrag_ne_end (f : Frag Bytes) : binFragTok f ≠ .binaryEnd := by cases f <;> simp [binFragTok]
theorem binFrag_inj {f g : Frag Bytes} (h : binFragTok f = binFragTok g) : f = g := by
  cases f <;> cases g <;> simp_all [binFragTok]

theorem textFrags_unique (fs gs : List (Frag Text)) (r r' : List Token)
    (h : fs.map textFragTok ++ .textEnd :: r = gs.map textFragTok ++ .textEnd :: r') :
    fs = gs ∧ r = r' := by
  induction fs generalizing gs with
  | nil =>
    cases gs with
    | nil => simpa using h
    | cons g gs =>
      simp only [List.map_nil, List.nil_append, List.map_cons, List.cons_append, List.cons.injEq] at h
      exact absurd h.1.symm (textFrag_ne_end g)
  | cons f fs ih =>
    cases gs with
    | nil =>
      simp only [List.map_nil, List.nil_append, List.map_cons, List.cons_append, List.cons.injEq] at h
      exact absurd h.1 (textFrag_ne_end f)
    | cons g gs =>
      simp only [List.map_cons, List.cons_append, List.cons.injEq] at h
      obtain ⟨h1, h2⟩ := ih gs h.2
      exact ⟨by rw [textFrag_inj h.1, h1], h2⟩

theorem binFrags_unique (fs gs : List (Frag Bytes)) (r r' : List Token)
    (h : fs.map binFragTok ++ .binaryEnd :: r = gs.map binFragTok ++ .binaryEnd :: r') :
    fs = gs ∧ r = r' := by
  induction fs generalizing gs with
  | nil =>
    cases gs with
    | nil => simpa using h
    | cons g gs =>
      simp only [List.map_nil, List.nil_append, List.map_cons, List.cons_append, List.cons.injEq] at h
      exact absurd h.1.symm (binFrag_ne_end g)
  | cons f fs ih =>
    cases gs with
    | nil =>
      simp only [List.map_nil, List.nil_append, List.map_cons, List.cons_append, List.cons.injEq] at h
      exact absurd h.1 (binFrag_ne_end f)
    | cons g gs =>
      simp only [List.map_cons, List.cons_append, List.cons.injEq] at h
      obtain ⟨h1, h2⟩ := ih gs h.2
      exact ⟨by rw [binFrag_inj h.1, h1], h2⟩

/-- What `toks` being uniquely readable means for one tree. -/
def Readable (v : V) : Prop :=
  ∀ (w : V) (r r' : List Token), toks v ++ r = toks w ++ r' → v = w ∧ r = r'

theorem seq_unique (xs ys : List V) (hx : ∀ x ∈ xs, Readable x) (r r' : List Token)
    (h : toksSeq xs ++ .seqEnd :: r = toksSeq ys ++ .seqEnd :: r') : xs = ys ∧ r = r' := by
  induction xs generalizing ys with
  | nil => cases ys with
    | nil => simpa [toksSeq] using h
    | cons y ys => simp [toksSeq] at h
  | cons x xs ih => cases ys with
    | nil => simp [toksSeq] at h
    | cons y ys =>
      simp only [toksSeq, List.cons_append, List.append_assoc, List.cons.injEq, true_and] at h
      obtain ⟨h1, h2⟩ := hx x (by simp) y _ _ h
      simp only [List.cons.injEq, true_and] at h2
      obtain ⟨h3, h4⟩ := ih ys (fun z hz => hx z (by simp [hz])) h2
      exact ⟨by rw [h1, h3], h4⟩

theorem map_unique (xs ys : List (V × V)) (hx : ∀ x ∈ xs, Readable x.1 ∧ Readable x.2)
    (r r' : List Token)
    (h : toksMap xs ++ .mapEnd :: r = toksMap ys ++ .mapEnd :: r') : xs = ys ∧ r = r' := by
  induction xs generalizing ys with
  | nil => cases ys with
    | nil => simpa [toksMap] using h
    | cons y ys => obtain ⟨_, _⟩ := y; simp [toksMap] at h
  | cons x xs ih => cases ys with
    | nil => obtain ⟨_, _⟩ := x; simp [toksMap] at h
    | cons y ys =>
      obtain ⟨k, v⟩ := x
      obtain ⟨k', v'⟩ := y
      simp only [toksMap, List.cons_append, List.append_assoc, List.cons.injEq, true_and] at h
      obtain ⟨h1, h2⟩ := (hx (k, v) (by simp)).1 k' _ _ h
      simp only [List.cons.injEq, true_and] at h2
      obtain ⟨h1', h2⟩ := (hx (k, v) (by simp)).2 v' _ _ h2
      simp only [List.cons.injEq, true_and] at h2
      obtain ⟨h3, h4⟩ := ih ys (fun z hz => hx z (by simp [hz])) h2
      simp only at h1 h1'
      exact ⟨by rw [h1, h1', h3], h4⟩

theorem rec_unique (xs ys : List (Option Tag × Label × V)) (hx : ∀ x ∈ xs, Readable x.2.2)
    (m m' : Meta) (r r' : List Token)
    (h : toksRec xs ++ .recordEnd m :: r = toksRec ys ++ .recordEnd m' :: r') :
    xs = ys ∧ r = r' := by
  induction xs generalizing ys with
  | nil => cases ys with
    | nil => simp [toksRec] at h; exact ⟨rfl, h.2⟩
    | cons y ys => obtain ⟨_, _, _⟩ := y; simp [toksRec] at h
  | cons x xs ih => cases ys with
    | nil => obtain ⟨_, _, _⟩ := x; simp [toksRec] at h
    | cons y ys =>
      obtain ⟨t, l, v⟩ := x
      obtain ⟨t', l', v'⟩ := y
      simp only [toksRec, List.cons_append, List.append_assoc, List.cons.injEq,
        Token.recordValueBegin.injEq] at h
      obtain ⟨⟨rfl, rfl⟩, h⟩ := h
      obtain ⟨h1, h2⟩ := hx (t, l, v) (by simp) v' _ _ h
      simp only [List.cons.injEq, true_and] at h2
      obtain ⟨h3, h4⟩ := ih ys (fun z hz => hx z (by simp [hz])) h2
      simp only at h1
      exact ⟨by rw [h1, h3], h4⟩

theorem tup_unique (xs ys : List (Option Tag × Index × V)) (hx : ∀ x ∈ xs, Readable x.2.2)
    (m m' : Meta) (r r' : List Token)
    (h : toksTup xs ++ .tupleEnd m :: r = toksTup ys ++ .tupleEnd m' :: r') :
    xs = ys ∧ r = r' := by
  induction xs generalizing ys with
  | nil => cases ys with
    | nil => simp [toksTup] at h; exact ⟨rfl, h.2⟩
    | cons y ys => obtain ⟨_, _, _⟩ := y; simp [toksTup] at h
  | cons x xs ih => cases ys with
    | nil => obtain ⟨_, _, _⟩ := x; simp [toksTup] at h
    | cons y ys =>
      obtain ⟨t, l, v⟩ := x
      obtain ⟨t', l', v'⟩ := y
      simp only [toksTup, List.cons_append, List.append_assoc, List.cons.injEq,
        Token.tupleValueBegin.injEq] at h
      obtain ⟨⟨rfl, rfl⟩, h⟩ := h
      obtain ⟨h1, h2⟩ := hx (t, l, v) (by simp) v' _ _ h
      simp only [List.cons.injEq, true_and] at h2
      obtain ⟨h3, h4⟩ := ih ys (fun z hz => hx z (by simp [hz])) h2
      simp only at h1
      exact ⟨by rw [h1, h3], h4⟩

theorem rt_unique (xs ys : List (Option Tag × Label × Index × V)) (hx : ∀ x ∈ xs, Readable x.2.2.2)
    (m m' : Meta) (r r' : List Token)
    (h : toksRT xs ++ .recordTupleEnd m :: r = toksRT ys ++ .recordTupleEnd m' :: r') :
    xs = ys ∧ r = r' := by
  induction xs generalizing ys with
  | nil => cases ys with
    | nil => simp [toksRT] at h; exact ⟨rfl, h.2⟩
    | cons y ys => obtain ⟨_, _, _, _⟩ := y; simp [toksRT] at h
  | cons x xs ih => cases ys with
    | nil => obtain ⟨_, _, _, _⟩ := x; simp [toksRT] at h
    | cons y ys =>
      obtain ⟨t, l, i, v⟩ := x
      obtain ⟨t', l', i', v'⟩ := y
      simp only [toksRT, List.cons_append, List.append_assoc, List.cons.injEq,
        Token.recordTupleValueBegin.injEq] at h
      obtain ⟨⟨rfl, rfl, rfl⟩, h⟩ := h
      obtain ⟨h1, h2⟩ := hx (t, l, i, v) (by simp) v' _ _ h
      simp only [List.cons.injEq, true_and] at h2
      obtain ⟨h3, h4⟩ := ih ys (fun z hz => hx z (by simp [hz])) h2
      simp only at h1
      exact ⟨by rw [h1, h3], h4⟩

/-- Prefix-free unique readability of call sequences. -/
theorem toks_readable (v : V) : Readable v := by
  induction v using V.ind with
  | null => intro w r r' h; cases w <;> simp [toks] at h <;> simp [h]
  | bool b => intro w r r' h; cases w <;> simp [toks] at h <;> simp [h]
  | int t v => intro w r r' h; cases w <;> simp [toks] at h <;> simp [h]
  | f32 b => intro w r r' h; cases w <;> simp [toks] at h <;> simp [h]
  | f64 b => intro w r r' h; cases w <;> simp [toks] at h <;> simp [h]
  | text n fs =>
    intro w r r' h; cases w <;> simp [toks] at h
    obtain ⟨rfl, h⟩ := h
    obtain ⟨rfl, h2⟩ := textFrags_unique _ _ _ _ h
    exact ⟨rfl, h2⟩
  | binary n fs =>
    intro w r r' h; cases w <;> simp [toks] at h
    obtain ⟨rfl, h⟩ := h
    obtain ⟨rfl, h2⟩ := binFrags_unique _ _ _ _ h
    exact ⟨rfl, h2⟩
  | seq n xs ih =>
    intro w r r' h; cases w <;> simp [toks] at h
    obtain ⟨rfl, h⟩ := h
    obtain ⟨rfl, h2⟩ := seq_unique _ _ ih _ _ h
    exact ⟨rfl, h2⟩
  | map n kvs ih =>
    intro w r r' h; cases w <;> simp [toks] at h
    obtain ⟨rfl, h⟩ := h
    obtain ⟨rfl, h2⟩ := map_unique _ _ ih _ _ h
    exact ⟨rfl, h2⟩
  | tag m => intro w r r' h; cases w <;> simp [toks] at h <;> simp [h]
  | tagged m v ih =>
    intro w r r' h; cases w <;> simp [toks] at h
    obtain ⟨rfl, h⟩ := h
    obtain ⟨rfl, h2⟩ := ih _ _ _ h
    simp at h2
    exact ⟨rfl, h2⟩
  | enum m v ih =>
    intro w r r' h; cases w <;> simp [toks] at h
    obtain ⟨rfl, h⟩ := h
    obtain ⟨rfl, h2⟩ := ih _ _ _ h
    simp at h2
    exact ⟨rfl, h2⟩
  | record m n fs ih =>
    intro w r r' h; cases w <;> simp [toks] at h
    obtain ⟨⟨rfl, rfl⟩, h⟩ := h
    obtain ⟨rfl, h2⟩ := rec_unique _ _ ih _ _ _ _ h
    exact ⟨rfl, h2⟩
  | tuple m n fs ih =>
    intro w r r' h; cases w <;> simp [toks] at h
    obtain ⟨⟨rfl, rfl⟩, h⟩ := h
    obtain ⟨rfl, h2⟩ := tup_unique _ _ ih _ _ _ _ h
    exact ⟨rfl, h2⟩
  | recordTuple m n fs ih =>
    intro w r r' h; cases w <;> simp [toks] at h
    obtain ⟨⟨rfl, rfl⟩, h⟩ := h
    obtain ⟨rfl, h2⟩ := rt_unique _ _ ih _ _ _ _ h
    exact ⟨rfl, h2⟩
  | hint t v ih =>
    intro w r r' h; cases w <;> simp [toks] at h
    obtain ⟨rfl, h⟩ := h
    obtain ⟨rfl, h2⟩ := ih _ _ _ h
    exact ⟨rfl, h2⟩

theorem toks_inj {v w : V} (h : toks v = toks w) : v = w := by
  have := toks_readable v w [] [] (by simpa using h)
  exact this.1

end Sval
