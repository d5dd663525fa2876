import Verif.Json.Refuse

set_option autoImplicit false

/-!
# Values without a document are refused

For values that use tags and enums as they are meant to be used.
-/

namespace Sval.Json

/-- A variant of an enum. -/
def isVariant : V → Bool
  | .tag _ | .tagged .. | .enum .. | .record .. | .tuple .. | .recordTuple .. => true
  | .hint _ v => isVariant v
  | _ => false

/-- Text with a special tag is what the tag says, and has no name. -/
def spells (m : Meta) (v : V) : Bool :=
  (idOf m).isNone && ((textOf v).bind (specialJ m.tag)).isSome && ((textOf v).bind (specialKey m.tag)).isSome

/-- Values that use tags and enums as they are meant to be used. -/
def usual : V → Bool
  | .seq _ xs => usuals xs
  | .map _ kvs => usualMap kvs
  | .tagged m v => if isSpecialTag m.tag then spells m v else usual v
  | .enum _ v => isVariant v && usual v
  | .record _ _ fs => usualRec fs
  | .tuple _ _ fs => usualTup fs
  | .recordTuple _ _ fs => usualRT fs
  | .hint _ v => usual v
  | _ => true
where
  usuals : List V → Bool
    | [] => true
    | x :: xs => usual x && usuals xs
  usualMap : List (V × V) → Bool
    | [] => true
    | (k, v) :: r => usual k && usual v && usualMap r
  usualRec : List (Option Tag × Label × V) → Bool
    | [] => true
    | (_, l, v) :: r => (labelText l).isSome && usual v && usualRec r
  usualTup : List (Option Tag × Index × V) → Bool
    | [] => true
    | (_, _, v) :: r => usual v && usualTup r
  usualRT : List (Option Tag × Label × Index × V) → Bool
    | [] => true
    | (_, l, _, v) :: r => (labelText l).isSome && usual v && usualRT r

theorem usuals_iff (xs : List V) : usual.usuals xs = true ↔ ∀ x ∈ xs, usual x = true := by
  induction xs with
  | nil => simp [usual.usuals]
  | cons x xs ih => simp [usual.usuals, ih]

theorem usualMap_iff (xs : List (V × V)) : usual.usualMap xs = true ↔ ∀ x ∈ xs, usual x.1 = true ∧ usual x.2 = true := by
  induction xs with
  | nil => simp [usual.usualMap]
  | cons x xs ih => obtain ⟨k, v⟩ := x; simp only [usual.usualMap, Bool.and_eq_true, ih, List.forall_mem_cons]

theorem usualRec_iff (xs : List (Option Tag × Label × V)) :
    usual.usualRec xs = true ↔ ∀ x ∈ xs, (labelText x.2.1).isSome = true ∧ usual x.2.2 = true := by
  induction xs with
  | nil => simp [usual.usualRec]
  | cons x xs ih => obtain ⟨t, l, v⟩ := x; simp only [usual.usualRec, Bool.and_eq_true, ih, List.forall_mem_cons]

theorem usualTup_iff (xs : List (Option Tag × Index × V)) : usual.usualTup xs = true ↔ ∀ x ∈ xs, usual x.2.2 = true := by
  induction xs with
  | nil => simp [usual.usualTup]
  | cons x xs ih => obtain ⟨t, l, v⟩ := x; simp only [usual.usualTup, Bool.and_eq_true, ih, List.forall_mem_cons]

theorem usualRT_iff (xs : List (Option Tag × Label × Index × V)) :
    usual.usualRT xs = true ↔ ∀ x ∈ xs, (labelText x.2.1).isSome = true ∧ usual x.2.2.2 = true := by
  induction xs with
  | nil => simp [usual.usualRT]
  | cons x xs ih => obtain ⟨t, l, i, v⟩ := x; simp only [usual.usualRT, Bool.and_eq_true, ih, List.forall_mem_cons]

/-- Finite floats are spelled as numbers. -/
structure Env.Numbers (env : Env) : Prop where
  f32 : ∀ b, f32Finite b = true → (numOf (env.f32 b)).isSome = true
  f64 : ∀ b, f64Finite b = true → (numOf (env.f64 b)).isSome = true

theorem special_text {v : V} (h : (textOf v).isSome = true) (tg q : Bool) : refused tg q v = false := by
  induction v using V.ind with
  | hint t v ih => exact ih h
  | text n fs => rfl
  | _ => cases h

theorem special_bare (t : Option Tag) (h : isSpecialTag t = false) : bareTag t = false := by
  rcases tag_kinds t with rfl | rfl | rfl | rfl | h
  · exact absurd h (by decide)
  · exact absurd h (by decide)
  · exact absurd h (by decide)
  · exact absurd h (by decide)
  · exact h.2

/-! ## Numbers are ASCII -/

theorem ascii_append (a b : Text) : ascii (a ++ b) = (ascii a && ascii b) := by simp [ascii, List.all_append]

theorem ascii_digits {s : Text} (h : s.all isDigit = true) : ascii s = true := by
  simp only [ascii, List.all_eq_true] at h ⊢
  intro c hc
  have := h c hc
  simp only [isDigit, Bool.and_eq_true, decide_eq_true_eq] at this ⊢
  omega

theorem ascii_number {n : Num} (h : n.IsNumber) : ascii n.text = true := by
  obtain ⟨h1, h2, h3, h4⟩ := h
  have hs : ∀ s : Text, s = [] ∨ s = ['+'] ∨ s = ['-'] → ascii s = true := by rintro s (rfl | rfl | rfl) <;> rfl
  have hf : ascii (Num.fracText n.frac) = true := by
    cases hf : n.frac with
    | none => rfl
    | some d =>
      show ascii (['.'] ++ d) = true
      rw [ascii_append, ascii_digits (h3 d hf).2]; rfl
  have he : ascii (Num.expText n.exp) = true := by
    match hx : n.exp with
    | none => rfl
    | some (c, s, d) =>
      obtain ⟨g1, g2, g3⟩ := h4 c s d hx
      show ascii ([c] ++ (s ++ d)) = true
      rw [ascii_append, ascii_append, hs s g2, ascii_digits g3.2]
      rcases g1 with rfl | rfl <;> rfl
  rw [Num.text, ascii_append, ascii_append, ascii_append, hs _ h1, ascii_digits h2.2, hf, he]
  rfl

theorem ascii_lower {s : Text} (h : ascii (s.map lowerC) = true) : ascii s = true := by
  simp only [ascii, List.all_eq_true, List.mem_map, forall_exists_index, and_imp, forall_apply_eq_imp_iff₂, decide_eq_true_eq] at h ⊢
  intro c hc
  have := h c hc
  rw [lowerC] at this
  split at this
  · omega
  · exact this

theorem ascii_nan {t : Text} (h : isNan t = true) : ascii t = true := by
  rw [isNan, decide_eq_true_eq] at h
  have h1 : ascii (pExpSign t).2 = true := by
    refine ascii_lower ?_
    simp only [List.mem_cons, List.not_mem_nil, or_false] at h
    rcases h with h | h | h | h <;> rw [h] <;> rfl
  obtain ⟨h2, h3⟩ := pExpSign_sound t
  rw [h3, ascii_append, h1, Bool.and_true]
  rcases h2 with h2 | h2 | h2 <;> rw [h2] <;> rfl

theorem ascii_numberOf {t : Text} (h : (numberOf t).isSome = true) : ascii t = true := by
  unfold numberOf at h
  split at h
  · rename_i n hn
    obtain ⟨h1, h2⟩ := pNumber_sound hn
    rw [← h2]
    exact ascii_number h1
  · split at h
    · rename_i hn; exact ascii_nan hn
    · cases h

theorem calm_text {v : V} {s : Text} (h : textOf v = some s) (num : Bool) : calm num v = (!num || ascii s) := by
  induction v using V.ind with
  | hint t v ih => exact ih h
  | text n fs => cases h; rfl
  | _ => cases h

theorem calm_usual (v : V) : usual v = true → calm false v = true := by
  refine V.ind (P := fun v => usual v = true → calm false v = true) ?_ ?_ ?_ ?_ ?_ ?_ ?_ ?_ ?_ ?_ ?_ ?_ ?_ ?_ ?_ ?_ v
  · exact fun _ => rfl
  · exact fun _ _ => rfl
  · exact fun _ _ _ => rfl
  · exact fun _ _ => rfl
  · exact fun _ _ => rfl
  · exact fun _ _ _ => rfl
  · exact fun _ _ _ => rfl
  · intro n xs ih h
    show calm.calms false xs = true
    replace h : usual.usuals xs = true := h
    induction xs with
    | nil => rfl
    | cons x xs ihx =>
      rw [usual.usuals, Bool.and_eq_true] at h
      rw [calm.calms, ih x (.head _) h.1, ihx (fun x hx => ih x (.tail _ hx)) h.2]; rfl
  · intro n xs ih h
    show calm.calmMap false xs = true
    replace h : usual.usualMap xs = true := h
    induction xs with
    | nil => rfl
    | cons x xs ihx =>
      obtain ⟨k, x⟩ := x
      rw [usual.usualMap, Bool.and_eq_true, Bool.and_eq_true] at h
      rw [calm.calmMap, (ih _ (.head _)).1 h.1.1, (ih _ (.head _)).2 h.1.2, ihx (fun x hx => ih x (.tail _ hx)) h.2]; rfl
  · exact fun _ _ => rfl
  · intro m v ih h
    rw [usual] at h
    rw [calm]
    cases hs : isSpecialTag m.tag with
    | false =>
      rw [hs] at h
      rw [if_neg (by rintro hn; rw [hn] at hs; exact absurd hs (by decide))]
      exact ih h
    | true =>
      rw [hs, if_pos rfl, spells, Bool.and_eq_true, Bool.and_eq_true] at h
      cases ht : textOf v with
      | none => rw [ht] at h; cases h.2
      | some s =>
        rw [calm_text ht]
        by_cases hn : m.tag = some tags.NUMBER
        · have := h.1.2
          rw [ht, hn] at this
          rw [ascii_numberOf (by simpa [specialJ] using this), Bool.or_true]
        · rw [if_neg hn]; rfl
  · intro m v ih h
    rw [usual, Bool.and_eq_true] at h
    exact ih h.2
  · intro m n xs ih h
    show calm.calmRec false xs = true
    replace h : usual.usualRec xs = true := h
    induction xs with
    | nil => rfl
    | cons x xs ihx =>
      obtain ⟨t, l, x⟩ := x
      rw [usual.usualRec, Bool.and_eq_true, Bool.and_eq_true] at h
      rw [calm.calmRec, ih _ (.head _) h.1.2, ihx (fun x hx => ih x (.tail _ hx)) h.2]; rfl
  · intro m n xs ih h
    show calm.calmTup false xs = true
    replace h : usual.usualTup xs = true := h
    induction xs with
    | nil => rfl
    | cons x xs ihx =>
      obtain ⟨t, l, x⟩ := x
      rw [usual.usualTup, Bool.and_eq_true] at h
      rw [calm.calmTup, ih _ (.head _) h.1, ihx (fun x hx => ih x (.tail _ hx)) h.2]; rfl
  · intro m n xs ih h
    show calm.calmRT false xs = true
    replace h : usual.usualRT xs = true := h
    induction xs with
    | nil => rfl
    | cons x xs ihx =>
      obtain ⟨t, l, i, x⟩ := x
      rw [usual.usualRT, Bool.and_eq_true, Bool.and_eq_true] at h
      rw [calm.calmRT, ih _ (.head _) h.1.2, ihx (fun x hx => ih x (.tail _ hx)) h.2]; rfl
  · exact fun t v ih h => ih h

/-! ## Documents -/

variable (env : Env)

/-- What is to be shown of a value. -/
def HasDoc (v : V) : Prop := usual v = true →
  (∀ tg, refused tg true v = (value env v).isNone) ∧ refused false false v = (keyText env v).isNone ∧
  (isVariant v = true → (∀ tg, refused tg true v = (variant env v).isNone) ∧ refused true false v = (keyVariant env v).isNone)

theorem consO_isNone {α : Type} (x : Option α) (xs : Option (List α)) : (consO x xs).isNone = (x.isNone || xs.isNone) := by
  cases x <;> cases xs <;> rfl

theorem pairO_isNone (k : Option Text) (j : Option J) : (pairO k j).isNone = (k.isNone || j.isNone) := by
  cases k <;> cases j <;> rfl

theorem doc_seqs (xs : List V) (ih : ∀ x ∈ xs, HasDoc env x) (h : usual.usuals xs = true) :
    refused.refuseds xs = (values env xs).isNone := by
  induction xs with
  | nil => rfl
  | cons x xs ihx =>
    rw [usual.usuals, Bool.and_eq_true] at h
    rw [refused.refuseds, values, consO_isNone, (ih x (.head _) h.1).1, ihx (fun x hx => ih x (.tail _ hx)) h.2]

theorem doc_map (xs : List (V × V)) (ih : ∀ x ∈ xs, HasDoc env x.1 ∧ HasDoc env x.2) (h : usual.usualMap xs = true) :
    refused.refusedMap xs = (entries env xs).isNone := by
  induction xs with
  | nil => rfl
  | cons x xs ihx =>
    obtain ⟨k, v⟩ := x
    rw [usual.usualMap, Bool.and_eq_true, Bool.and_eq_true] at h
    rw [refused.refusedMap, entries, consO_isNone, pairO_isNone, ((ih (k, v) (.head _)).1 h.1.1).2.1,
      ((ih (k, v) (.head _)).2 h.1.2).1, ihx (fun x hx => ih x (.tail _ hx)) h.2]

theorem doc_rec (xs : List (Option Tag × Label × V)) (ih : ∀ x ∈ xs, HasDoc env x.2.2) (h : usual.usualRec xs = true) :
    refused.refusedRec xs = (fields env xs).isNone := by
  induction xs with
  | nil => rfl
  | cons x xs ihx =>
    obtain ⟨t, l, v⟩ := x
    rw [usual.usualRec, Bool.and_eq_true, Bool.and_eq_true] at h
    have hl : (labelText l).isNone = false := by rw [← Option.not_isSome, h.1.1]; rfl
    rw [refused.refusedRec, fields, consO_isNone, pairO_isNone, hl, Bool.false_or, (ih _ (.head _) h.1.2).1,
      ihx (fun x hx => ih x (.tail _ hx)) h.2]

theorem doc_tup (xs : List (Option Tag × Index × V)) (ih : ∀ x ∈ xs, HasDoc env x.2.2) (h : usual.usualTup xs = true) :
    refused.refusedTup xs = (items env xs).isNone := by
  induction xs with
  | nil => rfl
  | cons x xs ihx =>
    obtain ⟨t, l, v⟩ := x
    rw [usual.usualTup, Bool.and_eq_true] at h
    rw [refused.refusedTup, items, consO_isNone, (ih _ (.head _) h.1).1,
      ihx (fun x hx => ih x (.tail _ hx)) h.2]

theorem doc_rt (xs : List (Option Tag × Label × Index × V)) (ih : ∀ x ∈ xs, HasDoc env x.2.2.2) (h : usual.usualRT xs = true) :
    refused.refusedRT xs = (fieldsRT env xs).isNone := by
  induction xs with
  | nil => rfl
  | cons x xs ihx =>
    obtain ⟨t, l, i, v⟩ := x
    rw [usual.usualRT, Bool.and_eq_true, Bool.and_eq_true] at h
    have hl : (labelText l).isNone = false := by rw [← Option.not_isSome, h.1.1]; rfl
    rw [refused.refusedRT, fieldsRT, consO_isNone, pairO_isNone, hl, Bool.false_or, (ih _ (.head _) h.1.2).1,
      ihx (fun x hx => ih x (.tail _ hx)) h.2]

theorem map_isNone {α β : Type} (f : α → β) (x : Option α) : (x.map f).isNone = x.isNone := by cases x <;> rfl

theorem ite_isNone {α : Type} {c : Bool} {x : Option α} {y : α} (h : c = true → x.isSome = true) :
    (if c then x else some y).isNone = false := by
  cases c with
  | false => rfl
  | true => rw [if_pos rfl, ← Option.not_isSome, h rfl]; rfl

theorem doc_tagged (m : Meta) (v : V) (ih : HasDoc env v) : HasDoc env (.tagged m v) := by
  intro h
  rw [usual] at h
  cases hs : isSpecialTag m.tag with
  | true =>
    rw [hs, if_pos rfl, spells, Bool.and_eq_true, Bool.and_eq_true] at h
    obtain ⟨⟨h1, h2⟩, h3⟩ := h
    have hi : (idOf m).isSome = false := by rw [← Option.not_isNone, h1]; rfl
    have ht : (textOf v).isSome = true := by cases hv : textOf v with
      | none => rw [hv] at h2; cases h2
      | some _ => rfl
    have hr : ∀ tg q, refused tg q (.tagged m v) = false := by
      intro tg q
      rw [refused, hi, special_text ht]
      simp
    have h2' : ((textOf v).bind (specialJ m.tag)).isNone = false := by rw [← Option.not_isSome, h2]; rfl
    have h3' : ((textOf v).bind (specialKey m.tag)).isNone = false := by rw [← Option.not_isSome, h3]; rfl
    refine ⟨fun tg => ?_, ?_, fun _ => ⟨fun tg => ?_, ?_⟩⟩
    · rw [hr, value, hs, if_pos rfl, h2']
    · rw [hr, keyText, hs, if_pos rfl, h3']
    · rw [hr, variant, hs, if_pos rfl, map_isNone, h2']
    · rw [hr, keyVariant, hs, if_pos rfl, if_pos (Option.isNone_iff_eq_none.1 h1), h3']
  | false =>
    rw [hs] at h
    have ih := ih h
    have hb := special_bare _ hs
    have hr : ∀ tg, refused tg true (.tagged m v) = refused false true v := by
      intro tg
      rw [refused, hb]
      simp
    refine ⟨fun tg => ?_, ?_, fun _ => ⟨fun tg => ?_, ?_⟩⟩
    · rw [hr, value, hs, ih.1]; rfl
    · rw [keyText, hs, refused, hb]; simp [ih.2.1]
    · rw [hr, variant, hs, map_isNone, ih.1]; rfl
    · rw [keyVariant, hs, refused, hb]
      cases hi : idOf m with
      | none => simp [ih.2.1]
      | some k => simp

theorem has_doc (he : env.Numbers) (v : V) : HasDoc env v := by
  refine V.ind (P := HasDoc env) ?_ ?_ ?_ ?_ ?_ ?_ ?_ ?_ ?_ ?_ (doc_tagged env) ?_ ?_ ?_ ?_ ?_ v
  · exact fun _ => ⟨fun _ => rfl, rfl, nofun⟩
  · exact fun _ _ => ⟨fun _ => rfl, rfl, nofun⟩
  · exact fun _ _ _ => ⟨fun _ => rfl, rfl, nofun⟩
  · intro b _
    refine ⟨fun _ => ?_, ?_, nofun⟩
    · rw [value, ite_isNone (he.f32 b)]; rfl
    · rw [keyText, ite_isNone fun h => by rw [Option.isSome_map, he.f32 b h]]; rfl
  · intro b _
    refine ⟨fun _ => ?_, ?_, nofun⟩
    · rw [value, ite_isNone (he.f64 b)]; rfl
    · rw [keyText, ite_isNone fun h => by rw [Option.isSome_map, he.f64 b h]]; rfl
  · exact fun _ _ _ => ⟨fun _ => rfl, rfl, nofun⟩
  · exact fun _ _ _ => ⟨fun _ => rfl, rfl, nofun⟩
  · exact fun n xs ih h => ⟨fun _ => by rw [value, map_isNone, ← doc_seqs env xs ih h]; rfl, rfl, nofun⟩
  · exact fun n xs ih h => ⟨fun _ => by rw [value, map_isNone, ← doc_map env xs ih h]; rfl, rfl, nofun⟩
  · exact fun m _ => ⟨fun _ => rfl, rfl, fun _ => ⟨fun _ => rfl, rfl⟩⟩
  · intro m v ih h
    rw [usual, Bool.and_eq_true] at h
    have ih := (ih h.2).2.2 h.1
    have hr : ∀ tg, refused tg true (.enum m v) = (variant env v).isNone := by
      intro tg
      rw [refused, ih.1]
      simp
    refine ⟨fun tg => by rw [hr]; rfl, ?_, fun _ => ⟨fun tg => by rw [hr, variant, map_isNone], ?_⟩⟩
    · rw [refused, ih.2]; simp [keyText]
    · rw [refused, ih.2, keyVariant]
      cases hi : idOf m <;> simp
  · exact fun m n xs ih h => ⟨fun _ => by rw [value, map_isNone, ← doc_rec env xs ih h]; rfl, rfl, fun _ =>
      ⟨fun _ => by rw [variant, map_isNone, ← doc_rec env xs ih h]; rfl, rfl⟩⟩
  · exact fun m n xs ih h => ⟨fun _ => by rw [value, map_isNone, ← doc_tup env xs ih h]; rfl, rfl, fun _ =>
      ⟨fun _ => by rw [variant, map_isNone, ← doc_tup env xs ih h]; rfl, rfl⟩⟩
  · exact fun m n xs ih h => ⟨fun _ => by rw [value, map_isNone, ← doc_rt env xs ih h]; rfl, rfl, fun _ =>
      ⟨fun _ => by rw [variant, map_isNone, ← doc_rt env xs ih h]; rfl, rfl⟩⟩
  · intro t v ih h
    have ih := ih h
    exact ⟨ih.1, ih.2.1, ih.2.2⟩

end Sval.Json
