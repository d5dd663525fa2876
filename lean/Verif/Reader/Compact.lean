import Verif.Reader.Format

set_option autoImplicit false

/-!
# What the JSON formatter writes has no whitespace between its parts
-/

namespace Sval.Reader

open Json

mutual
/-- No part of the value is JSON to be copied. Keys are not looked at. -/
def noRaw : V → Bool
  | .seq _ xs => noRaws xs
  | .map _ kvs => noRawM kvs
  | .tagged m v => m.tag != some tags.JSON_VALUE && noRaw v
  | .enum _ v => noRaw v
  | .record _ _ fs => noRawF fs
  | .tuple _ _ fs => noRawI fs
  | .recordTuple _ _ fs => noRawRT fs
  | .hint _ v => noRaw v
  | _ => true
def noRaws : List V → Bool
  | [] => true
  | x :: xs => noRaw x && noRaws xs
def noRawM : List (V × V) → Bool
  | [] => true
  | (_, v) :: r => noRaw v && noRawM r
def noRawF : List (Option Tag × Label × V) → Bool
  | [] => true
  | (_, _, v) :: r => noRaw v && noRawF r
def noRawI : List (Option Tag × Index × V) → Bool
  | [] => true
  | (_, _, v) :: r => noRaw v && noRawI r
def noRawRT : List (Option Tag × Label × Index × V) → Bool
  | [] => true
  | (_, _, _, v) :: r => noRaw v && noRawRT r
end

/-- Nothing is to be dropped from the text. -/
def Outer (t : Text) : Prop := ∀ r, squeeze false (t ++ r) = t ++ squeeze false r

/-- The same, for text between quotes. -/
def Inner (t : Text) : Prop := ∀ r, squeeze true (t ++ '"' :: r) = t ++ '"' :: squeeze false r

theorem Outer.append {a b : Text} (ha : Outer a) (hb : Outer b) : Outer (a ++ b) := by
  intro r; rw [List.append_assoc, ha, hb, List.append_assoc]

theorem Outer.cons {c : Char} {b : Text} (h1 : c ≠ '"') (h2 : isWs c = false) (hb : Outer b) : Outer (c :: b) := by
  intro r; rw [List.cons_append, squeeze_one _ h1 h2, hb]; rfl

theorem outer_nil : Outer [] := fun _ => rfl

theorem Inner.quote {k : Text} (h : Inner k) : Outer (quoteT k) := by
  intro r
  have : quoteT k ++ r = '"' :: (k ++ '"' :: r) := by simp [quoteT]
  rw [this, squeeze, if_pos rfl, h]
  simp [quoteT]

theorem squeeze_in {c : Char} (r : Text) (h1 : c ≠ '"') (h2 : c ≠ '\\') : squeeze true (c :: r) = c :: squeeze true r := by
  rw [squeeze]
  · exact h1
  · intro e x hc _; exact h2 hc

theorem hex_ne {a : Char} {n : Nat} (h : hexVal a = some n) : a ≠ '"' ∧ a ≠ '\\' := by
  constructor <;> (rintro rfl; rw [show hexVal _ = none by decide] at h; cases h)

theorem squeeze_hex {a b c d : Char} {n : Nat} (h : hex4 a b c d = some n) (r : Text) :
    squeeze true ('\\' :: 'u' :: a :: b :: c :: d :: r) = '\\' :: 'u' :: a :: b :: c :: d :: squeeze true r := by
  unfold hex4 at h
  cases ha : hexVal a with
  | none => rw [ha] at h; cases h
  | some na =>
  cases hb : hexVal b with
  | none => rw [ha, hb] at h; cases h
  | some nb =>
  cases hc : hexVal c with
  | none => rw [ha, hb, hc] at h; cases h
  | some nc =>
  cases hd : hexVal d with
  | none => rw [ha, hb, hc, hd] at h; cases h
  | some nd =>
    rw [show squeeze true ('\\' :: 'u' :: a :: b :: c :: d :: r) = '\\' :: 'u' :: squeeze true (a :: b :: c :: d :: r) by
        simp [squeeze],
      squeeze_in _ (hex_ne ha).1 (hex_ne ha).2, squeeze_in _ (hex_ne hb).1 (hex_ne hb).2,
      squeeze_in _ (hex_ne hc).1 (hex_ne hc).2, squeeze_in _ (hex_ne hd).1 (hex_ne hd).2]

theorem inner_lit {u s : Text} (h : StrLit u s) : Inner u := by
  intro r
  induction h with
  | nil => rfl
  | raw c hc _ ih =>
    have hc := rawOk_isPlain hc
    simp only [isPlain, Bool.and_eq_true, bne_iff_ne, ne_eq] at hc
    rw [List.cons_append, squeeze_in _ hc.2 hc.1, ih]
    rfl
  | esc e c he h ih => simp only [List.cons_append, squeeze]; rw [ih]
  | uni a b c d n h1 h2 h ih =>
    simp only [List.cons_append]
    rw [squeeze_hex h1, ih]
  | pair a b c d a' b' c' d' n n' h1 h2 h3 h4 h ih =>
    simp only [List.cons_append]
    rw [squeeze_hex h1, squeeze_hex h3, ih]

theorem outer_of {t : Text} (h : t.all (fun c => c != '"' && !isWs c) = true) : Outer t := fun r => squeeze_skip t r h

theorem outer_num {t : Text} {q : Rat} (h : NumLit t q) : Outer t := by
  obtain ⟨n, hn, rfl, -⟩ := h
  have ht : n.text = (n.sign ++ (n.int ++ Num.fracText n.frac)) ++ Num.expText n.exp := by simp [Num.text]
  rw [ht]
  refine Outer.append (fun r => squeeze_number _ r (num_chars n hn).1) ?_
  cases he : n.exp with
  | none => exact outer_nil
  | some x =>
    obtain ⟨c, s, d⟩ := x
    obtain ⟨h1, h2, h3⟩ := hn.2.2.2.2 c s d he
    refine Outer.cons (by rcases h1 with rfl | rfl <;> decide) (by rcases h1 with rfl | rfl <;> decide) (Outer.append ?_ ?_)
    · rcases h2 with rfl | rfl | rfl <;> exact outer_of (by decide)
    · exact fun r => squeeze_number _ r (digits_chars h3.2).1

theorem outer_int (v : Int) : Outer (intDec v) := outer_num (intDec_val v)

theorem outer_commas (ts : List Text) (h : ∀ t ∈ ts, Outer t) : Outer (commas ts) := by
  induction ts with
  | nil => exact outer_nil
  | cons t ts ih =>
    cases ts with
    | nil => exact h t (by simp)
    | cons u ts => exact (h t (by simp)).append (.cons (by decide) (by decide) (ih fun x hx => h x (by simp [hx])))

theorem outer_brackets (ts : List Text) (h : ∀ t ∈ ts, Outer t) : Outer (brackets ts) :=
  .cons (by decide) (by decide) ((outer_commas ts h).append (outer_of (by decide)))

theorem outer_braces (ts : List Text) (h : ∀ t ∈ ts, Outer t) : Outer (braces ts) :=
  .cons (by decide) (by decide) ((outer_commas ts h).append (outer_of (by decide)))

theorem outer_entry {k t : Text} (hk : Inner k) (ht : Outer t) : Outer (keyLit k ++ t) := by
  have : keyLit k = quoteT k ++ [':'] := by simp [keyLit, quoteT]
  rw [this]
  exact (hk.quote.append (outer_of (by decide))).append ht

theorem inner_esc (t : Text) : Inner (escT t) := by
  rw [← escape_eq]
  exact inner_lit (escape_lit t)

theorem inner_label {l : Label} {k : Text} (h : labelText l = some k) : Inner (labelT l) := by
  unfold labelText at h
  unfold labelT
  split
  · rename_i ht
    split at h
    · cases h
    · rename_i hn
      exact inner_lit (raw_lit _ (by
        cases hr : l.text.all rawOk with
        | true => rfl
        | false => exact absurd ⟨ht, hr⟩ hn))
  · exact inner_esc _

theorem inner_name (m : Meta) : Inner (nameT m) := by
  unfold nameT idOf
  cases m.label with
  | some l => exact inner_esc _
  | none =>
    dsimp only
    cases m.index with
    | none => exact inner_lit .nil
    | some i =>
      dsimp only [Option.bind]
      split
      · exact inner_lit (raw_lit _ (intDec_raw _))
      · exact inner_lit .nil

theorem outer_wrap (m : Meta) {t : Text} (h : Outer t) : Outer (wrapT m t) := by
  unfold wrapT
  split
  · exact outer_braces _ (by intro u hu; rw [List.mem_singleton] at hu; subst hu; exact outer_entry (inner_name m) h)
  · exact h

theorem outer_tag (m : Meta) : Outer (tagT m) := by
  unfold tagT idOf
  split
  · exact outer_of (by decide)
  · cases m.label with
    | some l => exact (inner_esc _).quote
    | none =>
      dsimp only
      cases m.index with
      | none => exact outer_of (by decide)
      | some i =>
        dsimp only [Option.bind]
        split
        · exact outer_int _
        · exact outer_of (by decide)

section
variable (env : Env)

theorem outer_special {t : Option Tag} {s : Text} {j : J} (hs : isSpecialTag t = true) (h : specialJ t s = some j)
    (hn : t ≠ some tags.JSON_VALUE) : Outer (specialT t s) := by
  unfold specialJ at h
  unfold specialT specialKeyT
  by_cases h1 : t = some tags.NUMBER
  · subst h1
    rw [if_pos rfl] at h
    rw [if_neg (by decide), if_pos rfl]
    obtain ⟨u, h1, h2⟩ := numberOf_sound h
    rw [h1]
    unfold numberOf at h
    split at h
    · cases h; exact outer_num h2
    · split at h
      · cases h; simp only [Val] at h2; subst h2; exact outer_of (by decide)
      · cases h
  · rw [if_neg h1, if_neg hn] at h
    rw [if_neg h1]
    by_cases h3 : t = some tags.JSON_NUMBER
    · subst h3
      rw [if_pos rfl] at h
      rw [if_neg (by decide)]
      have := (numOf_sound h).1
      unfold numOf at h
      split at h
      · cases h; exact outer_num this
      · cases h
    · rw [if_neg h3, Option.map_eq_some_iff] at h
      obtain ⟨u, hu, rfl⟩ := h
      rw [if_pos (by simpa [isSpecialTag, h1, hn, h3] using hs)]
      exact (inner_lit (strOf_sound hu)).quote

theorem inner_key {k : V} {u : Text} (h : keyText env k = some u) (hs : safeKey k = true) : Inner (keyT env k) := by
  obtain ⟨t, q, _, h1, h2⟩ := (P4_all env k).2.2.1 u h hs true false []
  rw [← h2]
  exact inner_lit h1

/-- The two ways a value is written. -/
def Compacts (v : V) : Prop :=
  (∀ j, value env v = some j → safe v = true → noRaw v = true → Outer (valueT env v)) ∧
  (∀ j, variant env v = some j → safeVariant v = true → noRaw v = true → Outer (variantT env v))

theorem leaf {v : V} (hx : variant env v = none) (h : ∀ j, value env v = some j → Outer (valueT env v)) : Compacts env v :=
  ⟨fun j hj _ _ => h j hj, fun j hj => by rw [hx] at hj; cases hj⟩

theorem outer_values (xs : List V) (ih : ∀ x ∈ xs, Compacts env x) (js : List J) (hj : values env xs = some js)
    (hs : safes xs = true) (hr : noRaws xs = true) : ∀ t ∈ valuesT env xs, Outer t := by
  induction xs generalizing js with
  | nil => intro t ht; cases ht
  | cons x xs ihx =>
    obtain ⟨y, ys, h1, h2, rfl⟩ := consO_some hj
    simp only [safes, noRaws, Bool.and_eq_true] at hs hr
    intro t ht
    simp only [valuesT, List.mem_cons] at ht
    rcases ht with rfl | ht
    · exact (ih x (by simp)).1 y h1 hs.1 hr.1
    · exact ihx (fun z hz => ih z (by simp [hz])) ys h2 hs.2 hr.2 t ht

theorem outer_entries (xs : List (V × V)) (ih : ∀ x ∈ xs, Compacts env x.2) (js : List (Text × J))
    (hj : entries env xs = some js) (hs : safeEntries xs = true) (hr : noRawM xs = true) : ∀ t ∈ entriesT env xs, Outer t := by
  induction xs generalizing js with
  | nil => intro t ht; cases ht
  | cons x xs ihx =>
    obtain ⟨k, v⟩ := x
    obtain ⟨y, ys, h1, h2, rfl⟩ := consO_some hj
    obtain ⟨k', v', h3, h4, rfl⟩ := pairO_some h1
    simp only [safeEntries, noRawM, Bool.and_eq_true] at hs hr
    intro t ht
    simp only [entriesT, List.mem_cons] at ht
    rcases ht with rfl | ht
    · exact outer_entry (inner_key env h3 hs.1.1.1) ((ih (k, v) (by simp)).1 v' h4 hs.1.1.2 hr.1)
    · exact ihx (fun z hz => ih z (by simp [hz])) ys h2 hs.2 hr.2 t ht

theorem outer_fields (xs : List (Option Tag × Label × V)) (ih : ∀ x ∈ xs, Compacts env x.2.2) (js : List (Text × J))
    (hj : fields env xs = some js) (hs : safeFields xs = true) (hr : noRawF xs = true) : ∀ t ∈ fieldsT env xs, Outer t := by
  induction xs generalizing js with
  | nil => intro t ht; cases ht
  | cons x xs ihx =>
    obtain ⟨tg, l, v⟩ := x
    obtain ⟨y, ys, h1, h2, rfl⟩ := consO_some hj
    obtain ⟨k', v', h3, h4, rfl⟩ := pairO_some h1
    simp only [safeFields, noRawF, Bool.and_eq_true] at hs hr
    intro t ht
    simp only [fieldsT, List.mem_cons] at ht
    rcases ht with rfl | ht
    · exact outer_entry (inner_label h3) ((ih (tg, l, v) (by simp)).1 v' h4 hs.1 hr.1)
    · exact ihx (fun z hz => ih z (by simp [hz])) ys h2 hs.2 hr.2 t ht

theorem outer_items (xs : List (Option Tag × Index × V)) (ih : ∀ x ∈ xs, Compacts env x.2.2) (js : List J)
    (hj : items env xs = some js) (hs : safeItems xs = true) (hr : noRawI xs = true) : ∀ t ∈ itemsT env xs, Outer t := by
  induction xs generalizing js with
  | nil => intro t ht; cases ht
  | cons x xs ihx =>
    obtain ⟨tg, l, v⟩ := x
    obtain ⟨y, ys, h1, h2, rfl⟩ := consO_some hj
    simp only [safeItems, noRawI, Bool.and_eq_true] at hs hr
    intro t ht
    simp only [itemsT, List.mem_cons] at ht
    rcases ht with rfl | ht
    · exact (ih (tg, l, v) (by simp)).1 y h1 hs.1 hr.1
    · exact ihx (fun z hz => ih z (by simp [hz])) ys h2 hs.2 hr.2 t ht

theorem outer_rt (xs : List (Option Tag × Label × Index × V)) (ih : ∀ x ∈ xs, Compacts env x.2.2.2) (js : List (Text × J))
    (hj : fieldsRT env xs = some js) (hs : safeRT xs = true) (hr : noRawRT xs = true) : ∀ t ∈ fieldsRTT env xs, Outer t := by
  induction xs generalizing js with
  | nil => intro t ht; cases ht
  | cons x xs ihx =>
    obtain ⟨tg, l, i, v⟩ := x
    obtain ⟨y, ys, h1, h2, rfl⟩ := consO_some hj
    obtain ⟨k', v', h3, h4, rfl⟩ := pairO_some h1
    simp only [safeRT, noRawRT, Bool.and_eq_true] at hs hr
    intro t ht
    simp only [fieldsRTT, List.mem_cons] at ht
    rcases ht with rfl | ht
    · exact outer_entry (inner_label h3) ((ih (tg, l, i, v) (by simp)).1 v' h4 hs.1 hr.1)
    · exact ihx (fun z hz => ih z (by simp [hz])) ys h2 hs.2 hr.2 t ht

theorem outer_float {t : Text} {j : J} (h : numOf t = some j) : Outer t := by
  have := (numOf_sound h).1
  unfold numOf at h
  split at h
  · cases h; exact outer_num this
  · cases h

theorem compacts (v : V) : Compacts env v := by
  induction v using V.ind with
  | null => exact leaf env rfl fun _ _ => outer_of (t := t! "null") (by decide)
  | bool b =>
    exact leaf env rfl fun _ _ => by
      cases b
      · exact outer_of (t := t! "false") (by decide)
      · exact outer_of (t := t! "true") (by decide)
  | int t v => exact leaf env rfl fun _ _ => outer_int v
  | f32 b =>
    refine leaf env rfl fun j hj => ?_
    simp only [value] at hj
    simp only [valueT]
    split
    · rename_i hf; rw [if_pos hf] at hj; exact outer_float hj
    · exact outer_of (by decide)
  | f64 b =>
    refine leaf env rfl fun j hj => ?_
    simp only [value] at hj
    simp only [valueT]
    split
    · rename_i hf; rw [if_pos hf] at hj; exact outer_float hj
    · exact outer_of (by decide)
  | text n fs => exact leaf env rfl fun _ _ => (inner_esc _).quote
  | binary n fs =>
    refine leaf env rfl fun _ _ => outer_brackets _ ?_
    intro t ht
    rw [List.mem_map] at ht
    obtain ⟨b, _, rfl⟩ := ht
    exact outer_int _
  | tag m => exact ⟨fun _ _ _ _ => outer_tag m, fun _ _ _ _ => outer_tag m⟩
  | seq n xs ih =>
    refine ⟨fun j hj hs hr => ?_, fun j hj => by cases hj⟩
    rw [value, Option.map_eq_some_iff] at hj
    obtain ⟨js, hj, rfl⟩ := hj
    exact outer_brackets _ (outer_values env xs ih js hj hs hr)
  | map n xs ih =>
    refine ⟨fun j hj hs hr => ?_, fun j hj => by cases hj⟩
    rw [value, Option.map_eq_some_iff] at hj
    obtain ⟨js, hj, rfl⟩ := hj
    exact outer_braces _ (outer_entries env xs (fun x hx => (ih x hx).2) js hj hs hr)
  | tagged m v ih =>
    by_cases hsp : isSpecialTag m.tag = true
    · constructor
      · intro j hj hs hr
        simp only [value, hsp, if_true, Option.bind_eq_some_iff] at hj
        obtain ⟨t, h1, h2⟩ := hj
        simp only [noRaw, Bool.and_eq_true, bne_iff_ne, ne_eq] at hr
        simp only [valueT, hsp, if_true, h1]
        exact outer_special hsp h2 hr.1
      · intro j hj hs hr
        simp only [variant, hsp, if_true, Option.map_eq_some_iff, Option.bind_eq_some_iff] at hj
        obtain ⟨_, ⟨t, h1, h2⟩, _⟩ := hj
        simp only [noRaw, Bool.and_eq_true, bne_iff_ne, ne_eq] at hr
        simp only [variantT, hsp, if_true, h1]
        exact outer_wrap m (outer_special hsp h2 hr.1)
    · constructor
      · intro j hj hs hr
        simp only [value, hsp] at hj
        simp only [safe, hsp] at hs
        simp only [noRaw, Bool.and_eq_true] at hr
        simp only [valueT, hsp]
        exact ih.1 j hj hs hr.2
      · intro j hj hs hr
        simp only [variant, hsp, Option.map_eq_some_iff] at hj
        obtain ⟨j, hj, _⟩ := hj
        simp only [safeVariant, hsp] at hs
        simp only [noRaw, Bool.and_eq_true] at hr
        simp only [variantT, hsp]
        exact outer_wrap m (ih.1 j hj hs hr.2)
  | enum m v ih =>
    refine ⟨fun j hj hs hr => ih.2 j hj hs hr, fun j hj hs hr => ?_⟩
    simp only [variant, Option.map_eq_some_iff] at hj
    obtain ⟨j, hj, _⟩ := hj
    simp only [safeVariant, Bool.and_eq_true] at hs
    exact outer_wrap m (ih.2 j hj hs.1 hr)
  | record m n fs ih =>
    constructor
    · intro j hj hs hr
      rw [value, Option.map_eq_some_iff] at hj
      obtain ⟨js, hj, rfl⟩ := hj
      exact outer_braces _ (outer_fields env fs ih js hj hs hr)
    · intro j hj hs hr
      rw [variant, Option.map_eq_some_iff] at hj
      obtain ⟨js, hj, rfl⟩ := hj
      exact outer_wrap m (outer_braces _ (outer_fields env fs ih js hj hs hr))
  | tuple m n fs ih =>
    constructor
    · intro j hj hs hr
      rw [value, Option.map_eq_some_iff] at hj
      obtain ⟨js, hj, rfl⟩ := hj
      exact outer_brackets _ (outer_items env fs ih js hj hs hr)
    · intro j hj hs hr
      rw [variant, Option.map_eq_some_iff] at hj
      obtain ⟨js, hj, rfl⟩ := hj
      exact outer_wrap m (outer_brackets _ (outer_items env fs ih js hj hs hr))
  | recordTuple m n fs ih =>
    constructor
    · intro j hj hs hr
      rw [value, Option.map_eq_some_iff] at hj
      obtain ⟨js, hj, rfl⟩ := hj
      exact outer_braces _ (outer_rt env fs ih js hj hs hr)
    · intro j hj hs hr
      rw [variant, Option.map_eq_some_iff] at hj
      obtain ⟨js, hj, rfl⟩ := hj
      exact outer_wrap m (outer_braces _ (outer_rt env fs ih js hj hs hr))
  | hint t v ih => exact ih

/-- What the formatter writes has no whitespace between its parts. -/
theorem squeeze_valueT (v : V) (j : J) (hj : value env v = some j) (hs : safe v = true) (hr : noRaw v = true) :
    squeeze false (valueT env v) = valueT env v := by
  have := (compacts env v).1 j hj hs hr []
  simpa [squeeze] using this

end

/-! ## Twice is once -/

theorem squeeze_idem (b : Bool) (t : Text) : squeeze b (squeeze b t) = squeeze b t := by
  fun_induction squeeze b t
  case case7 c r h1 h2 ih =>
    by_cases hc : c = '\\'
    · cases r with
      | nil => subst hc; rfl
      | cons e r => exact absurd rfl (h2 e r hc)
    · rw [squeeze_in _ h1 hc, ih]
  all_goals simp_all [squeeze]

theorem plain_squeeze (b : Bool) (t : Text) : plain b (squeeze b t) = plain b t := by
  fun_induction squeeze b t
  case case7 c r h1 h2 ih =>
    by_cases hc : c = '\\'
    · cases r with
      | nil => subst hc; rfl
      | cons e r => exact absurd rfl (h2 e r hc)
    · rw [plain, ih, plain]
      · exact h1
      · exact h2
      · exact h1
      · intro e x h; exact absurd h hc
  case case3 c r h1 h2 ih =>
    rw [ih, plain, if_neg h1]
    have : c ≠ 'E' := by rcases h2 with rfl | rfl | rfl | rfl <;> decide
    simp [this]
  all_goals simp_all [plain]

end Sval.Reader
