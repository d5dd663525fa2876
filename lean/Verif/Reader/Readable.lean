import Verif.Reader.Compact

set_option autoImplicit false

/-!
# Which of what the JSON formatter writes the reader can read
-/

namespace Sval.Reader

open Json

/-- Characters that need no escape the reader does not know. -/
def known (c : Char) : Bool := c == '\n' || c == '\r' || decide (32 ≤ c.toNat)

mutual
/-- Only such characters in strings and names. -/
def readable : J → Bool
  | .str s => s.all known
  | .arr xs => readables xs
  | .obj kvs => readablesM kvs
  | _ => true
def readables : List J → Bool
  | [] => true
  | x :: xs => readable x && readables xs
def readablesM : List (Text × J) → Bool
  | [] => true
  | (k, x) :: xs => k.all known && readable x && readablesM xs
end

mutual
/-- Nothing in the value, and no key, is tagged as a number in text or as JSON. -/
def ordinary : V → Bool
  | .seq _ xs => ordinaries xs
  | .map _ kvs => ordinaryM kvs
  | .tagged m v => !isSpecialTag m.tag && ordinary v
  | .enum _ v => ordinary v
  | .record _ _ fs => ordinaryF fs
  | .tuple _ _ fs => ordinaryI fs
  | .recordTuple _ _ fs => ordinaryRT fs
  | .hint _ v => ordinary v
  | _ => true
def ordinaries : List V → Bool
  | [] => true
  | x :: xs => ordinary x && ordinaries xs
def ordinaryM : List (V × V) → Bool
  | [] => true
  | (k, v) :: r => ordinary k && ordinary v && ordinaryM r
def ordinaryF : List (Option Tag × Label × V) → Bool
  | [] => true
  | (_, _, v) :: r => ordinary v && ordinaryF r
def ordinaryI : List (Option Tag × Index × V) → Bool
  | [] => true
  | (_, _, v) :: r => ordinary v && ordinaryI r
def ordinaryRT : List (Option Tag × Label × Index × V) → Bool
  | [] => true
  | (_, _, _, v) :: r => ordinary v && ordinaryRT r
end

/-- The text of floats has no `E`, as `ryu`'s. -/
def Lower (env : Env) : Prop := (∀ b, 'E' ∉ env.f32 b) ∧ ∀ b, 'E' ∉ env.f64 b

/-! ## Pieces of text -/

/-- The text, outside of strings, is known to the reader if `b`. -/
def Scan (t : Text) (b : Bool) : Prop := ∀ r, plain false (t ++ r) = (b && plain false r)

/-- The same for text between quotes. -/
def ScanIn (t : Text) (b : Bool) : Prop := ∀ r, plain true (t ++ '"' :: r) = (b && plain false r)

theorem Scan.append {a c : Text} {x y : Bool} (ha : Scan a x) (hc : Scan c y) : Scan (a ++ c) (x && y) := by
  intro r; rw [List.append_assoc, ha, hc, Bool.and_assoc]

theorem scan_nil : Scan [] true := fun _ => rfl

theorem scan_of {t : Text} (h : t.all (fun c => c != '"' && c != 'E') = true) : Scan t true := by
  intro r
  rw [Bool.true_and]
  induction t with
  | nil => rfl
  | cons c t ih =>
    simp only [List.all_cons, Bool.and_eq_true, bne_iff_ne] at h
    rw [List.cons_append, plain, if_neg h.1.1, ih (by simpa using h.2), bne_iff_ne.2 h.1.2, Bool.true_and]

theorem Scan.cons {c : Char} {t : Text} {b : Bool} (h1 : c ≠ '"') (h2 : c ≠ 'E') (h : Scan t b) : Scan (c :: t) b := by
  have := (scan_of (t := [c]) (by simp [h1, h2])).append h
  rwa [Bool.true_and] at this

theorem ScanIn.quote {k : Text} {b : Bool} (h : ScanIn k b) : Scan (quoteT k) b := by
  intro r
  have : quoteT k ++ r = '"' :: (k ++ '"' :: r) := by simp [quoteT]
  rw [this, plain, if_pos rfl, h]

theorem plain_esc (c : Char) (r : Text) : plain true (escC c ++ r) = (known c && plain true r) := by
  unfold escC
  split
  · rename_i h; subst h; rfl
  split
  · rename_i h; subst h; rfl
  split
  · rename_i h; subst h; rfl
  split
  · rename_i h; subst h; rfl
  split
  · rename_i h; subst h; rfl
  split
  · rename_i h; subst h; rfl
  split
  · rename_i h; subst h; rfl
  split
  · rename_i h1 h2 h3 h4 h5 h6 h7 h
    have : known c = false := by
      simp only [known, Bool.or_eq_false_iff, decide_eq_false_iff_not]
      exact ⟨by simp [h5, h7], by omega⟩
    rw [this]
    rfl
  · rename_i h1 h2 h3 h4 h5 h6 h7 h
    have : known c = true := by simp [known, show 32 ≤ c.toNat by omega]
    rw [this, List.singleton_append, plain, Bool.true_and]
    · exact h1
    · intro e x hc; exact absurd hc h2

theorem scanIn_esc (t : Text) : ScanIn (escT t) (t.all known) := by
  intro r
  induction t with
  | nil => rfl
  | cons c t ih =>
    simp only [escT, List.flatMap_cons, List.all_cons] at ih ⊢
    rw [List.append_assoc, plain_esc, ih, Bool.and_assoc]

theorem escT_raw {t : Text} (h : t.all rawOk = true) : escT t = t := by rw [← escape_eq, escape_raw t h]

theorem scan_num {t : Text} {q : Rat} (h : NumLit t q) (he : 'E' ∉ t) : Scan t true := by
  refine scan_of ?_
  obtain ⟨n, hn, rfl, -⟩ := h
  have hr := num_raw n (IsJson.isNumber hn)
  rw [List.all_eq_true] at hr ⊢
  intro c hc
  have := hr c hc
  simp only [rawOk, Bool.and_eq_true] at this
  rw [Bool.and_eq_true]
  exact ⟨this.1.2, bne_iff_ne.2 fun e => he (e ▸ hc)⟩

theorem intDec_lower (v : Int) : 'E' ∉ intDec v := by
  have h : 'E' ∉ natDec v.natAbs := by
    intro hc
    have := natDec_digits v.natAbs
    rw [List.all_eq_true] at this
    exact absurd (this _ hc) (by decide)
  unfold intDec
  split <;> simp [h]

theorem scan_int (v : Int) : Scan (intDec v) true := scan_num (intDec_val v) (intDec_lower v)

theorem scan_float {t : Text} {j : J} (h : numOf t = some j) (he : 'E' ∉ t) : Scan t (readable j) := by
  have := (numOf_sound h).1
  unfold numOf at h
  split at h
  · cases h; exact scan_num this he
  · cases h

/-! ## Lists -/

theorem scan_commas (ts : List (Text × Bool)) (h : ∀ t ∈ ts, Scan t.1 t.2) : Scan (commas (ts.map (·.1))) (ts.all (·.2)) := by
  induction ts with
  | nil => exact scan_nil
  | cons t ts ih =>
    cases ts with
    | nil => simpa [commas] using h t (.head _)
    | cons u ts =>
      exact (h t (.head _)).append (.cons (by decide) (by decide) (ih fun x hx => h x (.tail _ hx)))

theorem scan_brackets (ts : List (Text × Bool)) (h : ∀ t ∈ ts, Scan t.1 t.2) : Scan (brackets (ts.map (·.1))) (ts.all (·.2)) := by
  have := (scan_commas ts h).append (scan_of (t := [']']) (by decide))
  rw [Bool.and_true] at this
  exact .cons (by decide) (by decide) this

theorem scan_braces (ts : List (Text × Bool)) (h : ∀ t ∈ ts, Scan t.1 t.2) : Scan (braces (ts.map (·.1))) (ts.all (·.2)) := by
  have := (scan_commas ts h).append (scan_of (t := ['}']) (by decide))
  rw [Bool.and_true] at this
  exact .cons (by decide) (by decide) this

theorem scan_entry (k : Text) {t : Text} {b : Bool} (ht : Scan t b) : Scan (keyLit (escT k) ++ t) (k.all known && b) := by
  have : keyLit (escT k) = quoteT (escT k) ++ [':'] := by simp [keyLit, quoteT]
  rw [this]
  have := ((scanIn_esc k).quote.append (scan_of (t := [':']) (by decide))).append ht
  rwa [Bool.and_true] at this

/-! ## Names -/

theorem labelT_esc {l : Label} {k : Text} (h : labelText l = some k) : labelT l = escT k := by
  unfold labelText at h
  unfold labelT
  split at h
  · cases h
  · cases h
    rename_i hn
    split
    · rename_i ht
      refine (escT_raw ?_).symm
      cases hr : l.text.all rawOk with
      | true => rfl
      | false => exact absurd ⟨ht, hr⟩ hn
    · rfl

theorem nameT_esc {m : Meta} {k : Text} (h : idOf m = some k) : nameT m = escT k := by
  unfold nameT
  cases hl : m.label with
  | some l =>
    unfold idOf at h
    rw [hl] at h
    cases h
    rfl
  | none =>
    dsimp only
    rw [h]
    unfold idOf at h
    rw [hl] at h
    dsimp only at h
    cases hi : m.index with
    | none => rw [hi] at h; cases h
    | some i =>
      rw [hi] at h
      dsimp only [Option.bind] at h
      split at h
      · cases h; exact (escT_raw (intDec_raw _)).symm
      · cases h

theorem scan_wrap (m : Meta) {t : Text} {j : J} (h : Scan t (readable j)) : Scan (wrapT m t) (readable (wrap m j)) := by
  unfold wrapT wrap
  cases hi : idOf m with
  | none => exact h
  | some k =>
    have := scan_braces [(keyLit (nameT m) ++ t, k.all known && readable j)] (by
      intro u hu
      rw [List.mem_singleton] at hu
      subst hu
      simp only [nameT_esc hi]
      exact scan_entry k h)
    simpa [readable, readablesM] using this

theorem scan_tag (m : Meta) : Scan (tagT m) (readable (tagJ m)) := by
  unfold tagT tagJ idOf
  split
  · exact scan_of (by decide)
  · cases m.label with
    | some l => exact (scanIn_esc _).quote
    | none =>
      dsimp only
      cases m.index with
      | none => exact scan_of (by decide)
      | some i =>
        dsimp only [Option.bind]
        split
        · exact scan_int _
        · exact scan_of (by decide)

theorem tagKeyT_esc (m : Meta) : tagKeyT m = escT (tagKey m) := by
  unfold tagKeyT tagKey
  split
  · rfl
  · cases hl : m.label with
    | some l => simp [idOf, hl]
    | none =>
      dsimp only
      cases hi : idOf m with
      | none => rfl
      | some k =>
        have := nameT_esc hi
        unfold nameT at this
        rw [hl] at this
        dsimp only at this
        rw [hi] at this
        exact this

section
variable (env : Env)

theorem keyT_esc (k : V) : (∀ u, keyText env k = some u → ordinary k = true → keyT env k = escT u) ∧
    ∀ u, keyVariant env k = some u → ordinary k = true → keyT env k = escT u := by
  have num : ∀ t j, numOf t = some j → escT t = t := by
    intro t j h
    refine escT_raw ?_
    have := (numOf_sound h).1
    unfold numOf at h
    split at h
    · cases h
      obtain ⟨n, hn, rfl, -⟩ := this
      exact num_raw n (IsJson.isNumber hn)
    · cases h
  induction k using V.ind with
  | null => exact ⟨fun u h _ => by cases h; rfl, fun u h => by cases h⟩
  | bool b => exact ⟨fun u h _ => by cases h; cases b <;> rfl, fun u h => by cases h⟩
  | int t v => exact ⟨fun u h _ => by cases h; exact (escT_raw (intDec_raw _)).symm, fun u h => by cases h⟩
  | f32 b =>
    refine ⟨fun u h _ => ?_, fun u h => by cases h⟩
    simp only [keyText] at h
    simp only [keyT]
    split
    · rename_i hf
      rw [if_pos hf, Option.map_eq_some_iff] at h
      obtain ⟨j, h, rfl⟩ := h
      exact (num _ j h).symm
    · rename_i hf; rw [if_neg hf] at h; cases h; rfl
  | f64 b =>
    refine ⟨fun u h _ => ?_, fun u h => by cases h⟩
    simp only [keyText] at h
    simp only [keyT]
    split
    · rename_i hf
      rw [if_pos hf, Option.map_eq_some_iff] at h
      obtain ⟨j, h, rfl⟩ := h
      exact (num _ j h).symm
    · rename_i hf; rw [if_neg hf] at h; cases h; rfl
  | text n fs => exact ⟨fun u h _ => by cases h; rfl, fun u h => by cases h⟩
  | tag m => exact ⟨fun u h _ => by cases h; exact tagKeyT_esc m, fun u h _ => by cases h; exact tagKeyT_esc m⟩
  | tagged m v ih =>
    constructor
    · intro u h ho
      simp only [ordinary, Bool.and_eq_true, Bool.not_eq_true'] at ho
      simp only [keyText, ho.1] at h
      simp only [keyT, ho.1]
      exact ih.1 u h ho.2
    · intro u h ho
      simp only [ordinary, Bool.and_eq_true, Bool.not_eq_true'] at ho
      simp only [keyVariant, ho.1] at h
      simp only [keyT, ho.1]
      split at h
      · exact ih.1 u h ho.2
      · cases h
  | enum m v ih =>
    constructor
    · intro u h ho
      exact ih.2 u h ho
    · intro u h ho
      simp only [keyVariant] at h
      split at h
      · exact ih.2 u h ho
      · cases h
  | hint t v ih => exact ih
  | binary | seq | map | record | tuple | recordTuple => exact ⟨fun u h => (by cases h), fun u h => (by cases h)⟩

/-! ## Values -/

/-- The two ways a value is written. -/
def Scans (v : V) : Prop :=
  (∀ j, value env v = some j → ordinary v = true → Scan (valueT env v) (readable j)) ∧
  (∀ j, variant env v = some j → ordinary v = true → Scan (variantT env v) (readable j))

theorem scans_leaf {v : V} (hx : variant env v = none) (h : ∀ j, value env v = some j → Scan (valueT env v) (readable j)) : Scans env v :=
  ⟨fun j hj _ => h j hj, fun j hj => by rw [hx] at hj; cases hj⟩

theorem scan_values (xs : List V) (ih : ∀ x ∈ xs, Scans env x) (js : List J) (hj : values env xs = some js)
    (ho : ordinaries xs = true) : ∃ ts : List (Text × Bool), valuesT env xs = ts.map (·.1) ∧ readables js = ts.all (·.2) ∧
      ∀ t ∈ ts, Scan t.1 t.2 := by
  induction xs generalizing js with
  | nil => cases hj; exact ⟨[], rfl, rfl, by intro t ht; cases ht⟩
  | cons x xs ihx =>
    obtain ⟨y, ys, h1, h2, rfl⟩ := consO_some hj
    simp only [ordinaries, Bool.and_eq_true] at ho
    obtain ⟨ts, e1, e2, e3⟩ := ihx (fun z hz => ih z (.tail _ hz)) ys h2 ho.2
    refine ⟨(valueT env x, readable y) :: ts, by simp [valuesT, e1], by simp [readables, e2], ?_⟩
    intro t ht
    rcases List.mem_cons.1 ht with rfl | ht
    · exact (ih x (.head _)).1 y h1 ho.1
    · exact e3 t ht

theorem scan_items (xs : List (Option Tag × Index × V)) (ih : ∀ x ∈ xs, Scans env x.2.2) (js : List J) (hj : items env xs = some js)
    (ho : ordinaryI xs = true) : ∃ ts : List (Text × Bool), itemsT env xs = ts.map (·.1) ∧ readables js = ts.all (·.2) ∧
      ∀ t ∈ ts, Scan t.1 t.2 := by
  induction xs generalizing js with
  | nil => cases hj; exact ⟨[], rfl, rfl, by intro t ht; cases ht⟩
  | cons x xs ihx =>
    obtain ⟨tg, i, v⟩ := x
    obtain ⟨y, ys, h1, h2, rfl⟩ := consO_some hj
    simp only [ordinaryI, Bool.and_eq_true] at ho
    obtain ⟨ts, e1, e2, e3⟩ := ihx (fun z hz => ih z (.tail _ hz)) ys h2 ho.2
    refine ⟨(valueT env v, readable y) :: ts, by simp [itemsT, e1], by simp [readables, e2], ?_⟩
    intro t ht
    rcases List.mem_cons.1 ht with rfl | ht
    · exact (ih _ (.head _)).1 y h1 ho.1
    · exact e3 t ht

theorem scan_entries (xs : List (V × V)) (ih : ∀ x ∈ xs, Scans env x.2) (js : List (Text × J))
    (hj : entries env xs = some js) (ho : ordinaryM xs = true) :
    ∃ ts : List (Text × Bool), entriesT env xs = ts.map (·.1) ∧ readablesM js = ts.all (·.2) ∧ ∀ t ∈ ts, Scan t.1 t.2 := by
  induction xs generalizing js with
  | nil => cases hj; exact ⟨[], rfl, rfl, by intro t ht; cases ht⟩
  | cons x xs ihx =>
    obtain ⟨k, v⟩ := x
    obtain ⟨y, ys, h1, h2, rfl⟩ := consO_some hj
    obtain ⟨k', v', h3, h4, rfl⟩ := pairO_some h1
    simp only [ordinaryM, Bool.and_eq_true] at ho
    obtain ⟨ts, e1, e2, e3⟩ := ihx (fun z hz => ih z (.tail _ hz)) ys h2 ho.2
    refine ⟨(keyLit (keyT env k) ++ valueT env v, k'.all known && readable v') :: ts, by simp [entriesT, e1], by simp [readablesM, e2], ?_⟩
    intro t ht
    rcases List.mem_cons.1 ht with rfl | ht
    · simp only [(keyT_esc env k).1 k' h3 ho.1.1]
      exact scan_entry k' ((ih (k, v) (.head _)).1 v' h4 ho.1.2)
    · exact e3 t ht

theorem scan_fields (xs : List (Option Tag × Label × V)) (ih : ∀ x ∈ xs, Scans env x.2.2) (js : List (Text × J))
    (hj : fields env xs = some js) (ho : ordinaryF xs = true) :
    ∃ ts : List (Text × Bool), fieldsT env xs = ts.map (·.1) ∧ readablesM js = ts.all (·.2) ∧ ∀ t ∈ ts, Scan t.1 t.2 := by
  induction xs generalizing js with
  | nil => cases hj; exact ⟨[], rfl, rfl, by intro t ht; cases ht⟩
  | cons x xs ihx =>
    obtain ⟨tg, l, v⟩ := x
    obtain ⟨y, ys, h1, h2, rfl⟩ := consO_some hj
    obtain ⟨k', v', h3, h4, rfl⟩ := pairO_some h1
    simp only [ordinaryF, Bool.and_eq_true] at ho
    obtain ⟨ts, e1, e2, e3⟩ := ihx (fun z hz => ih z (.tail _ hz)) ys h2 ho.2
    refine ⟨(keyLit (labelT l) ++ valueT env v, k'.all known && readable v') :: ts, by simp [fieldsT, e1], by simp [readablesM, e2], ?_⟩
    intro t ht
    rcases List.mem_cons.1 ht with rfl | ht
    · simp only [labelT_esc h3]
      exact scan_entry k' ((ih _ (.head _)).1 v' h4 ho.1)
    · exact e3 t ht

theorem scan_rt (xs : List (Option Tag × Label × Index × V)) (ih : ∀ x ∈ xs, Scans env x.2.2.2) (js : List (Text × J))
    (hj : fieldsRT env xs = some js) (ho : ordinaryRT xs = true) :
    ∃ ts : List (Text × Bool), fieldsRTT env xs = ts.map (·.1) ∧ readablesM js = ts.all (·.2) ∧ ∀ t ∈ ts, Scan t.1 t.2 := by
  induction xs generalizing js with
  | nil => cases hj; exact ⟨[], rfl, rfl, by intro t ht; cases ht⟩
  | cons x xs ihx =>
    obtain ⟨tg, l, i, v⟩ := x
    obtain ⟨y, ys, h1, h2, rfl⟩ := consO_some hj
    obtain ⟨k', v', h3, h4, rfl⟩ := pairO_some h1
    simp only [ordinaryRT, Bool.and_eq_true] at ho
    obtain ⟨ts, e1, e2, e3⟩ := ihx (fun z hz => ih z (.tail _ hz)) ys h2 ho.2
    refine ⟨(keyLit (labelT l) ++ valueT env v, k'.all known && readable v') :: ts, by simp [fieldsRTT, e1], by simp [readablesM, e2], ?_⟩
    intro t ht
    rcases List.mem_cons.1 ht with rfl | ht
    · simp only [labelT_esc h3]
      exact scan_entry k' ((ih _ (.head _)).1 v' h4 ho.1)
    · exact e3 t ht

theorem scans (he : Lower env) (v : V) : Scans env v := by
  induction v using V.ind with
  | null => exact scans_leaf env rfl fun j hj => by cases hj; exact scan_of (t := t! "null") (by decide)
  | bool b =>
    exact scans_leaf env rfl fun j hj => by
      cases hj
      cases b
      · exact scan_of (t := t! "false") (by decide)
      · exact scan_of (t := t! "true") (by decide)
  | int t v => exact scans_leaf env rfl fun j hj => by cases hj; exact scan_int v
  | f32 b =>
    refine scans_leaf env rfl fun j hj => ?_
    simp only [value] at hj
    simp only [valueT]
    split
    · rename_i hf; rw [if_pos hf] at hj; exact scan_float hj (he.1 b)
    · rename_i hf; rw [if_neg hf] at hj; cases hj; exact scan_of (by decide)
  | f64 b =>
    refine scans_leaf env rfl fun j hj => ?_
    simp only [value] at hj
    simp only [valueT]
    split
    · rename_i hf; rw [if_pos hf] at hj; exact scan_float hj (he.2 b)
    · rename_i hf; rw [if_neg hf] at hj; cases hj; exact scan_of (by decide)
  | text n fs => exact scans_leaf env rfl fun j hj => by cases hj; exact (scanIn_esc _).quote
  | binary n fs =>
    refine scans_leaf env rfl fun j hj => ?_
    cases hj
    have := scan_brackets ((fragsBytes fs).map fun b => (intDec b.toNat, true)) (by
      intro t ht
      obtain ⟨b, _, rfl⟩ := List.mem_map.1 ht
      exact scan_int (b.toNat : Int))
    rw [List.map_map] at this
    have e : readable (.arr ((fragsBytes fs).map fun b => .num (b.toNat : Int))) =
        ((fragsBytes fs).map fun b => (intDec b.toNat, true)).all (·.2) := by
      rw [readable]
      induction fragsBytes fs with
      | nil => rfl
      | cons b bs ih => simp only [List.map_cons, readables, ih, readable, List.all_cons]
    rw [e]
    exact this
  | tag m => exact ⟨fun j hj _ => by cases hj; exact scan_tag m, fun j hj _ => by cases hj; exact scan_tag m⟩
  | seq n xs ih =>
    refine ⟨fun j hj ho => ?_, fun j hj => by cases hj⟩
    rw [value, Option.map_eq_some_iff] at hj
    obtain ⟨js, hj, rfl⟩ := hj
    obtain ⟨ts, e1, e2, e3⟩ := scan_values env xs ih js hj ho
    rw [valueT, e1, readable, e2]
    exact scan_brackets ts e3
  | map n xs ih =>
    refine ⟨fun j hj ho => ?_, fun j hj => by cases hj⟩
    rw [value, Option.map_eq_some_iff] at hj
    obtain ⟨js, hj, rfl⟩ := hj
    obtain ⟨ts, e1, e2, e3⟩ := scan_entries env xs (fun x hx => (ih x hx).2) js hj ho
    rw [valueT, e1, readable, e2]
    exact scan_braces ts e3
  | tagged m v ih =>
    constructor
    · intro j hj ho
      simp only [ordinary, Bool.and_eq_true, Bool.not_eq_true'] at ho
      simp only [value, ho.1] at hj
      simp only [valueT, ho.1]
      exact ih.1 j hj ho.2
    · intro j hj ho
      simp only [ordinary, Bool.and_eq_true, Bool.not_eq_true'] at ho
      simp only [variant, ho.1, Option.map_eq_some_iff] at hj
      obtain ⟨j, hj, rfl⟩ := hj
      simp only [variantT, ho.1]
      exact scan_wrap m (ih.1 j hj ho.2)
  | enum m v ih =>
    refine ⟨fun j hj ho => ih.2 j hj ho, fun j hj ho => ?_⟩
    simp only [variant, Option.map_eq_some_iff] at hj
    obtain ⟨j, hj, rfl⟩ := hj
    exact scan_wrap m (ih.2 j hj ho)
  | record m n fs ih =>
    have key : ∀ js, fields env fs = some js → ordinaryF fs = true → Scan (braces (fieldsT env fs)) (readable (.obj js)) := by
      intro js hj ho
      obtain ⟨ts, e1, e2, e3⟩ := scan_fields env fs ih js hj ho
      rw [e1, readable, e2]
      exact scan_braces ts e3
    constructor
    · intro j hj ho
      rw [value, Option.map_eq_some_iff] at hj
      obtain ⟨js, hj, rfl⟩ := hj
      exact key js hj ho
    · intro j hj ho
      rw [variant, Option.map_eq_some_iff] at hj
      obtain ⟨js, hj, rfl⟩ := hj
      exact scan_wrap m (key js hj ho)
  | tuple m n fs ih =>
    have key : ∀ js, items env fs = some js → ordinaryI fs = true → Scan (brackets (itemsT env fs)) (readable (.arr js)) := by
      intro js hj ho
      obtain ⟨ts, e1, e2, e3⟩ := scan_items env fs ih js hj ho
      rw [e1, readable, e2]
      exact scan_brackets ts e3
    constructor
    · intro j hj ho
      rw [value, Option.map_eq_some_iff] at hj
      obtain ⟨js, hj, rfl⟩ := hj
      exact key js hj ho
    · intro j hj ho
      rw [variant, Option.map_eq_some_iff] at hj
      obtain ⟨js, hj, rfl⟩ := hj
      exact scan_wrap m (key js hj ho)
  | recordTuple m n fs ih =>
    have key : ∀ js, fieldsRT env fs = some js → ordinaryRT fs = true → Scan (braces (fieldsRTT env fs)) (readable (.obj js)) := by
      intro js hj ho
      obtain ⟨ts, e1, e2, e3⟩ := scan_rt env fs ih js hj ho
      rw [e1, readable, e2]
      exact scan_braces ts e3
    constructor
    · intro j hj ho
      rw [value, Option.map_eq_some_iff] at hj
      obtain ⟨js, hj, rfl⟩ := hj
      exact key js hj ho
    · intro j hj ho
      rw [variant, Option.map_eq_some_iff] at hj
      obtain ⟨js, hj, rfl⟩ := hj
      exact scan_wrap m (key js hj ho)
  | hint t v ih => exact ih

/-- What the formatter writes is known to the reader if and only if the document is `readable`. -/
theorem plain_valueT (he : Lower env) (v : V) (j : J) (hj : value env v = some j) (ho : ordinary v = true) :
    plain false (valueT env v) = readable j := by
  have := (scans env he v).1 j hj ho []
  simpa [plain] using this

end

theorem noRaw_ordinary (v : V) (h : ordinary v = true) : noRaw v = true := by
  induction v using V.ind with
  | null | bool | int | f32 | f64 | text | binary | tag => rfl
  | seq n xs ih =>
    rw [ordinary] at h
    rw [noRaw]
    induction xs with
    | nil => rfl
    | cons x xs ihx =>
      rw [ordinaries, Bool.and_eq_true] at h
      rw [noRaws, ih x (.head _) h.1, ihx (fun y hy => ih y (.tail _ hy)) h.2]
      rfl
  | map n xs ih =>
    rw [ordinary] at h
    rw [noRaw]
    induction xs with
    | nil => rfl
    | cons x xs ihx =>
      obtain ⟨k, v⟩ := x
      rw [ordinaryM, Bool.and_eq_true, Bool.and_eq_true] at h
      rw [noRawM, (ih (k, v) (.head _)).2 h.1.2, ihx (fun y hy => ih y (.tail _ hy)) h.2]
      rfl
  | tagged m v ih =>
    rw [ordinary, Bool.and_eq_true] at h
    rw [noRaw, ih h.2, Bool.and_true, bne_iff_ne]
    intro e
    rw [e] at h
    exact absurd h.1 (by decide)
  | enum m v ih => exact ih h
  | record m n xs ih =>
    rw [ordinary] at h
    rw [noRaw]
    induction xs with
    | nil => rfl
    | cons x xs ihx =>
      obtain ⟨t, l, v⟩ := x
      rw [ordinaryF, Bool.and_eq_true] at h
      rw [noRawF, ih (t, l, v) (.head _) h.1, ihx (fun y hy => ih y (.tail _ hy)) h.2]
      rfl
  | tuple m n xs ih =>
    rw [ordinary] at h
    rw [noRaw]
    induction xs with
    | nil => rfl
    | cons x xs ihx =>
      obtain ⟨t, l, v⟩ := x
      rw [ordinaryI, Bool.and_eq_true] at h
      rw [noRawI, ih (t, l, v) (.head _) h.1, ihx (fun y hy => ih y (.tail _ hy)) h.2]
      rfl
  | recordTuple m n xs ih =>
    rw [ordinary] at h
    rw [noRaw]
    induction xs with
    | nil => rfl
    | cons x xs ihx =>
      obtain ⟨t, l, i, v⟩ := x
      rw [ordinaryRT, Bool.and_eq_true] at h
      rw [noRawRT, ih (t, l, i, v) (.head _) h.1, ihx (fun y hy => ih y (.tail _ hy)) h.2]
      rfl
  | hint t v ih => exact ih h

end Sval.Reader
