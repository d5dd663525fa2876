import Verif.Json.Loose
import Verif.Reader.Compact

set_option autoImplicit false

/-!
# Braces in documents

A document has as many closing braces as opening ones, not counting those in strings. The text of a loose value lacks one
closing brace for every hole, so it is a document exactly if there are none.
-/

namespace Sval.Json

open Reader (isPlain rawOk_isPlain hex_ne isNumberChar num_chars digits_chars)

/-- Between values, in a string, after a backslash in a string. -/
inductive Mode where
  | out | str | esc

/-- Count braces. -/
def scan : Int × Mode → Char → Int × Mode
  | (n, .out), c => if c = '"' then (n, .str) else if c = '{' then (n + 1, .out) else if c = '}' then (n - 1, .out) else (n, .out)
  | (n, .str), c => if c = '"' then (n, .out) else if c = '\\' then (n, .esc) else (n, .str)
  | (n, .esc), _ => (n, .str)

/-- The text has `k` opening braces more than closing ones. -/
def Bal (k : Int) (t : Text) : Prop := ∀ n, t.foldl scan (n, .out) = (n + k, .out)

/-- The text does not end the string it is in. -/
def Within (t : Text) : Prop := ∀ n, t.foldl scan (n, .str) = (n, .str)

theorem bal_nil : Bal 0 [] := fun n => by simp

theorem Bal.append {a b : Text} {k l : Int} (ha : Bal k a) (hb : Bal l b) : Bal (k + l) (a ++ b) := by
  intro n
  rw [List.foldl_append, ha, hb, Int.add_assoc]

theorem Bal.append0 {a b : Text} {l : Int} (ha : Bal 0 a) (hb : Bal l b) : Bal l (a ++ b) := by
  have := ha.append hb
  rwa [Int.zero_add] at this

theorem Bal.cons {c : Char} {t : Text} {k : Int} (h1 : c ≠ '"') (h2 : c ≠ '{') (h3 : c ≠ '}') (h : Bal k t) : Bal k (c :: t) := by
  intro n
  simp only [List.foldl_cons, scan, h1, h2, h3, if_false, h n]

theorem Bal.opened {t : Text} {k : Int} (h : Bal k t) : Bal (k + 1) ('{' :: t) := by
  intro n
  rw [List.foldl_cons, show scan (n, .out) '{' = (n + 1, .out) from rfl, h]
  congr 1; omega

theorem bal_close : Bal (-1) ['}'] := fun _ => rfl

theorem bal_all {t : Text} (h : t.all (fun c => c != '"' && c != '{' && c != '}') = true) : Bal 0 t := by
  induction t with
  | nil => exact bal_nil
  | cons c t ih =>
    simp only [List.all_cons, Bool.and_eq_true, bne_iff_ne, ne_eq] at h
    exact Bal.cons h.1.1.1 h.1.1.2 h.1.2 (ih (by simpa using h.2))

theorem bal_ws {t : Text} (h : Ws t) : Bal 0 t := by
  refine bal_all (List.all_eq_true.2 fun c hc => ?_)
  have := List.all_eq_true.1 h c hc
  simp only [isWs, Bool.or_eq_true, beq_iff_eq] at this
  rcases this with ((rfl | rfl) | rfl) | rfl <;> decide

theorem numberChar_bal {c : Char} (h : isNumberChar c = true) : (c != '"' && c != '{' && c != '}') = true := by
  simp only [Bool.and_eq_true, bne_iff_ne, ne_eq]
  refine ⟨⟨?_, ?_⟩, ?_⟩ <;> (rintro rfl; revert h; decide)

theorem bal_number {t : Text} (h : t.all isNumberChar = true) : Bal 0 t :=
  bal_all (List.all_eq_true.2 fun c hc => numberChar_bal (List.all_eq_true.1 h c hc))

theorem bal_num {t : Text} {q : Rat} (h : NumLit t q) : Bal 0 t := by
  obtain ⟨n, hn, rfl, -⟩ := h
  have ht : n.text = (n.sign ++ (n.int ++ Num.fracText n.frac)) ++ Num.expText n.exp := by simp [Num.text]
  rw [ht]
  refine Bal.append0 (bal_number (num_chars n hn).1) ?_
  cases he : n.exp with
  | none => exact bal_nil
  | some x =>
    obtain ⟨c, s, d⟩ := x
    obtain ⟨h1, h2, h3⟩ := hn.2.2.2.2 c s d he
    refine Bal.cons (by rcases h1 with rfl | rfl <;> decide) (by rcases h1 with rfl | rfl <;> decide)
      (by rcases h1 with rfl | rfl <;> decide) (Bal.append0 ?_ ?_)
    · rcases h2 with rfl | rfl | rfl <;> exact bal_all (by decide)
    · exact bal_number (digits_chars h3.2).1

theorem bal_int (v : Int) : Bal 0 (intDec v) := bal_num (intDec_val v)

/-! ## Strings -/

theorem within_cons {c : Char} {t : Text} (h1 : c ≠ '"') (h2 : c ≠ '\\') (h : Within t) : Within (c :: t) := by
  intro n
  simp only [List.foldl_cons, scan, h1, h2, if_false, h n]

theorem within_esc (e : Char) {t : Text} (h : Within t) : Within ('\\' :: e :: t) := fun n => h n

theorem within_hex {a b c d : Char} {n : Nat} (h : hex4 a b c d = some n) {t : Text} (ht : Within t) :
    Within ('\\' :: 'u' :: a :: b :: c :: d :: t) := by
  unfold hex4 at h
  cases ha : hexVal a with
  | none => rw [ha] at h; cases h
  | some na =>
  cases hb : hexVal b with
  | none => rw [ha, hb] at h; cases h
  | some nb =>
  cases hc : hexVal c with
  | none => rw [ha, hb, hc] at h; cases h
  | some nc =>
  cases hd : hexVal d with
  | none => rw [ha, hb, hc, hd] at h; cases h
  | some nd =>
    exact within_esc _ (within_cons (hex_ne ha).1 (hex_ne ha).2 (within_cons (hex_ne hb).1 (hex_ne hb).2
      (within_cons (hex_ne hc).1 (hex_ne hc).2 (within_cons (hex_ne hd).1 (hex_ne hd).2 ht))))

theorem within_lit {u s : Text} (h : StrLit u s) : Within u := by
  induction h with
  | nil => exact fun n => rfl
  | raw c hc _ ih =>
    have hc := rawOk_isPlain hc
    simp only [isPlain, Bool.and_eq_true, bne_iff_ne, ne_eq] at hc
    exact within_cons hc.2 hc.1 ih
  | esc e c he h ih => exact within_esc e ih
  | uni a b c d n h1 h2 h ih => exact within_hex h1 ih
  | pair a b c d a' b' c' d' n n' h1 h2 h3 h4 h ih => exact within_hex h1 (within_hex h3 ih)

theorem Within.quoted {u t : Text} {k : Int} (h : Within u) (ht : Bal k t) : Bal k ('"' :: (u ++ '"' :: t)) := by
  intro n
  rw [List.foldl_cons, show scan (n, .out) '"' = (n, .str) from rfl, List.foldl_append, h, List.foldl_cons,
    show scan (n, .str) '"' = (n, .out) from rfl, ht]

theorem Within.key {u t : Text} {k : Int} (h : Within u) (ht : Bal k t) : Bal k (keyLit u ++ t) := by
  have : keyLit u ++ t = '"' :: (u ++ '"' :: (':' :: t)) := by simp [keyLit]
  rw [this]
  exact h.quoted (.cons (by decide) (by decide) (by decide) ht)

/-! ## Documents -/

theorem bal_val (j : J) : ∀ t, Val j t → Bal 0 t := by
  induction j using J.ind with
  | null => rintro t rfl; exact bal_all (by decide)
  | bool b => rintro t rfl; cases b <;> exact bal_all (by decide)
  | num q => exact fun t h => bal_num h
  | str s =>
    rintro t ⟨u, h, rfl⟩
    exact (within_lit h).quoted bal_nil
  | arr xs ih =>
    rintro t ⟨u, h, rfl⟩
    refine .cons (by decide) (by decide) (by decide) (Bal.append0 ?_ (bal_all (by decide)))
    induction xs generalizing u with
    | nil => exact bal_ws h
    | cons x xs ihx =>
      cases xs with
      | nil =>
        obtain ⟨w, u, w', h1, h2, h3, rfl⟩ := h
        exact (bal_ws h1).append0 ((ih x (by simp) _ h2).append0 (bal_ws h3))
      | cons y xs =>
        obtain ⟨w, u, w', r, h1, h2, h3, h4, rfl⟩ := h
        exact (bal_ws h1).append0 ((ih x (by simp) _ h2).append0 ((bal_ws h3).append0
          (.cons (by decide) (by decide) (by decide) (ihx (fun z hz => ih z (by simp [hz])) r h4))))
  | obj kvs ih =>
    rintro t ⟨u, h, rfl⟩
    suffices hb : Bal 0 u from (hb.append0 bal_close).opened
    induction kvs generalizing u with
    | nil => exact bal_ws h
    | cons x xs ihx =>
      obtain ⟨k, x⟩ := x
      cases xs with
      | nil =>
        obtain ⟨w, k', w1, w2, u, w', h1, h2, h3, h4, h5, h6, rfl⟩ := h
        exact (bal_ws h1).append0 ((within_lit h2).quoted ((bal_ws h3).append0 (.cons (by decide) (by decide) (by decide)
          ((bal_ws h4).append0 ((ih (k, x) (by simp) _ h5).append0 (bal_ws h6))))))
      | cons y xs =>
        obtain ⟨w, k', w1, w2, u, w', r, h1, h2, h3, h4, h5, h6, h7, rfl⟩ := h
        exact (bal_ws h1).append0 ((within_lit h2).quoted ((bal_ws h3).append0 (.cons (by decide) (by decide) (by decide)
          ((bal_ws h4).append0 ((ih (k, x) (by simp) _ h5).append0 ((bal_ws h6).append0
            (.cons (by decide) (by decide) (by decide) (ihx (fun z hz => ih z (by simp [hz])) r h7))))))))

/-- A document is balanced. -/
theorem bal_doc {j : J} {t : Text} (h : Doc j t) : Bal 0 t := by
  obtain ⟨w, u, w', h1, h2, h3, rfl⟩ := h
  exact (bal_ws h1).append0 ((bal_val j u h2).append0 (bal_ws h3))

theorem Bal.inj {k l : Int} {t : Text} (h1 : Bal k t) (h2 : Bal l t) : k = l := by
  have := (h1 0).symm.trans (h2 0)
  simpa using congrArg Prod.fst this

/-! ## What is written -/

/-- The sum over the parts of a container. -/
inductive Bals : List Int → List Text → Prop where
  | nil : Bals [] []
  | cons {k : Int} {ks : List Int} {t : Text} {ts : List Text} : Bal k t → Bals ks ts → Bals (k :: ks) (t :: ts)

theorem bal_tails {ks : List Int} {ts : List Text} (h : Bals ks ts) : Bal ks.sum (tails ts) := by
  induction h with
  | nil => exact bal_nil
  | cons h _ ih =>
    rw [List.sum_cons]
    exact .cons (by decide) (by decide) (by decide) (h.append ih)

theorem bal_commas {ks : List Int} {ts : List Text} (h : Bals ks ts) : Bal ks.sum (commas ts) := by
  cases h with
  | nil => exact bal_nil
  | cons h hs => rw [List.sum_cons, commas_cons]; exact h.append (bal_tails hs)

theorem bal_brackets {ks : List Int} {ts : List Text} (h : Bals ks ts) : Bal ks.sum (brackets ts) := by
  have := (bal_commas h).append (bal_all (t := [']']) (by decide))
  rw [Int.add_zero] at this
  exact .cons (by decide) (by decide) (by decide) this

theorem bal_braces {ks : List Int} {ts : List Text} (h : Bals ks ts) : Bal ks.sum (braces ts) := by
  have := ((bal_commas h).append bal_close).opened
  rwa [show ks.sum + -1 + 1 = ks.sum by omega] at this

theorem within_esc_text (t : Text) : Within (escT t) := by
  rw [← escape_eq]
  exact within_lit (escape_lit t)

theorem within_name (m : Meta) : Within (nameT m) := by
  unfold nameT idOf
  cases m.label with
  | some l => exact within_esc_text _
  | none =>
    dsimp only
    cases m.index with
    | none => exact within_lit .nil
    | some i =>
      dsimp only [Option.bind]
      split
      · exact within_lit (raw_lit _ (intDec_raw _))
      · exact within_lit .nil

theorem within_label {l : Label} {k : Text} (h : labelText l = some k) : Within (labelT l) := by
  obtain ⟨k', hk, he, _⟩ := labelText_lit h
  rw [← he]
  exact within_lit hk

theorem bal_tag (m : Meta) : Bal 0 (tagT m) := by
  unfold tagT idOf
  split
  · exact bal_all (by decide)
  · cases m.label with
    | some l => exact (within_esc_text _).quoted bal_nil
    | none =>
      dsimp only
      cases m.index with
      | none => exact bal_all (by decide)
      | some i =>
        dsimp only [Option.bind]
        split
        · exact bal_int _
        · exact bal_all (by decide)

theorem bal_head (tg : Bool) (v : V) : Bal (if tg && named v then 1 else 0) (headT tg v) := by
  have key : ∀ m : Meta, Bal (if tg && (idOf m).isSome then 1 else 0)
      (if tg && (idOf m).isSome then '{' :: keyLit (nameT m) else []) := by
    intro m
    split
    · have := (within_name m).key bal_nil
      rw [List.append_nil] at this
      exact this.opened
    · exact bal_nil
  induction v using V.ind with
  | hint t v ih => exact ih
  | tagged m v _ => exact key m
  | enum m v _ => exact key m
  | record m n fs _ => exact key m
  | tuple m n fs _ => exact key m
  | recordTuple m n fs _ => exact key m
  | _ => simpa [named, headT] using bal_nil

variable (env : Env)

/-- What the text of a value lacks. -/
def Lacks (v : V) : Prop := ∀ j, value env v = some j → loose v = true → Bal (holes v) (valueL env v)

theorem lacks_leaf (v : V) (hs : safe v = true) (ht : valueL env v = valueT env v) (hh : holes v = 0) : Lacks env v := by
  intro j hj _
  obtain ⟨t, s, h1, h2, h3⟩ := run_value env v j hj hs
  obtain ⟨s', h4, h5⟩ := run_text env v j hj hs
  rw [h1] at h4; cases h4
  rw [ht, ← h5, h2, hh]
  exact bal_doc h3

theorem lacks_values (xs : List V) (ih : ∀ x ∈ xs, Lacks env x) (js : List J) (hj : values env xs = some js)
    (hs : looses xs = true) : ∃ ks, Bals ks (valuesL env xs) ∧ ks.sum = holesSeq xs := by
  induction xs generalizing js with
  | nil => exact ⟨[], .nil, rfl⟩
  | cons x xs ihx =>
    obtain ⟨y, ys, h1, h2, rfl⟩ := consO_some hj
    rw [looses, Bool.and_eq_true] at hs
    obtain ⟨ks, h3, h4⟩ := ihx (fun z hz => ih z (by simp [hz])) ys h2 hs.2
    exact ⟨_, .cons (ih x (by simp) y h1 hs.1) h3, by rw [List.sum_cons, h4, holesSeq]; omega⟩

theorem lacks_fields (xs : List (Option Tag × Label × V)) (ih : ∀ x ∈ xs, Lacks env x.2.2) (js : List (Text × J))
    (hj : fields env xs = some js) (hs : looseFields xs = true) : ∃ ks, Bals ks (fieldsL env xs) ∧ ks.sum = holesRec xs := by
  induction xs generalizing js with
  | nil => exact ⟨[], .nil, rfl⟩
  | cons x xs ihx =>
    obtain ⟨tg, l, v⟩ := x
    obtain ⟨y, ys, h1, h2, rfl⟩ := consO_some hj
    obtain ⟨k', v', h3, h4, rfl⟩ := pairO_some h1
    rw [looseFields, Bool.and_eq_true] at hs
    obtain ⟨ks, h5, h6⟩ := ihx (fun z hz => ih z (by simp [hz])) ys h2 hs.2
    exact ⟨_, .cons ((within_label h3).key (ih (tg, l, v) (by simp) v' h4 hs.1)) h5,
      by rw [List.sum_cons, h6, holesRec]; simp⟩

theorem within_key {k : V} {u : Text} (h : keyText env k = some u) (hs : safeKey k = true) : Within (keyT env k) := by
  obtain ⟨t, q, _, h1, h2⟩ := (P4_all env k).2.2.1 u h hs true false []
  rw [← h2]
  exact within_lit h1

theorem lacks_entries (xs : List (V × V)) (ih : ∀ x ∈ xs, Lacks env x.2) (js : List (Text × J))
    (hj : entries env xs = some js) (hs : looseEntries xs = true) : ∃ ks, Bals ks (entriesL env xs) ∧ ks.sum = holesMap xs := by
  induction xs generalizing js with
  | nil => exact ⟨[], .nil, rfl⟩
  | cons x xs ihx =>
    obtain ⟨k, v⟩ := x
    obtain ⟨y, ys, h1, h2, rfl⟩ := consO_some hj
    obtain ⟨k', v', h3, h4, rfl⟩ := pairO_some h1
    simp only [looseEntries, Bool.and_eq_true] at hs
    obtain ⟨ks, h5, h6⟩ := ihx (fun z hz => ih z (by simp [hz])) ys h2 hs.2
    refine ⟨_, .cons ((within_key env h3 hs.1.1.1).key ((bal_head (named k) v).append (ih (k, v) (by simp) v' h4 hs.1.1.2))) h5, ?_⟩
    rw [List.sum_cons, h6, holesMap]
    split <;> simp <;> omega

theorem holesTup_holesSeq (fs : List (Option Tag × Index × V)) : holesTup fs = holesSeq (fs.map (·.2.2)) := by
  induction fs with
  | nil => rfl
  | cons f fs ih => obtain ⟨t, i, v⟩ := f; simp only [holesTup, List.map_cons, holesSeq, ih]

theorem holesRT_holesRec (fs : List (Option Tag × Label × Index × V)) : holesRT fs = holesRec (unRT fs) := by
  induction fs with
  | nil => rfl
  | cons f fs ih => obtain ⟨t, l, i, v⟩ := f; simp only [holesRT, ih, unRT, List.map_cons, holesRec]

theorem lacks_all (v : V) : Lacks env v := by
  induction v using V.ind with
  | null => exact lacks_leaf env _ rfl rfl rfl
  | bool b => exact lacks_leaf env _ rfl rfl rfl
  | int t v => exact lacks_leaf env _ rfl rfl rfl
  | f32 b => exact lacks_leaf env _ rfl rfl rfl
  | f64 b => exact lacks_leaf env _ rfl rfl rfl
  | text n fs => exact lacks_leaf env _ rfl rfl rfl
  | binary n fs => exact lacks_leaf env _ rfl rfl rfl
  | tag m => exact fun _ _ _ => bal_tag m
  | hint t v ih => exact ih
  | seq n xs ih =>
    intro j hj hs
    rw [value, Option.map_eq_some_iff] at hj
    obtain ⟨js, hj, rfl⟩ := hj
    obtain ⟨ks, h1, h2⟩ := lacks_values env xs ih js hj hs
    rw [holes, ← h2]; exact bal_brackets h1
  | map n xs ih =>
    intro j hj hs
    rw [value, Option.map_eq_some_iff] at hj
    obtain ⟨js, hj, rfl⟩ := hj
    obtain ⟨ks, h1, h2⟩ := lacks_entries env xs (fun x hx => (ih x hx).2) js hj hs
    rw [holes, ← h2]; exact bal_braces h1
  | record m n xs ih =>
    intro j hj hs
    rw [value, Option.map_eq_some_iff] at hj
    obtain ⟨js, hj, rfl⟩ := hj
    obtain ⟨ks, h1, h2⟩ := lacks_fields env xs ih js hj hs
    rw [holes, ← h2]; exact bal_braces h1
  | tuple m n xs ih =>
    intro j hj hs
    rw [value, Option.map_eq_some_iff] at hj
    obtain ⟨js, hj, rfl⟩ := hj
    obtain ⟨ks, h1, h2⟩ := lacks_values env (xs.map (·.2.2)) (fun x hx => by
      simp only [List.mem_map] at hx
      obtain ⟨f, hf, rfl⟩ := hx
      exact ih f hf) js (by rw [← items_values]; exact hj) (by rw [← looseItems_looses]; exact hs)
    rw [holes, holesTup_holesSeq, ← h2, valueL, itemsL_valuesL]; exact bal_brackets h1
  | recordTuple m n xs ih =>
    intro j hj hs
    rw [value, Option.map_eq_some_iff] at hj
    obtain ⟨js, hj, rfl⟩ := hj
    obtain ⟨ks, h1, h2⟩ := lacks_fields env (unRT xs) (fun f hf => by
      simp only [unRT, List.mem_map] at hf
      obtain ⟨g, hg, rfl⟩ := hf
      exact ih g hg) js (by rw [← fieldsRT_fields]; exact hj) (by rw [← looseRT_looseFields]; exact hs)
    rw [holes, holesRT_holesRec, ← h2, valueL, fieldsRTL_fieldsL]; exact bal_braces h1
  | tagged m v ih =>
    intro j hj hs
    by_cases hsp : isSpecialTag m.tag = true
    · simp only [loose, hsp, if_true] at hs
      exact lacks_leaf env (.tagged m v) (by simp only [safe, hsp, if_true, hs])
        (by simp only [valueL, valueT, hsp, if_true]) (by simp only [holes, hsp, if_true]) j hj
        (by simp only [loose, hsp, if_true, hs])
    · simp only [value, hsp] at hj
      simp only [loose, hsp] at hs
      simp only [holes, valueL, hsp]
      exact ih j (by simpa using hj) (by simpa using hs)
  | enum m v ih =>
    intro j hj hs
    simp only [loose, Bool.and_eq_true, Bool.not_eq_true'] at hs
    obtain ⟨j', hj'⟩ := value_of_variant env v j hj
    have h1 := ih j' hj' hs.1.1
    simp only [valueL, holes]
    have h2 := bal_head true v
    rw [Bool.true_and] at h2
    cases hn : named v
    · rw [hn] at h2
      simpa using h2.append h1
    · rw [hn] at h2
      have := h2.append (h1.append bal_close)
      simp only [if_true] at this ⊢
      rwa [show 1 + ((holes v : Int) + -1) = holes v by omega] at this

/-! ## Safe values -/

def SafeIff (v : V) : Prop :=
  ((value env v).isSome = true → (safe v = true ↔ loose v = true ∧ holes v = 0)) ∧
  ((variant env v).isSome = true →
    (safeVariant v = true ↔ (loose v = true ∧ holes v = 0) ∧ rawName v = false ∧ extraName v = false))

theorem safes_iff (xs : List V) (ih : ∀ x ∈ xs, SafeIff env x) (js : List J) (hj : values env xs = some js) :
    safes xs = true ↔ looses xs = true ∧ holesSeq xs = 0 := by
  induction xs generalizing js with
  | nil => simp [safes, looses, holesSeq]
  | cons x xs ihx =>
    obtain ⟨y, ys, h1, h2, rfl⟩ := consO_some hj
    have := (ih x (by simp)).1 (by rw [h1]; rfl)
    have := ihx (fun z hz => ih z (by simp [hz])) ys h2
    simp only [safes, looses, holesSeq, Bool.and_eq_true, *, Nat.add_eq_zero_iff]
    exact and_and_and_comm

theorem safeFields_iff (xs : List (Option Tag × Label × V)) (ih : ∀ x ∈ xs, SafeIff env x.2.2) (js : List (Text × J))
    (hj : fields env xs = some js) : safeFields xs = true ↔ looseFields xs = true ∧ holesRec xs = 0 := by
  induction xs generalizing js with
  | nil => simp [safeFields, looseFields, holesRec]
  | cons x xs ihx =>
    obtain ⟨tg, l, v⟩ := x
    obtain ⟨y, ys, h1, h2, rfl⟩ := consO_some hj
    obtain ⟨k', v', h3, h4, rfl⟩ := pairO_some h1
    have := (ih (tg, l, v) (by simp)).1 (by rw [h4]; rfl)
    have := ihx (fun z hz => ih z (by simp [hz])) ys h2
    simp only [safeFields, looseFields, holesRec, Bool.and_eq_true, *, Nat.add_eq_zero_iff]
    exact and_and_and_comm

theorem rawName_named (v : V) (h : rawName v = true) : named v = true := by
  induction v using V.ind with
  | hint t v ih => exact ih h
  | tagged m v _ => simp only [rawName, Bool.and_eq_true] at h; exact h.2
  | _ => cases h

theorem safeEntries_iff (xs : List (V × V)) (ih : ∀ x ∈ xs, SafeIff env x.2) (js : List (Text × J))
    (hj : entries env xs = some js) : safeEntries xs = true ↔ looseEntries xs = true ∧ holesMap xs = 0 := by
  induction xs generalizing js with
  | nil => simp [safeEntries, looseEntries, holesMap]
  | cons x xs ihx =>
    obtain ⟨k, v⟩ := x
    obtain ⟨y, ys, h1, h2, rfl⟩ := consO_some hj
    obtain ⟨k', v', h3, h4, rfl⟩ := pairO_some h1
    have := (ih (k, v) (by simp)).1 (by rw [h4]; rfl)
    have := ihx (fun z hz => ih z (by simp [hz])) ys h2
    have hr := rawName_named v
    simp only [safeEntries, looseEntries, holesMap, Bool.and_eq_true, *, Nat.add_eq_zero_iff]
    revert hr
    cases named k <;> cases named v <;> cases rawName v <;> simp <;> grind

theorem safe_iff_all (v : V) : SafeIff env v := by
  induction v using V.ind with
  | null => exact ⟨fun _ => by simp [safe, loose, holes], fun h => by cases h⟩
  | bool b => exact ⟨fun _ => by simp [safe, loose, holes], fun h => by cases h⟩
  | int t v => exact ⟨fun _ => by simp [safe, loose, holes], fun h => by cases h⟩
  | f32 b => exact ⟨fun _ => by simp [safe, loose, holes], fun h => by cases h⟩
  | f64 b => exact ⟨fun _ => by simp [safe, loose, holes], fun h => by cases h⟩
  | text n fs => exact ⟨fun _ => by simp [safe, loose, holes], fun h => by cases h⟩
  | binary n fs => exact ⟨fun _ => by simp [safe, loose, holes], fun h => by cases h⟩
  | tag m => exact ⟨fun _ => by simp [safe, loose, holes], fun _ => by simp [safeVariant, loose, holes, rawName, extraName]⟩
  | hint t v ih => exact ih
  | seq n xs ih =>
    refine ⟨fun h => ?_, fun h => by cases h⟩
    obtain ⟨j, hj⟩ := Option.isSome_iff_exists.1 h
    rw [value, Option.map_eq_some_iff] at hj
    obtain ⟨js, hj, rfl⟩ := hj
    exact safes_iff env xs ih js hj
  | map n xs ih =>
    refine ⟨fun h => ?_, fun h => by cases h⟩
    obtain ⟨j, hj⟩ := Option.isSome_iff_exists.1 h
    rw [value, Option.map_eq_some_iff] at hj
    obtain ⟨js, hj, rfl⟩ := hj
    exact safeEntries_iff env xs (fun x hx => (ih x hx).2) js hj
  | record m n xs ih =>
    have key : ∀ js, fields env xs = some js → _ := fun js hj => safeFields_iff env xs ih js hj
    refine ⟨fun h => ?_, fun h => ?_⟩
    · obtain ⟨j, hj⟩ := Option.isSome_iff_exists.1 h
      rw [value, Option.map_eq_some_iff] at hj
      obtain ⟨js, hj, rfl⟩ := hj
      exact key js hj
    · obtain ⟨j, hj⟩ := Option.isSome_iff_exists.1 h
      rw [variant, Option.map_eq_some_iff] at hj
      obtain ⟨js, hj, rfl⟩ := hj
      simpa [safeVariant, loose, holes, rawName, extraName] using key js hj
  | recordTuple m n xs ih =>
    have key : ∀ js, fieldsRT env xs = some js → (safeRT xs = true ↔ looseRT xs = true ∧ holesRT xs = 0) := by
      intro js hj
      rw [safeRT_safeFields, looseRT_looseFields, holesRT_holesRec]
      exact safeFields_iff env (unRT xs) (fun f hf => by
        simp only [unRT, List.mem_map] at hf
        obtain ⟨g, hg, rfl⟩ := hf
        exact ih g hg) js (by rw [← fieldsRT_fields]; exact hj)
    refine ⟨fun h => ?_, fun h => ?_⟩
    · obtain ⟨j, hj⟩ := Option.isSome_iff_exists.1 h
      rw [value, Option.map_eq_some_iff] at hj
      obtain ⟨js, hj, rfl⟩ := hj
      exact key js hj
    · obtain ⟨j, hj⟩ := Option.isSome_iff_exists.1 h
      rw [variant, Option.map_eq_some_iff] at hj
      obtain ⟨js, hj, rfl⟩ := hj
      simpa [safeVariant, loose, holes, rawName, extraName] using key js hj
  | tuple m n xs ih =>
    have key : ∀ js, items env xs = some js → (safeItems xs = true ↔ looseItems xs = true ∧ holesTup xs = 0) := by
      intro js hj
      rw [safeItems_safes, looseItems_looses, holesTup_holesSeq]
      exact safes_iff env (xs.map (·.2.2)) (fun f hf => by
        simp only [List.mem_map] at hf
        obtain ⟨g, hg, rfl⟩ := hf
        exact ih g hg) js (by rw [← items_values]; exact hj)
    refine ⟨fun h => ?_, fun h => ?_⟩
    · obtain ⟨j, hj⟩ := Option.isSome_iff_exists.1 h
      rw [value, Option.map_eq_some_iff] at hj
      obtain ⟨js, hj, rfl⟩ := hj
      exact key js hj
    · obtain ⟨j, hj⟩ := Option.isSome_iff_exists.1 h
      rw [variant, Option.map_eq_some_iff] at hj
      obtain ⟨js, hj, rfl⟩ := hj
      simpa [safeVariant, loose, holes, rawName, extraName] using key js hj
  | tagged m v ih =>
    by_cases hsp : isSpecialTag m.tag = true
    · refine ⟨fun _ => by simp [safe, loose, holes, hsp], fun _ => ?_⟩
      simp only [safeVariant, loose, holes, rawName, extraName, hsp, if_true, Bool.and_eq_true, Bool.or_eq_true, and_true,
        Bool.true_and]
      refine and_congr Iff.rfl ?_
      cases idOf m <;> simp
    · simp only [Bool.not_eq_true] at hsp
      refine ⟨fun h => ?_, fun h => ?_⟩
      · simp only [safe, loose, holes, hsp]
        exact ih.1 (by simpa [value, hsp] using h)
      · simp only [safeVariant, loose, holes, rawName, extraName, hsp, Bool.false_and, and_true]
        exact ih.1 (by simpa [variant, hsp] using h)
  | enum m v ih =>
    refine ⟨fun h => ?_, fun h => ?_⟩
    · have := ih.2 (by simpa [value] using h)
      simp only [safe, loose, holes, this, Bool.and_eq_true, Bool.not_eq_true']
      grind
    · have := ih.2 (by simpa [variant] using h)
      simp only [safeVariant, loose, holes, rawName, extraName, this, Bool.and_eq_true, Bool.not_eq_true', Bool.or_eq_true]
      cases idOf m <;> simp <;> grind

/-- Being safe is being loose without holes. -/
theorem safe_iff (v : V) (j : J) (hj : value env v = some j) : safe v = true ↔ loose v = true ∧ holes v = 0 :=
  (safe_iff_all env v).1 (by rw [hj]; rfl)

end Sval.Json
