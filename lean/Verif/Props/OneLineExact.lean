import Verif.Props.JsonExact
import Verif.Props.OneLine

set_option autoImplicit false

/-!
# JSON on one line, exactly: C102

For a value that has a document, whatever names, numbers and texts are in it, there is one way for a control character to get into
the output: as the whitespace of a text tagged as JSON.
-/

namespace Sval

open Json (J Env value loose valueL isSpecialTag textOf)

namespace Json

mutual
/-- The texts in a value that are copied as JSON. (Keys of maps have none with whitespace.) -/
def embedded : V → List Text
  | .seq _ xs => embeddedSeq xs
  | .map _ kvs => embeddedMap kvs
  | .tagged m v =>
    if m.tag = some tags.JSON_VALUE then [(textOf v).getD []] else if isSpecialTag m.tag then [] else embedded v
  | .enum _ v => embedded v
  | .record _ _ fs => embeddedRec fs
  | .tuple _ _ fs => embeddedTup fs
  | .recordTuple _ _ fs => embeddedRT fs
  | .hint _ v => embedded v
  | _ => []
def embeddedSeq : List V → List Text
  | [] => []
  | x :: xs => embedded x ++ embeddedSeq xs
def embeddedMap : List (V × V) → List Text
  | [] => []
  | (_, v) :: r => embedded v ++ embeddedMap r
def embeddedRec : List (Option Tag × Label × V) → List Text
  | [] => []
  | (_, _, v) :: r => embedded v ++ embeddedRec r
def embeddedTup : List (Option Tag × Index × V) → List Text
  | [] => []
  | (_, _, v) :: r => embedded v ++ embeddedTup r
def embeddedRT : List (Option Tag × Label × Index × V) → List Text
  | [] => []
  | (_, _, _, v) :: r => embedded v ++ embeddedRT r
end

theorem oneLine_cons (c : Char) (t : Text) : oneLine (c :: t) = (!control c && oneLine t) := rfl

theorem oneLine_raw {t : Text} (h : t.all rawOk = true) : oneLine t = true := by
  rw [oneLine, List.all_eq_true]
  rw [List.all_eq_true] at h
  intro c hc
  have := h c hc
  simp only [rawOk, Bool.and_eq_true, decide_eq_true_eq] at this
  simp [control]
  omega

theorem oneLine_strLit {t s : Text} (h : StrLit t s) : oneLine t = true := by
  have hx : ∀ {a : Char} {n : Nat}, hexVal a = some n → control a = false := by
    intro a n h
    rw [hexVal] at h
    simp only [control, decide_eq_false_iff_not]
    split at h
    · omega
    · split at h
      · omega
      · split at h
        · omega
        · cases h
  have h4 : ∀ {a b c d : Char} {n : Nat} {t : Text}, hex4 a b c d = some n → oneLine t = true →
      oneLine ('\\' :: 'u' :: a :: b :: c :: d :: t) = true := by
    intro a b c d n t h ht
    simp only [hex4, Option.bind_eq_bind, Option.bind_eq_some_iff] at h
    obtain ⟨_, ha, _, hb, _, hc, _, hd, _⟩ := h
    simp only [oneLine_cons, hx ha, hx hb, hx hc, hx hd, ht]
    rfl
  induction h with
  | nil => rfl
  | raw c hc _ ih =>
    have : oneLine [c] = true := oneLine_raw (by simp [hc])
    rw [oneLine_cons, ih]
    simpa [oneLine] using this
  | esc e c he h ih =>
    have : control e = false := by
      unfold escOf at he
      split at he <;> first | rfl | cases he
    simp only [oneLine_cons, this, ih]
    rfl
  | uni a b c d n h1 h2 h ih => exact h4 h1 ih
  | pair a b c d a' b' c' d' n n' h1 h2 h3 h4' h ih => exact h4 h1 (h4 h3 ih)

theorem oneLine_esc (t : Text) : oneLine (escT t) = true := by
  rw [← escape_eq]
  exact oneLine_strLit (escape_lit t)

theorem oneLine_quote (t : Text) : oneLine (quoteT t) = oneLine t := by
  simp only [quoteT, oneLine_cons, oneLine_append]
  cases oneLine t <;> rfl

theorem oneLine_keyLit (t : Text) : oneLine (keyLit t) = oneLine t := by
  simp only [keyLit, oneLine_cons, oneLine_append]
  cases oneLine t <;> rfl

theorem oneLine_commas (ts : List Text) : oneLine (commas ts) = ts.all oneLine := by
  induction ts with
  | nil => rfl
  | cons t ts ih =>
    cases ts with
    | nil => simp [commas]
    | cons u r => rw [show commas (t :: u :: r) = t ++ ',' :: commas (u :: r) from rfl, oneLine_append, oneLine_cons, ih]; rfl

theorem oneLine_brackets (ts : List Text) : oneLine (brackets ts) = ts.all oneLine := by
  rw [brackets, oneLine_cons, oneLine_append, oneLine_commas]
  cases ts.all oneLine <;> rfl

theorem oneLine_braces (ts : List Text) : oneLine (braces ts) = ts.all oneLine := by
  rw [braces, oneLine_cons, oneLine_append, oneLine_commas]
  cases ts.all oneLine <;> rfl

theorem oneLine_id {m : Meta} (hm : m.label = none) (d : Text) (hd : oneLine d = true) : oneLine ((idOf m).getD d) = true := by
  rw [idOf, hm]
  cases m.index with
  | none => exact hd
  | some i =>
    dsimp only [Option.bind]
    split
    · exact oneLine_raw (intDec_raw _)
    · exact hd

theorem oneLine_name (m : Meta) : oneLine (nameT m) = true := by
  unfold nameT
  cases h : m.label with
  | some l => exact oneLine_esc _
  | none => exact oneLine_id h _ rfl

theorem oneLine_tag (m : Meta) : oneLine (tagT m) = true := by
  unfold tagT
  split
  · rfl
  · cases h : m.label with
    | some l => rw [oneLine_quote]; exact oneLine_esc _
    | none => exact oneLine_id h _ rfl

theorem oneLine_label {l : Label} {k : Text} (h : labelText l = some k) : oneLine (labelT l) = true := by
  obtain ⟨k', hk, he, _⟩ := labelText_lit h
  rw [← he]
  exact oneLine_strLit hk

theorem oneLine_head (tg : Bool) (v : V) : oneLine (headT tg v) = true := by
  have key : ∀ m : Meta, oneLine (if tg && (idOf m).isSome then '{' :: keyLit (nameT m) else []) = true := by
    intro m
    split
    · rw [oneLine_cons, oneLine_keyLit, oneLine_name]; rfl
    · rfl
  induction v using V.ind with
  | hint t v ih => exact ih
  | tagged m | enum m | record m | tuple m | recordTuple m => exact key m
  | _ => rfl

theorem oneLine_key {env : Env} {k : V} {u : Text} (h : keyText env k = some u) (hs : safeKey k = true) : oneLine (keyT env k) = true := by
  obtain ⟨t, q, _, h1, h2⟩ := (P4_all env k).2.2.1 u h hs true false []
  rw [← h2]
  exact oneLine_strLit h1

variable (env : Env)

/-- What is written for this value has a control character exactly if an embedded text has. -/
def Plainly (v : V) : Prop := ∀ j, value env v = some j → loose v = true → oneLine (valueL env v) = (embedded v).all oneLine

theorem plainly_values (xs : List V) (ih : ∀ x ∈ xs, Plainly env x) (js : List J) (hj : values env xs = some js)
    (hs : looses xs = true) : (valuesL env xs).all oneLine = (embeddedSeq xs).all oneLine := by
  induction xs generalizing js with
  | nil => rfl
  | cons x xs ihx =>
    obtain ⟨y, ys, h1, h2, rfl⟩ := consO_some hj
    rw [looses, Bool.and_eq_true] at hs
    rw [valuesL, embeddedSeq, List.all_cons, List.all_append, ih x (by simp) y h1 hs.1, ihx (fun z hz => ih z (by simp [hz])) ys h2 hs.2]

theorem plainly_fields (xs : List (Option Tag × Label × V)) (ih : ∀ x ∈ xs, Plainly env x.2.2) (js : List (Text × J))
    (hj : fields env xs = some js) (hs : looseFields xs = true) : (fieldsL env xs).all oneLine = (embeddedRec xs).all oneLine := by
  induction xs generalizing js with
  | nil => rfl
  | cons x xs ihx =>
    obtain ⟨tg, l, v⟩ := x
    obtain ⟨y, ys, h1, h2, rfl⟩ := consO_some hj
    obtain ⟨k', v', h3, h4, rfl⟩ := pairO_some h1
    rw [looseFields, Bool.and_eq_true] at hs
    rw [fieldsL, embeddedRec, List.all_cons, List.all_append, oneLine_append, oneLine_keyLit, oneLine_label h3,
      ih (tg, l, v) (by simp) v' h4 hs.1, ihx (fun z hz => ih z (by simp [hz])) ys h2 hs.2, Bool.true_and]

theorem plainly_entries (xs : List (V × V)) (ih : ∀ x ∈ xs, Plainly env x.2) (js : List (Text × J))
    (hj : entries env xs = some js) (hs : looseEntries xs = true) : (entriesL env xs).all oneLine = (embeddedMap xs).all oneLine := by
  induction xs generalizing js with
  | nil => rfl
  | cons x xs ihx =>
    obtain ⟨k, v⟩ := x
    obtain ⟨y, ys, h1, h2, rfl⟩ := consO_some hj
    obtain ⟨k', v', h3, h4, rfl⟩ := pairO_some h1
    simp only [looseEntries, Bool.and_eq_true] at hs
    rw [entriesL, embeddedMap, List.all_cons, List.all_append, oneLine_append, oneLine_append, oneLine_keyLit, oneLine_key h3 hs.1.1.1,
      oneLine_head, ih (k, v) (by simp) v' h4 hs.1.1.2, ihx (fun z hz => ih z (by simp [hz])) ys h2 hs.2, Bool.true_and, Bool.true_and]

theorem embeddedTup_seq (fs : List (Option Tag × Index × V)) : embeddedTup fs = embeddedSeq (fs.map (·.2.2)) := by
  induction fs with
  | nil => rfl
  | cons f fs ih => obtain ⟨t, i, v⟩ := f; simp only [embeddedTup, List.map_cons, embeddedSeq, ih]

theorem embeddedRT_rec (fs : List (Option Tag × Label × Index × V)) : embeddedRT fs = embeddedRec (unRT fs) := by
  induction fs with
  | nil => rfl
  | cons f fs ih => obtain ⟨t, l, i, v⟩ := f; simp only [embeddedRT, ih, unRT, List.map_cons, embeddedRec]

/-- Text tagged as a number or a string. -/
theorem oneLine_special {t : Option Tag} {s : Text} {j : J} (ht : t ≠ some tags.JSON_VALUE) (h : specialJ t s = some j) :
    oneLine (specialT t s) = true := by
  unfold specialJ at h
  unfold specialT specialKeyT
  split at h
  · rename_i hn
    subst hn
    have : (numberKey s).isSome = true := by
      unfold numberOf at h
      unfold numberKey
      split at h
      · rfl
      · split at h
        · rename_i e2; rw [if_pos e2]; rfl
        · cases h
    obtain ⟨u, hu⟩ := Option.isSome_iff_exists.1 this
    rw [if_neg (by decide), if_pos rfl, hu]
    exact oneLine_raw (numberKey_raw hu)
  · rename_i hn
    split at h
    · rename_i h3
      subst h3
      rw [if_neg (by decide), if_neg (by decide)]
      exact oneLine_raw (numOf_sound h).2
    · rw [Option.map_eq_some_iff] at h
      obtain ⟨u, hu, _⟩ := h
      have := oneLine_strLit (strOf_sound hu)
      split
      · rw [oneLine_quote, this]
      · exact this

theorem plainly_all (v : V) : Plainly env v := by
  have lit : ∀ t : Text, t.all rawOk = true → oneLine t = ([] : List Text).all oneLine := fun t h => by rw [oneLine_raw h]; rfl
  induction v using V.ind with
  | null => exact fun _ _ _ => rfl
  | bool b => cases b <;> exact fun _ _ _ => rfl
  | int t v => exact fun _ _ _ => lit _ (intDec_raw v)
  | f32 b =>
    intro j hj _
    rw [value] at hj
    rw [valueL]
    split
    · rename_i hf
      rw [if_pos hf] at hj
      exact lit _ (numOf_sound hj).2
    · exact lit _ (by decide)
  | f64 b =>
    intro j hj _
    rw [value] at hj
    rw [valueL]
    split
    · rename_i hf
      rw [if_pos hf] at hj
      exact lit _ (numOf_sound hj).2
    · exact lit _ (by decide)
  | text n fs =>
    intro j _ _
    rw [valueL, oneLine_quote, oneLine_esc]; rfl
  | binary n fs =>
    intro j _ _
    rw [valueL, oneLine_brackets, show embedded (.binary n fs) = [] from rfl, List.all_nil, List.all_eq_true]
    intro t ht
    obtain ⟨b, _, rfl⟩ := List.mem_map.1 ht
    exact oneLine_raw (intDec_raw _)
  | tag m => intro _ _ _; rw [valueL, oneLine_tag]; rfl
  | hint t v ih => exact ih
  | seq n xs ih =>
    intro j hj hs
    rw [value, Option.map_eq_some_iff] at hj
    obtain ⟨js, hj, rfl⟩ := hj
    rw [valueL, oneLine_brackets]
    exact plainly_values env xs ih js hj hs
  | map n xs ih =>
    intro j hj hs
    rw [value, Option.map_eq_some_iff] at hj
    obtain ⟨js, hj, rfl⟩ := hj
    rw [valueL, oneLine_braces]
    exact plainly_entries env xs (fun x hx => (ih x hx).2) js hj hs
  | record m n xs ih =>
    intro j hj hs
    rw [value, Option.map_eq_some_iff] at hj
    obtain ⟨js, hj, rfl⟩ := hj
    rw [valueL, oneLine_braces]
    exact plainly_fields env xs ih js hj hs
  | tuple m n xs ih =>
    intro j hj hs
    rw [value, Option.map_eq_some_iff] at hj
    obtain ⟨js, hj, rfl⟩ := hj
    rw [valueL, oneLine_brackets, itemsL_valuesL, embedded, embeddedTup_seq]
    exact plainly_values env (xs.map (·.2.2)) (fun x hx => by
      simp only [List.mem_map] at hx
      obtain ⟨f, hf, rfl⟩ := hx
      exact ih f hf) js (by rw [← items_values]; exact hj) (by rw [← looseItems_looses]; exact hs)
  | recordTuple m n xs ih =>
    intro j hj hs
    rw [value, Option.map_eq_some_iff] at hj
    obtain ⟨js, hj, rfl⟩ := hj
    rw [valueL, oneLine_braces, fieldsRTL_fieldsL, embedded, embeddedRT_rec]
    exact plainly_fields env (unRT xs) (fun f hf => by
      simp only [unRT, List.mem_map] at hf
      obtain ⟨g, hg, rfl⟩ := hf
      exact ih g hg) js (by rw [← fieldsRT_fields]; exact hj) (by rw [← looseRT_looseFields]; exact hs)
  | tagged m v ih =>
    intro j hj hs
    rw [value] at hj
    rw [loose] at hs
    rw [valueL, embedded]
    by_cases hsp : isSpecialTag m.tag = true
    · rw [if_pos hsp] at hj ⊢
      rw [Option.bind_eq_some_iff] at hj
      obtain ⟨s, hv, hj⟩ := hj
      rw [hv, Option.getD_some]
      by_cases ht : m.tag = some tags.JSON_VALUE
      · rw [if_pos ht, ht]
        show oneLine s = _
        simp
      · rw [if_neg ht, if_pos hsp, oneLine_special ht hj]; rfl
    · have ht : m.tag ≠ some tags.JSON_VALUE := by
        intro e
        rw [e] at hsp
        exact hsp rfl
      rw [if_neg hsp] at hj hs
      rw [if_neg hsp, if_neg ht, if_neg hsp]
      exact ih j hj hs
  | enum m v ih =>
    intro j hj hs
    simp only [loose, Bool.and_eq_true, Bool.not_eq_true'] at hs
    obtain ⟨j', hj'⟩ := value_of_variant env v j hj
    rw [valueL, embedded, oneLine_append, oneLine_append, oneLine_head, ih j' hj' hs.1.1]
    cases named v <;> cases (embedded v).all oneLine <;> rfl

end Json

/-- C102, exactly: a value that has a document, and that `sval_json` writes (C19_exact), is written without a control character if and
only if there is none in the texts tagged as JSON that are copied. -/
theorem C102_exact (env : Env) (v : V) (j : J) (hj : value env v = some j) (hs : loose v = true) (o : Text)
    (h : Json.toString env (valueOf v) = some o) : oneLine o = true ↔ ∀ t ∈ Json.embedded v, oneLine t = true := by
  rw [C63_loose_partial env v j hj hs] at h
  cases h
  rw [← List.all_eq_true, Json.plainly_all env v j hj hs]

/-- A value with a control character in every place: only that of the embedded JSON is written. -/
def controls (j : Text) : V := .record { label := some (.new (t! "R\n")) } none
  [(none, .new (t! "a\n"), .map none [(.text none [.computed (t! "k\n")], .tagged { tag := some tags.JSON_VALUE } (.text none [.computed j]))]),
   (none, .new (t! "b"), .enum {} (.tagged { label := some (.new (t! "V\t")) } (.text none [.borrowed (t! "\n")]))),
   (none, .new (t! "c"), .tagged { tag := some tags.NUMBER } (.text none [.computed (t! "1"), .computed (t! "e5")]))]

example : (value anyEnv (controls (t! "[1,\n2]"))).isSome = true ∧ loose (controls (t! "[1,\n2]")) = true ∧
    Json.embedded (controls (t! "[1,\n2]")) = [t! "[1,\n2]"] ∧
    (Json.toString anyEnv (valueOf (controls (t! "[1,2]")))).map oneLine = some true ∧
    (Json.toString anyEnv (valueOf (controls (t! "[1,\n2]")))).map oneLine = some false := by decide +kernel

end Sval
