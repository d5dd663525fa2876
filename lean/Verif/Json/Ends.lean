import Verif.Json.Embed

set_option autoImplicit false

/-!
# Where a document ends

All documents but numbers end where they end: the last character of `null`, of a string, of an array or an object is in none
of their beginnings the last of a document.
-/

namespace Sval.Json

/-- Documents with an end that can be seen: all but numbers. -/
def NotNumber : J → Prop
  | .num _ => False
  | _ => True

theorem reads_ended {j : J} (hj : NotNumber j) {t : Text} (ht : Val j t) (n : Nat) (r : Text) (hn : 2 * t.length < n) :
    pVal n (t ++ r) = some (j, r) := by
  obtain ⟨n, rfl⟩ : ∃ k, n = k + 1 := ⟨n - 1, by omega⟩
  cases j with
  | num q => exact hj.elim
  | null => simp only [Val] at ht; subst ht; simp [pVal]
  | bool b => simp only [Val] at ht; subst ht; cases b <;> simp [pVal]
  | str s =>
    simp only [Val] at ht
    obtain ⟨u, hu, rfl⟩ := ht
    rw [show '"' :: (u ++ ['"']) ++ r = '"' :: (u ++ '"' :: r) by simp]
    unfold pVal
    simp only
    rw [pStr_complete hu _ _ (by simp; omega)]
    rfl
  | arr xs =>
    simp only [Val] at ht
    obtain ⟨u, hu, rfl⟩ := ht
    rw [show '[' :: (u ++ [']']) ++ r = '[' :: (u ++ ']' :: r) by simp]
    simp only [List.length_cons, List.length_append, List.length_nil] at hn
    unfold pVal
    simp only
    cases xs with
    | nil =>
      simp only [Elems] at hu
      rw [ws_cons u hu _ _ (by decide)]
      rfl
    | cons x xs =>
      have hr := reads_elems (x :: xs) (by simp) (fun x _ => reads x) u hu n r (by omega)
      obtain ⟨c, r', h1, h2⟩ := Elems.head hu (']' :: r)
      rw [h1] at hr ⊢
      split
      · next heq => simp only [List.cons.injEq] at heq; exact absurd heq.1 h2
      · rw [hr]; rfl
  | obj xs =>
    simp only [Val] at ht
    obtain ⟨u, hu, rfl⟩ := ht
    rw [show '{' :: (u ++ ['}']) ++ r = '{' :: (u ++ '}' :: r) by simp]
    simp only [List.length_cons, List.length_append, List.length_nil] at hn
    unfold pVal
    simp only
    cases xs with
    | nil =>
      simp only [Members] at hu
      rw [ws_cons u hu _ _ (by decide)]
      rfl
    | cons x xs =>
      have hr := reads_members (x :: xs) (by simp) (fun x _ => reads x.2) u hu n r (by omega)
      obtain ⟨c, r', h1, h2⟩ := Members.head hu ('}' :: r)
      rw [h1] at hr ⊢
      split
      · next heq => simp only [List.cons.injEq] at heq; exact absurd heq.1 h2
      · rw [hr]; rfl

/-- The first character tells a number from all else. -/
theorem ended_head {j : J} {t : Text} (h : Val j t) : ∃ c r, t = c :: r ∧ isWs c = false ∧ (NotNumber j ↔ ¬ (c = '-' ∨ isDigit c = true)) := by
  obtain ⟨c, r, h1, h2⟩ := Val.head h
  refine ⟨c, r, h1, (start_not h2).1, ?_⟩
  cases j with
  | num q =>
    simp only [Val] at h
    obtain ⟨c', r', h3, h4⟩ := h.head
    rw [h1] at h3; cases h3
    exact ⟨False.elim, fun h => h h4⟩
  | null => simp only [Val] at h; rw [h] at h1; cases h1; exact ⟨fun _ => by decide, fun _ => trivial⟩
  | bool b => simp only [Val] at h; rw [h] at h1; cases b <;> cases h1 <;> exact ⟨fun _ => by decide, fun _ => trivial⟩
  | str s => simp only [Val] at h; obtain ⟨u, _, rfl⟩ := h; cases h1; exact ⟨fun _ => by decide, fun _ => trivial⟩
  | arr s => simp only [Val] at h; obtain ⟨u, _, rfl⟩ := h; cases h1; exact ⟨fun _ => by decide, fun _ => trivial⟩
  | obj s => simp only [Val] at h; obtain ⟨u, _, rfl⟩ := h; cases h1; exact ⟨fun _ => by decide, fun _ => trivial⟩

/-- If a text begins with two values, and one of them is not a number, they are the same. -/
theorem ended_unique {j j' : J} (hj : NotNumber j) {t t' r r' : Text} (h : Val j t) (h' : Val j' t') (e : t ++ r = t' ++ r') :
    j = j' ∧ t = t' ∧ r = r' := by
  obtain ⟨c, u, rfl, _, h1⟩ := ended_head h
  obtain ⟨c', u', rfl, _, h2⟩ := ended_head h'
  have hc : c = c' := by simp only [List.cons_append, List.cons.injEq] at e; exact e.1
  subst hc
  have e1 := reads_ended hj h (2 * (c :: u).length + 2 * (c :: u').length + 1) r (by omega)
  have e2 := reads_ended (h2.2 (h1.1 hj)) h' (2 * (c :: u).length + 2 * (c :: u').length + 1) r' (by omega)
  rw [e, e2] at e1
  cases e1
  exact ⟨rfl, List.append_cancel_right e, rfl⟩

/-- A beginning of a document that is a document is all of it but the space at the end. -/
theorem ended_prefix {j j' : J} (hj : NotNumber j) {t p : Text} (h : Doc j t) (h' : Doc j' p) (hp : p <+: t) :
    j' = j ∧ ∃ w, Ws w ∧ t = p ++ w := by
  obtain ⟨q, rfl⟩ := hp
  obtain ⟨w, u, w', hw, hu, hw', e⟩ := h
  obtain ⟨v, x, v', hv, hx, hv', rfl⟩ := h'
  obtain ⟨c, u1, rfl, hc, _⟩ := ended_head hu
  obtain ⟨d, x1, rfl, hd, _⟩ := ended_head hx
  have e1 := congrArg ws e
  rw [List.cons_append, List.cons_append, ws_cons w hw _ _ hc, List.append_assoc, List.cons_append, ws_cons v hv _ _ hd,
    ← List.cons_append, ← List.cons_append, ← List.cons_append, List.append_assoc] at e1
  obtain ⟨rfl, _, e2⟩ := ended_unique hj hu hx e1.symm
  subst e2
  refine ⟨rfl, q, ?_, rfl⟩
  rw [Ws, List.all_append, Bool.and_eq_true] at hw'
  exact hw'.2

/-- The space at the end apart, a document that begins with a document ends where it ends. -/
theorem Doc.tight {j : J} {t : Text} (h : Doc j t) (hh : ∀ c, t.head? = some c → isWs c = false)
    (hl : ∀ c, t.getLast? = some c → isWs c = false) : Val j t := by
  obtain ⟨w, u, w', hw, hu, hw', rfl⟩ := h
  have h1 : w = [] := by
    cases w with
    | nil => rfl
    | cons c w => have := hh c rfl; rw [Ws, List.all_cons, this] at hw; cases hw
  have h2 : w' = [] := by
    rcases List.eq_nil_or_concat w' with h | ⟨a, c, rfl⟩
    · exact h
    · have := hl c (by simp [← List.append_assoc])
      rw [Ws, List.concat_eq_append, List.all_append] at hw'
      simp [this] at hw'
  subst h1 h2
  simpa using hu

/-! ## The last character of what is written -/

/-- All of the value is text tagged as JSON. -/
def allJson : V → Bool
  | .tagged m v => m.tag = some tags.JSON_VALUE || allJson v
  | .enum _ v | .hint _ v => allJson v
  | _ => false

section
variable (env : Env)

/-- Begins and ends with something other than space. -/
def Tight (t : Text) : Prop :=
  (∀ c, t.head? = some c → isWs c = false) ∧ (∀ c, t.getLast? = some c → isWs c = false)

theorem tight_mid (a b : Char) (t : Text) (ha : isWs a = false) (hb : isWs b = false) : Tight (a :: (t ++ [b])) := by
  refine ⟨fun c hc => ?_, fun c hc => ?_⟩
  · cases hc; exact ha
  · rw [← List.cons_append, List.getLast?_concat] at hc; cases hc; exact hb

theorem tight_null : Tight (t! "null") := tight_mid 'n' 'l' (t! "ul") rfl rfl

theorem tight_brackets (ts : List Text) : Tight (brackets ts) := tight_mid _ _ _ rfl rfl
theorem tight_braces (ts : List Text) : Tight (braces ts) := tight_mid _ _ _ rfl rfl
theorem tight_quote (t : Text) : Tight (quoteT t) := tight_mid _ _ _ rfl rfl

theorem tight_tag (m : Meta) (h : NotNumber (tagJ m)) : Tight (tagT m) := by
  unfold tagJ at h
  unfold tagT
  split
  · exact tight_null
  · next hn =>
    rw [if_neg hn] at h
    cases hl : m.label with
    | some l => exact tight_quote _
    | none =>
      simp only [hl] at h ⊢
      cases hi : m.index with
      | none => simp only [idOf, hl, hi]; exact tight_null
      | some i =>
        simp only [hi] at h
        split at h
        · exact h.elim
        · next hr =>
          simp only [idOf, hl, hi, Option.bind_some, if_neg hr]
          exact tight_null

theorem numOf_num {s : Text} {j : J} (h : numOf s = some j) : ¬ NotNumber j := by
  unfold numOf at h
  split at h
  · cases h; exact id
  · cases h

theorem tight_special (t : Option Tag) (s : Text) (j : J) (h : specialJ t s = some j) (hj : NotNumber j)
    (hs : isSpecialTag t = true) (ht : t ≠ some tags.JSON_VALUE) : Tight (specialT t s) := by
  unfold specialT
  split
  · exact tight_quote _
  · next h1 =>
    unfold specialJ at h
    unfold specialKeyT
    split
    · next h2 =>
      rw [if_pos h2] at h
      unfold numberOf at h
      unfold numberKey
      split at h
      · cases h; exact hj.elim
      · next h3 =>
        split at h
        · next h4 => simp only [h4, if_true, Option.getD_some]; exact tight_null
        · cases h
    · next h2 =>
      rw [if_neg h2, if_neg ht] at h
      split at h
      · exact absurd hj (numOf_num h)
      · next h3 =>
        simp only [isSpecialTag] at hs
        simp_all

def Tights (v : V) : Prop :=
  allJson v = false →
  (∀ j, value env v = some j → NotNumber j → Tight (valueT env v)) ∧
  (∀ j, variant env v = some j → NotNumber j → Tight (variantT env v))

theorem tight_wrap (m : Meta) (t : Text) (j : J) (hj : NotNumber (wrap m j)) (h : NotNumber j → Tight t) : Tight (wrapT m t) := by
  unfold wrapT
  split
  · exact tight_braces _
  · next hm =>
    refine h ?_
    unfold wrap at hj
    split at hj
    · next k hk => rw [hk] at hm; exact absurd rfl hm
    · exact hj

theorem tights (v : V) : Tights env v := by
  induction v using V.ind with
  | null => exact fun _ => ⟨fun _ _ _ => tight_null, fun _ h => by cases h⟩
  | bool b =>
    refine fun _ => ⟨fun _ _ _ => ?_, fun _ h => by cases h⟩
    cases b
    · exact tight_mid 'f' 'e' (t! "als") rfl rfl
    · exact tight_mid 't' 'e' (t! "ru") rfl rfl
  | int => exact fun _ => ⟨fun _ h hj => by cases h; exact hj.elim, fun _ h => by cases h⟩
  | f32 b =>
    refine fun _ => ⟨fun j h hj => ?_, fun _ h => by cases h⟩
    simp only [value] at h
    simp only [valueT]
    split
    · next hf => rw [if_pos hf] at h; exact absurd hj (numOf_num h)
    · exact tight_null
  | f64 b =>
    refine fun _ => ⟨fun j h hj => ?_, fun _ h => by cases h⟩
    simp only [value] at h
    simp only [valueT]
    split
    · next hf => rw [if_pos hf] at h; exact absurd hj (numOf_num h)
    · exact tight_null
  | text => exact fun _ => ⟨fun _ _ _ => tight_quote _, fun _ h => by cases h⟩
  | binary => exact fun _ => ⟨fun _ _ _ => tight_brackets _, fun _ h => by cases h⟩
  | seq => exact fun _ => ⟨fun _ _ _ => tight_brackets _, fun _ h => by cases h⟩
  | map => exact fun _ => ⟨fun _ _ _ => tight_braces _, fun _ h => by cases h⟩
  | tag m => exact fun _ => ⟨fun _ h hj => by cases h; exact tight_tag m hj, fun _ h hj => by cases h; exact tight_tag m hj⟩
  | tagged m v ih =>
    intro hb
    simp only [allJson, Bool.or_eq_false_iff, decide_eq_false_iff_not] at hb
    have key : ∀ j, (if isSpecialTag m.tag then (textOf v).bind (specialJ m.tag) else value env v) = some j → NotNumber j →
        Tight (if isSpecialTag m.tag then specialT m.tag ((textOf v).getD []) else valueT env v) := by
      intro j h hj
      split at h
      · next hs =>
        rw [if_pos hs]
        cases ht : textOf v with
        | none => rw [ht] at h; cases h
        | some s => rw [ht] at h; exact tight_special _ _ j h hj hs hb.1
      · next hs => rw [if_neg hs]; exact (ih hb.2).1 j h hj
    refine ⟨fun j h hj => by rw [value] at h; rw [valueT]; exact key j h hj, fun j h hj => ?_⟩
    rw [variant, Option.map_eq_some_iff] at h
    obtain ⟨j', h, rfl⟩ := h
    rw [variantT]
    exact tight_wrap _ _ _ hj (key j' h)
  | enum m v ih =>
    intro hb
    rw [allJson] at hb
    refine ⟨fun j h hj => by rw [value] at h; rw [valueT]; exact (ih hb).2 j h hj, fun j h hj => ?_⟩
    rw [variant, Option.map_eq_some_iff] at h
    obtain ⟨j', h, rfl⟩ := h
    rw [variantT]
    exact tight_wrap _ _ _ hj ((ih hb).2 j' h)
  | record m n fs =>
    refine fun _ => ⟨fun _ _ _ => by rw [valueT]; exact tight_braces _, fun j h hj => ?_⟩
    rw [variant, Option.map_eq_some_iff] at h
    obtain ⟨j', h, rfl⟩ := h
    rw [variantT]
    exact tight_wrap _ _ _ hj fun _ => tight_braces _
  | tuple m n fs =>
    refine fun _ => ⟨fun _ _ _ => by rw [valueT]; exact tight_brackets _, fun j h hj => ?_⟩
    rw [variant, Option.map_eq_some_iff] at h
    obtain ⟨j', h, rfl⟩ := h
    rw [variantT]
    exact tight_wrap _ _ _ hj fun _ => tight_brackets _
  | recordTuple m n fs =>
    refine fun _ => ⟨fun _ _ _ => by rw [valueT]; exact tight_braces _, fun j h hj => ?_⟩
    rw [variant, Option.map_eq_some_iff] at h
    obtain ⟨j', h, rfl⟩ := h
    rw [variantT]
    exact tight_wrap _ _ _ hj fun _ => tight_braces _
  | hint t v ih =>
    intro hb
    rw [allJson] at hb
    exact ⟨fun j h hj => by rw [value] at h; rw [valueT]; exact (ih hb).1 j h hj,
      fun j h hj => by rw [variant] at h; rw [variantT]; exact (ih hb).2 j h hj⟩

/-- What is written is a value, with no space around. -/
theorem toString_val (v : V) (j : J) (hj : value env v = some j) (hs : safe v = true) (hc : NotNumber j) (hb : allJson v = false) :
    toString env (valueOf v) = some (valueT env v) ∧ Val j (valueT env v) := by
  obtain ⟨h1, h2⟩ := toString_text_of env v j hj hs
  have ht := (tights env v hb).1 j hj hc
  exact ⟨h1, Doc.tight ((parse_iff _ _).1 h2) ht.1 ht.2⟩

end

/-- Texts of values, none of them a number, one after the other: where each begins and ends is clear. -/
theorem ended_split (ts ts' : List Text) (h : ∀ t ∈ ts, ∃ j, NotNumber j ∧ Val j t) (h' : ∀ t ∈ ts', ∃ j, NotNumber j ∧ Val j t)
    (e : ts.flatten = ts'.flatten) : ts = ts' := by
  induction ts generalizing ts' with
  | nil =>
    cases ts' with
    | nil => rfl
    | cons t ts' =>
      obtain ⟨j, _, hv⟩ := h' t (.head _)
      obtain ⟨c, r, rfl, _⟩ := Val.head hv
      cases e
  | cons t ts ih =>
    obtain ⟨j, hc, hv⟩ := h t (.head _)
    cases ts' with
    | nil =>
      obtain ⟨c, r, rfl, _⟩ := Val.head hv
      cases e
    | cons t' ts' =>
      obtain ⟨j', hc', hv'⟩ := h' t' (.head _)
      obtain ⟨_, rfl, e'⟩ := ended_unique hc hv hv' e
      rw [ih ts' (fun t ht => h t (.tail _ ht)) (fun t ht => h' t (.tail _ ht)) e']

end Sval.Json
