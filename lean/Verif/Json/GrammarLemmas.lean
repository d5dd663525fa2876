import Verif.Json.Grammar

set_option autoImplicit false

/-!
# The JSON parser is sound and complete for the grammar
-/

namespace Sval.Json

/-! ## Lists -/

theorem takeWhile_append {α : Type} (p : α → Bool) (a b : List α) (ha : a.all p = true)
    (hb : ∀ c, b.head? = some c → p c = false) :
    (a ++ b).takeWhile p = a ∧ (a ++ b).dropWhile p = b := by
  induction a with
  | nil =>
    cases b with
    | nil => exact ⟨rfl, rfl⟩
    | cons c b => simp [hb c rfl]
  | cons x a ih =>
    simp only [List.all_cons, Bool.and_eq_true] at ha
    have := ih ha.2
    simp [ha.1, this]

theorem takeWhile_all {α : Type} (p : α → Bool) (t : List α) : (t.takeWhile p).all p = true := by
  induction t with
  | nil => rfl
  | cons x t ih =>
    by_cases h : p x = true
    · simp [h]
    · simp [h]

theorem dropWhile_head {α : Type} (p : α → Bool) (t : List α) (c : α) (h : (t.dropWhile p).head? = some c) :
    p c = false := by
  induction t with
  | nil => simp at h
  | cons x t ih =>
    by_cases hx : p x = true
    · simp only [List.dropWhile_cons, hx, if_true] at h; exact ih h
    · simp only [List.dropWhile_cons, hx] at h
      simp at h
      subst h
      simpa using hx

/-! ## Whitespace -/

theorem ws_append (w t : Text) (h : Ws w) (ht : ∀ c, t.head? = some c → isWs c = false) : ws (w ++ t) = t :=
  (takeWhile_append isWs w t h ht).2

theorem ws_id (t : Text) (ht : ∀ c, t.head? = some c → isWs c = false) : ws t = t := by
  simpa using ws_append [] t rfl ht

theorem ws_split (t : Text) : ∃ w, Ws w ∧ t = w ++ ws t :=
  ⟨t.takeWhile isWs, takeWhile_all _ _, (List.takeWhile_append_dropWhile).symm⟩

theorem Ws.append {a b : Text} (ha : Ws a) (hb : Ws b) : Ws (a ++ b) := by
  unfold Ws at *; rw [List.all_append, ha, hb]; rfl

/-! ## Numbers -/

/-- What may follow a number without being part of it. -/
def Follow (r : Text) : Prop :=
  ∀ c, r.head? = some c → isDigit c = false ∧ c ≠ '.' ∧ c ≠ 'e' ∧ c ≠ 'E'

theorem digit_ne {c : Char} (h : isDigit c = true) (n : Char) (hn : isDigit n = false) : c ≠ n := by
  rintro rfl; rw [h] at hn; cases hn

theorem pSign_eq (s r : Text) (hs : s = [] ∨ s = ['-']) (hr : r.head? ≠ some '-') : pSign (s ++ r) = (s, r) := by
  rcases hs with rfl | rfl
  · cases r with
    | nil => rfl
    | cons c r =>
      simp only [List.head?_cons, ne_eq, Option.some.injEq] at hr
      unfold pSign
      split
      · next h => simp at h; exact absurd h.1 hr
      · rfl
  · rfl

theorem pExpSign_eq (s r : Text) (hs : s = [] ∨ s = ['+'] ∨ s = ['-'])
    (hr : ∀ c, r.head? = some c → c ≠ '+' ∧ c ≠ '-') : pExpSign (s ++ r) = (s, r) := by
  rcases hs with rfl | rfl | rfl
  · unfold pExpSign
    split
    · next h => simp only [List.nil_append] at h; subst h; exact absurd rfl (hr _ rfl).1
    · next h => simp only [List.nil_append] at h; subst h; exact absurd rfl (hr _ rfl).2
    · rfl
  · rfl
  · rfl

theorem pExp_eq (e : Option (Char × Text × Text)) (r : Text) (he : Num.ExpOk e) (hr : Follow r) :
    pExp (Num.expText e ++ r) = some (e, r) := by
  cases e with
  | none =>
    cases r with
    | nil => rfl
    | cons c r =>
      have := hr c rfl
      simp [Num.expText, pExp, this.2.2.1, this.2.2.2]
  | some x =>
    obtain ⟨c, s, d⟩ := x
    obtain ⟨h1, h2, h3⟩ := he c s d rfl
    have hd := takeWhile_append isDigit d r h3.2 (fun c hc => (hr c hc).1)
    have hs : pExpSign (s ++ (d ++ r)) = (s, d ++ r) := by
      apply pExpSign_eq s _ h2
      intro c hc
      obtain ⟨x, xs, rfl⟩ : ∃ x xs, d = x :: xs := by
        cases d with
        | nil => exact absurd rfl h3.1
        | cons x xs => exact ⟨x, xs, rfl⟩
      simp at hc
      subst hc
      have hx : isDigit x = true := by have := h3.2; simp at this; exact this.1
      exact ⟨digit_ne hx _ rfl, digit_ne hx _ rfl⟩
    simp only [Num.expText, List.cons_append, List.append_assoc, pExp, h1, if_true, hs, hd.1, h3.1, if_false, hd.2]

theorem expText_head (e : Option (Char × Text × Text)) (r : Text) (he : Num.ExpOk e) (hr : Follow r) (c : Char)
    (h : (Num.expText e ++ r).head? = some c) : isDigit c = false ∧ c ≠ '.' := by
  cases e with
  | none => exact ⟨(hr c h).1, (hr c h).2.1⟩
  | some x =>
    obtain ⟨x, s, d⟩ := x
    have h1 := (he x s d rfl).1
    simp [Num.expText] at h
    subst h
    rcases h1 with rfl | rfl <;> exact ⟨by decide, by decide⟩

theorem pFrac_eq (f : Option Text) (e : Option (Char × Text × Text)) (r : Text) (hf : Num.FracOk f)
    (he : Num.ExpOk e) (hr : Follow r) :
    pFrac (Num.fracText f ++ (Num.expText e ++ r)) = some (f, Num.expText e ++ r) := by
  have hh := expText_head e r he hr
  cases f with
  | none =>
    simp only [Num.fracText, List.nil_append]
    unfold pFrac
    split
    · next h => exact absurd rfl (hh '.' (by rw [h]; rfl)).2
    · rfl
  | some d =>
    have h3 := hf d rfl
    have hd := takeWhile_append isDigit d _ h3.2 (fun c hc => (hh c hc).1)
    simp only [Num.fracText, List.cons_append, pFrac, hd.1, h3.1, if_false, hd.2]

theorem fracText_head (f : Option Text) (e : Option (Char × Text × Text)) (r : Text)
    (he : Num.ExpOk e) (hr : Follow r) (c : Char)
    (h : (Num.fracText f ++ (Num.expText e ++ r)).head? = some c) : isDigit c = false := by
  cases f with
  | none => exact (expText_head e r he hr c h).1
  | some d =>
    simp [Num.fracText] at h
    subst h; decide

theorem pNum_complete (n : Num) (r : Text) (hn : n.IsJson) (hr : Follow r) :
    pNum (n.text ++ r) = some (n, r) := by
  obtain ⟨h1, h2, h3, h4, h5⟩ := hn
  have hi := takeWhile_append isDigit n.int (Num.fracText n.frac ++ (Num.expText n.exp ++ r)) h2.2
    (fun c hc => fracText_head n.frac n.exp r h5 hr c hc)
  obtain ⟨x, xs, hx⟩ : ∃ x xs, n.int = x :: xs := by
    cases h : n.int with
    | nil => exact absurd h h2.1
    | cons x xs => exact ⟨x, xs, rfl⟩
  have hxd : isDigit x = true := by have := h2.2; rw [hx] at this; simp at this; exact this.1
  have hs : pSign (n.sign ++ (n.int ++ (Num.fracText n.frac ++ (Num.expText n.exp ++ r)))) =
      (n.sign, n.int ++ (Num.fracText n.frac ++ (Num.expText n.exp ++ r))) := by
    apply pSign_eq _ _ h1
    rw [hx]; simp
    exact digit_ne hxd _ rfl
  have hc : ¬ (n.int = [] ∨ (n.int.head? = some '0' ∧ n.int ≠ ['0'])) := by
    rintro (h | ⟨h, h'⟩)
    · exact h2.1 h
    · exact h' (h3 h)
  unfold pNum Num.text
  simp only [List.append_assoc, hs, pInt, hi.1, hi.2, hc, if_false, Option.bind_eq_bind, Option.bind_some,
    pFrac_eq n.frac n.exp r h4 h5 hr, pExp_eq n.exp r h5 hr]

theorem pSign_sound (t : Text) : ((pSign t).1 = [] ∨ (pSign t).1 = ['-']) ∧ t = (pSign t).1 ++ (pSign t).2 := by
  unfold pSign
  split
  · exact ⟨.inr rfl, rfl⟩
  · exact ⟨.inl rfl, rfl⟩

theorem pInt_sound (t i r : Text) (h : pInt t = some (i, r)) :
    Num.IsDigits i ∧ (i.head? = some '0' → i = ['0']) ∧ t = i ++ r := by
  unfold pInt at h
  simp only at h
  split at h
  · cases h
  · next hc =>
    simp only [Option.some.injEq, Prod.mk.injEq] at h
    obtain ⟨rfl, rfl⟩ := h
    refine ⟨⟨fun h => hc (.inl h), takeWhile_all _ _⟩, ?_, List.takeWhile_append_dropWhile.symm⟩
    intro h
    by_cases h0 : t.takeWhile isDigit = ['0']
    · exact h0
    · exact absurd (.inr ⟨h, h0⟩) hc

theorem pFrac_sound (t : Text) (f : Option Text) (r : Text) (h : pFrac t = some (f, r)) :
    Num.FracOk f ∧ t = Num.fracText f ++ r := by
  unfold pFrac at h
  split at h
  · simp only at h
    split at h
    · cases h
    · next hc =>
      simp only [Option.some.injEq, Prod.mk.injEq] at h
      obtain ⟨rfl, rfl⟩ := h
      refine ⟨?_, by simp [Num.fracText, List.takeWhile_append_dropWhile]⟩
      intro d hd
      cases hd
      exact ⟨hc, takeWhile_all _ _⟩
  · simp only [Option.some.injEq, Prod.mk.injEq] at h
    obtain ⟨rfl, rfl⟩ := h
    exact ⟨fun d hd => (by cases hd), rfl⟩

theorem pExpSign_sound (t : Text) :
    ((pExpSign t).1 = [] ∨ (pExpSign t).1 = ['+'] ∨ (pExpSign t).1 = ['-']) ∧ t = (pExpSign t).1 ++ (pExpSign t).2 := by
  unfold pExpSign
  split
  · exact ⟨.inr (.inl rfl), rfl⟩
  · exact ⟨.inr (.inr rfl), rfl⟩
  · exact ⟨.inl rfl, rfl⟩

theorem pExp_sound (t : Text) (e : Option (Char × Text × Text)) (r : Text) (h : pExp t = some (e, r)) :
    Num.ExpOk e ∧ t = Num.expText e ++ r := by
  cases t with
  | nil =>
    simp only [pExp, Option.some.injEq, Prod.mk.injEq] at h
    obtain ⟨rfl, rfl⟩ := h
    exact ⟨fun _ _ _ hd => (by cases hd), rfl⟩
  | cons c t =>
    simp only [pExp] at h
    split at h
    · next hce =>
      split at h
      · cases h
      · next hc =>
        simp only [Option.some.injEq, Prod.mk.injEq] at h
        obtain ⟨rfl, rfl⟩ := h
        have hs := pExpSign_sound t
        refine ⟨?_, ?_⟩
        · intro c' s d hd
          cases hd
          exact ⟨hce, hs.1, hc, takeWhile_all _ _⟩
        · simp only [Num.expText, List.cons_append, List.append_assoc, List.takeWhile_append_dropWhile]
          rw [← hs.2]
    · simp only [Option.some.injEq, Prod.mk.injEq] at h
      obtain ⟨rfl, rfl⟩ := h
      exact ⟨fun _ _ _ hd => (by cases hd), rfl⟩

theorem pNum_sound (t : Text) (n : Num) (r : Text) (h : pNum t = some (n, r)) : n.IsJson ∧ t = n.text ++ r := by
  unfold pNum at h
  simp only [Option.bind_eq_bind, Option.bind_eq_some_iff] at h
  obtain ⟨⟨i, t1⟩, h1, ⟨f, t2⟩, h2, ⟨e, t3⟩, h3, h4⟩ := h
  simp only [Option.some.injEq, Prod.mk.injEq] at h4
  obtain ⟨rfl, rfl⟩ := h4
  have s0 := pSign_sound t
  have s1 := pInt_sound _ _ _ h1
  have s2 := pFrac_sound _ _ _ h2
  have s3 := pExp_sound _ _ _ h3
  refine ⟨⟨s0.1, s1.1, s1.2.1, s2.1, s3.1⟩, ?_⟩
  simp only [Num.text, List.append_assoc]
  rw [← s3.2, ← s2.2, ← s1.2.2, ← s0.2]

/-! ## Strings -/

theorem escOf_ne_u {e c : Char} (h : escOf e = some c) : e ≠ 'u' := by
  rintro rfl; simp [escOf] at h

theorem pStr_complete {t s : Text} (h : StrLit t s) (n : Nat) (r : Text) (hn : t.length < n) :
    pStr n (t ++ '"' :: r) = some (s, r) := by
  induction h generalizing n with
  | nil =>
    obtain ⟨n, rfl⟩ : ∃ k, n = k + 1 := ⟨n - 1, by simp at hn; omega⟩
    simp [pStr]
  | raw c hc _ ih =>
    obtain ⟨n, rfl⟩ : ∃ k, n = k + 1 := ⟨n - 1, by simp at hn; omega⟩
    simp only [List.length_cons] at hn
    have h1 : c ≠ '"' := by rintro rfl; simp [rawOk] at hc
    have h2 : c ≠ '\\' := by rintro rfl; simp [rawOk] at hc
    simp only [List.cons_append, pStr, h1, h2, if_false, hc, if_true]
    rw [ih n (by omega)]; rfl
  | esc e c hc _ ih =>
    obtain ⟨n, rfl⟩ : ∃ k, n = k + 1 := ⟨n - 1, by simp at hn; omega⟩
    simp only [List.length_cons] at hn
    have hu := escOf_ne_u hc
    simp only [List.cons_append, pStr, (by decide : ¬ '\\' = '"'), if_false, if_true]
    split
    · next heq => simp at heq; exact absurd heq.1 hu
    · next heq =>
      simp only [List.cons.injEq] at heq
      obtain ⟨rfl, rfl⟩ := heq
      rw [hc]
      simp only
      rw [ih n (by omega)]; rfl
    · next heq => simp at heq
  | uni a b c d k hk hs _ ih =>
    obtain ⟨n, rfl⟩ : ∃ k, n = k + 1 := ⟨n - 1, by simp at hn; omega⟩
    simp only [List.length_cons] at hn
    simp only [List.cons_append, pStr, (by decide : ¬ '\\' = '"'), if_false, if_true, hk, hs]
    rw [ih n (by omega)]; rfl
  | pair a b c d a' b' c' d' k k' hk hs hk' hs' _ ih =>
    obtain ⟨n, rfl⟩ : ∃ k, n = k + 1 := ⟨n - 1, by simp at hn; omega⟩
    simp only [List.length_cons] at hn
    have h1 : ¬ (k < 0xD800 ∨ 0xDFFF < k) := by omega
    simp only [List.cons_append, pStr, (by decide : ¬ '\\' = '"'), if_false, if_true, hk, h1, hs.2, hk', hs'.1, hs'.2, and_self]
    rw [ih n (by omega)]; rfl

theorem pStr_sound (n : Nat) (t s r : Text) (h : pStr n t = some (s, r)) :
    ∃ u, StrLit u s ∧ t = u ++ '"' :: r := by
  induction n generalizing t s with
  | zero => simp [pStr] at h
  | succ n ih =>
    have key : ∀ (o : Char) (t' : Text), ((pStr n t').map fun x => (o :: x.1, x.2)) = some (s, r) →
        ∃ u s', s = o :: s' ∧ StrLit u s' ∧ t' = u ++ '"' :: r := by
      intro o t' h
      simp only [Option.map_eq_some_iff] at h
      obtain ⟨⟨s', r'⟩, h1, h2⟩ := h
      simp only [Prod.mk.injEq] at h2
      obtain ⟨rfl, rfl⟩ := h2
      obtain ⟨u, h3, h4⟩ := ih _ _ h1
      exact ⟨u, s', rfl, h3, h4⟩
    cases t with
    | nil => simp [pStr] at h
    | cons c t =>
      unfold pStr at h
      split at h
      · next hc =>
        simp only [Option.some.injEq, Prod.mk.injEq] at h
        obtain ⟨rfl, rfl⟩ := h
        exact ⟨[], .nil, by rw [hc]; rfl⟩
      · split at h
        · next hc =>
          subst hc
          split at h
          · next a b c d t =>
            split at h
            · cases h
            · next k hk =>
              split at h
              · next hs =>
                obtain ⟨u, s', rfl, h1, rfl⟩ := key _ _ h
                exact ⟨_, .uni a b c d k hk hs h1, rfl⟩
              · next hns =>
                split at h
                · next hle =>
                  split at h
                  · split at h
                    · cases h
                    · next k' hk' =>
                      split at h
                      · next hs' =>
                        obtain ⟨u, s', rfl, h1, rfl⟩ := key _ _ h
                        exact ⟨_, .pair a b c d _ _ _ _ k k' hk (by omega) hk' hs' h1, rfl⟩
                      · cases h
                  · cases h
                · cases h
          · split at h
            · cases h
            · next e t _ _ c hc =>
              obtain ⟨u, s', rfl, h1, rfl⟩ := key _ _ h
              exact ⟨_, .esc e c hc h1, rfl⟩
          · cases h
        · split at h
          · next hr =>
            obtain ⟨u, s', rfl, h1, rfl⟩ := key _ _ h
            exact ⟨_, .raw c hr h1, rfl⟩
          · cases h

/-! ## Values -/

/-- Induction over documents that also covers every list of children. -/
theorem J.ind {P : J → Prop} (null : P .null) (bool : ∀ b, P (.bool b)) (num : ∀ q, P (.num q))
    (str : ∀ s, P (.str s)) (arr : ∀ xs, (∀ x ∈ xs, P x) → P (.arr xs))
    (obj : ∀ kvs, (∀ kv ∈ kvs, P kv.2) → P (.obj kvs)) (j : J) : P j :=
  J.rec (motive_1 := P) (motive_2 := fun xs => ∀ x ∈ xs, P x) (motive_3 := fun kvs => ∀ kv ∈ kvs, P kv.2)
    (motive_4 := fun kv => P kv.2)
    null bool num str arr obj
    (by simp) (fun x xs h1 h2 => by intro y hy; exact (List.mem_cons.1 hy).elim (fun h => h ▸ h1) (h2 y))
    (by simp) (fun x xs h1 h2 => by intro y hy; exact (List.mem_cons.1 hy).elim (fun h => h ▸ h1) (h2 y))
    (fun _ _ h => h) j

theorem NumLit.head {t : Text} {q : Rat} (h : NumLit t q) : ∃ c r, t = c :: r ∧ (c = '-' ∨ isDigit c = true) := by
  obtain ⟨n, ⟨h1, h2, _⟩, rfl, _⟩ := h
  obtain ⟨x, xs, hx⟩ : ∃ x xs, n.int = x :: xs := by
    cases h : n.int with
    | nil => exact absurd h h2.1
    | cons x xs => exact ⟨x, xs, rfl⟩
  have hxd : isDigit x = true := by have := h2.2; rw [hx] at this; simp at this; exact this.1
  rcases h1 with h | h
  · exact ⟨x, _, by rw [Num.text, h, hx]; rfl, .inr hxd⟩
  · exact ⟨'-', _, by rw [Num.text, h]; rfl, .inl rfl⟩

/-- What a value can begin with. -/
def start (c : Char) : Prop :=
  c = '"' ∨ c = '[' ∨ c = '{' ∨ c = 'n' ∨ c = 't' ∨ c = 'f' ∨ c = '-' ∨ isDigit c = true

theorem Val.head {j : J} {t : Text} (h : Val j t) : ∃ c r, t = c :: r ∧ start c := by
  cases j with
  | null => simp only [Val] at h; exact ⟨_, _, h, by simp [start]⟩
  | bool b =>
    simp only [Val] at h
    cases b
    · exact ⟨_, _, h, by simp [start]⟩
    · exact ⟨_, _, h, by simp [start]⟩
  | num q =>
    simp only [Val] at h
    obtain ⟨c, r, rfl, h⟩ := h.head
    exact ⟨c, r, rfl, by rcases h with rfl | h <;> simp [start, *]⟩
  | str s => simp only [Val] at h; obtain ⟨u, _, rfl⟩ := h; exact ⟨_, _, rfl, by simp [start]⟩
  | arr xs => simp only [Val] at h; obtain ⟨u, _, rfl⟩ := h; exact ⟨_, _, rfl, by simp [start]⟩
  | obj xs => simp only [Val] at h; obtain ⟨u, _, rfl⟩ := h; exact ⟨_, _, rfl, by simp [start]⟩

theorem start_not {c : Char} (h : start c) : isWs c = false ∧ c ≠ ']' ∧ c ≠ '}' ∧ c ≠ ',' := by
  rcases h with rfl | rfl | rfl | rfl | rfl | rfl | rfl | h
  all_goals try exact ⟨by decide, by decide, by decide, by decide⟩
  refine ⟨?_, digit_ne h _ rfl, digit_ne h _ rfl, digit_ne h _ rfl⟩
  have h1 := digit_ne h ' ' rfl
  have h2 := digit_ne h '\t' rfl
  have h3 := digit_ne h '\n' rfl
  have h4 := digit_ne h '\r' rfl
  simp [isWs, h1, h2, h3, h4]

/-- What may follow a value: nothing, whitespace, or a closing or separating character. -/
def VFollow (r : Text) : Prop := ∀ c, r.head? = some c → isWs c = true ∨ c = ',' ∨ c = ']' ∨ c = '}'

theorem VFollow.follow {r : Text} (h : VFollow r) : Follow r := by
  intro c hc
  rcases h c hc with h | rfl | rfl | rfl
  · simp only [isWs, Bool.or_eq_true, beq_iff_eq] at h
    rcases h with ((rfl | rfl) | rfl) | rfl <;> decide
  all_goals decide

theorem VFollow.ws {w r : Text} (hw : Ws w) (h : VFollow r) : VFollow (w ++ r) := by
  cases w with
  | nil => exact h
  | cons c w =>
    intro d hd
    simp at hd; subst hd
    unfold Ws at hw; simp at hw
    exact .inl hw.1

theorem VFollow.cons {c : Char} {r : Text} (h : c = ',' ∨ c = ']' ∨ c = '}') : VFollow (c :: r) := by
  intro d hd
  simp at hd; subst hd
  exact .inr h

theorem head_not_ws {c : Char} {t : Text} (h : isWs c = false) : ∀ d, (c :: t).head? = some d → isWs d = false := by
  intro d hd; simp at hd; subst hd; exact h

theorem ws_cons (w : Text) (hw : Ws w) (c : Char) (t : Text) (h : isWs c = false) : ws (w ++ c :: t) = c :: t :=
  ws_append w _ hw (head_not_ws h)

theorem pVal_num (n : Nat) (c : Char) (r : Text) (h : c = '-' ∨ isDigit c = true) :
    pVal (n + 1) (c :: r) = (pNum (c :: r)).map fun x => (.num x.1.val, x.2) := by
  have hne : ∀ d : Char, isDigit d = false → d ≠ '-' → c ≠ d := by
    rintro d hd hd' rfl
    rcases h with rfl | h
    · exact hd' rfl
    · rw [h] at hd; cases hd
  unfold pVal
  split
  all_goals first
    | rfl
    | (next heq => simp only [List.cons.injEq] at heq; exact absurd heq.1 (hne _ (by decide) (by decide)))

/-- The parser reads one value and stops. -/
def Reads (j : J) : Prop :=
  ∀ t, Val j t → ∀ n r, 2 * t.length < n → VFollow r → pVal n (t ++ r) = some (j, r)

/-- Elements after any whitespace in front. -/
theorem reads_elems (xs : List J) (hne : xs ≠ []) (ih : ∀ x ∈ xs, Reads x) (t : Text) (ht : Elems xs t) (n : Nat)
    (r : Text) (hn : 2 * t.length + 1 < n) : pElems n (ws (t ++ ']' :: r)) = some (xs, r) := by
  induction xs generalizing t n with
  | nil => exact absurd rfl hne
  | cons x xs ihx =>
    obtain ⟨n, rfl⟩ : ∃ k, n = k + 1 := ⟨n - 1, by omega⟩
    have hx := ih x (by simp)
    cases xs with
    | nil =>
      simp only [Elems] at ht
      obtain ⟨w, u, w', hw, hu, hw', rfl⟩ := ht
      simp only [List.length_append] at hn
      obtain ⟨c, u', rfl, hs⟩ := Val.head hu
      have hst := start_not hs
      have e1 : ws ((w ++ (c :: u' ++ w')) ++ ']' :: r) = (c :: u') ++ (w' ++ ']' :: r) := by
        rw [List.append_assoc, List.append_assoc, List.cons_append]
        exact ws_cons w hw c _ hst.1
      rw [e1, pElems, hx _ hu n _ (by omega) (VFollow.ws hw' (VFollow.cons (by simp)))]
      simp only
      rw [ws_cons w' hw' _ _ (by decide)]
      rfl
    | cons y ys =>
      simp only [Elems] at ht
      obtain ⟨w, u, w', r', hw, hu, hw', hr', rfl⟩ := ht
      simp only [List.length_append, List.length_cons] at hn
      obtain ⟨c, u', rfl, hs⟩ := Val.head hu
      have hst := start_not hs
      have e1 : ws ((w ++ (c :: u' ++ (w' ++ ',' :: r'))) ++ ']' :: r) =
          (c :: u') ++ (w' ++ ',' :: (r' ++ ']' :: r)) := by
        rw [List.append_assoc, List.append_assoc, List.append_assoc, List.cons_append]
        exact ws_cons w hw c _ hst.1
      rw [e1, pElems, hx _ hu n _ (by omega) (VFollow.ws hw' (VFollow.cons (by simp)))]
      simp only
      rw [ws_cons w' hw' _ _ (by decide)]
      simp only
      rw [ihx (by simp) (fun z hz => ih z (by simp [hz])) r' hr' n (by omega)]
      rfl

theorem reads_members (xs : List (Text × J)) (hne : xs ≠ []) (ih : ∀ x ∈ xs, Reads x.2) (t : Text)
    (ht : Members xs t) (n : Nat) (r : Text) (hn : 2 * t.length + 1 < n) :
    pMembers n (ws (t ++ '}' :: r)) = some (xs, r) := by
  induction xs generalizing t n with
  | nil => exact absurd rfl hne
  | cons x xs ihx =>
    obtain ⟨n, rfl⟩ : ∃ k, n = k + 1 := ⟨n - 1, by omega⟩
    have hx := ih x (by simp)
    obtain ⟨k, x⟩ := x
    simp only at hx
    cases xs with
    | nil =>
      simp only [Members] at ht
      obtain ⟨w, k', w1, w2, u, w', hw, hk, hw1, hw2, hu, hw', rfl⟩ := ht
      simp only [List.length_append, List.length_cons] at hn
      obtain ⟨c, u', rfl, hs⟩ := Val.head hu
      have hst := start_not hs
      have e1 : ws ((w ++ ('"' :: (k' ++ '"' :: (w1 ++ ':' :: (w2 ++ (c :: u' ++ w')))))) ++ '}' :: r) =
          '"' :: (k' ++ '"' :: (w1 ++ ':' :: (w2 ++ ((c :: u') ++ (w' ++ '}' :: r))))) := by
        rw [List.append_assoc, List.cons_append]
        rw [ws_cons w hw _ _ (by decide)]
        simp
      rw [e1, pMembers]
      rw [pStr_complete hk _ _ (by simp [List.length_append]; omega)]
      simp only
      rw [ws_cons w1 hw1 _ _ (by decide)]
      simp only
      rw [List.cons_append, ws_cons w2 hw2 c _ hst.1, ← List.cons_append]
      rw [hx _ hu n _ (by omega) (VFollow.ws hw' (VFollow.cons (by simp)))]
      simp only
      rw [ws_cons w' hw' _ _ (by decide)]
      rfl
    | cons y ys =>
      simp only [Members] at ht
      obtain ⟨w, k', w1, w2, u, w', r', hw, hk, hw1, hw2, hu, hw', hr', rfl⟩ := ht
      simp only [List.length_append, List.length_cons] at hn
      obtain ⟨c, u', rfl, hs⟩ := Val.head hu
      have hst := start_not hs
      have e1 : ws ((w ++ ('"' :: (k' ++ '"' :: (w1 ++ ':' :: (w2 ++ (c :: u' ++ (w' ++ ',' :: r'))))))) ++ '}' :: r) =
          '"' :: (k' ++ '"' :: (w1 ++ ':' :: (w2 ++ ((c :: u') ++ (w' ++ ',' :: (r' ++ '}' :: r)))))) := by
        rw [List.append_assoc, List.cons_append]
        rw [ws_cons w hw _ _ (by decide)]
        simp
      rw [e1, pMembers]
      rw [pStr_complete hk _ _ (by simp [List.length_append]; omega)]
      simp only
      rw [ws_cons w1 hw1 _ _ (by decide)]
      simp only
      rw [List.cons_append, ws_cons w2 hw2 c _ hst.1, ← List.cons_append]
      rw [hx _ hu n _ (by omega) (VFollow.ws hw' (VFollow.cons (by simp)))]
      simp only
      rw [ws_cons w' hw' _ _ (by decide)]
      simp only
      rw [ihx (by simp) (fun z hz => ih z (by simp [hz])) r' hr' n (by omega)]
      rfl

theorem Elems.head {x : J} {xs : List J} {t : Text} (h : Elems (x :: xs) t) (r : Text) :
    ∃ c r', ws (t ++ r) = c :: r' ∧ c ≠ ']' := by
  cases xs with
  | nil =>
    simp only [Elems] at h
    obtain ⟨w, u, w', hw, hu, _, rfl⟩ := h
    obtain ⟨c, u', rfl, hs⟩ := Val.head hu
    exact ⟨c, _, by simp only [List.append_assoc, List.cons_append]; exact ws_cons w hw c _ (start_not hs).1,
      (start_not hs).2.1⟩
  | cons y ys =>
    simp only [Elems] at h
    obtain ⟨w, u, w', _, hw, hu, _, _, rfl⟩ := h
    obtain ⟨c, u', rfl, hs⟩ := Val.head hu
    exact ⟨c, _, by simp only [List.append_assoc, List.cons_append]; exact ws_cons w hw c _ (start_not hs).1,
      (start_not hs).2.1⟩

theorem Members.head {x : Text × J} {xs : List (Text × J)} {t : Text} (h : Members (x :: xs) t) (r : Text) :
    ∃ c r', ws (t ++ r) = c :: r' ∧ c ≠ '}' := by
  obtain ⟨k, x⟩ := x
  cases xs with
  | nil =>
    simp only [Members] at h
    obtain ⟨w, k', w1, w2, u, w', hw, _, _, _, _, _, rfl⟩ := h
    exact ⟨'"', _, by simp only [List.append_assoc, List.cons_append]; exact ws_cons w hw _ _ (by decide), by decide⟩
  | cons y ys =>
    simp only [Members] at h
    obtain ⟨w, k', w1, w2, u, w', _, hw, _, _, _, _, _, _, rfl⟩ := h
    exact ⟨'"', _, by simp only [List.append_assoc, List.cons_append]; exact ws_cons w hw _ _ (by decide), by decide⟩

theorem reads (j : J) : Reads j := by
  induction j using J.ind with
  | null =>
    intro t ht n r hn _
    obtain ⟨n, rfl⟩ : ∃ k, n = k + 1 := ⟨n - 1, by omega⟩
    simp only [Val] at ht; subst ht
    simp [pVal]
  | bool b =>
    intro t ht n r hn _
    obtain ⟨n, rfl⟩ : ∃ k, n = k + 1 := ⟨n - 1, by omega⟩
    simp only [Val] at ht; subst ht
    cases b <;> simp [pVal]
  | num q =>
    intro t ht n r hn hr
    obtain ⟨n, rfl⟩ : ∃ k, n = k + 1 := ⟨n - 1, by omega⟩
    simp only [Val] at ht
    obtain ⟨c, t', h1, hc⟩ := ht.head
    obtain ⟨m, hm, rfl, rfl⟩ := ht
    rw [h1, List.cons_append, pVal_num n c _ hc, ← List.cons_append, ← h1, pNum_complete m r hm hr.follow]
    rfl
  | str s =>
    intro t ht n r hn hr
    obtain ⟨n, rfl⟩ : ∃ k, n = k + 1 := ⟨n - 1, by omega⟩
    simp only [Val] at ht
    obtain ⟨u, hu, rfl⟩ := ht
    rw [show '"' :: (u ++ ['"']) ++ r = '"' :: (u ++ '"' :: r) by simp]
    unfold pVal
    simp only
    rw [pStr_complete hu _ _ (by simp; omega)]
    rfl
  | arr xs ih =>
    intro t ht n r hn hr
    obtain ⟨n, rfl⟩ : ∃ k, n = k + 1 := ⟨n - 1, by omega⟩
    simp only [Val] at ht
    obtain ⟨u, hu, rfl⟩ := ht
    rw [show '[' :: (u ++ [']']) ++ r = '[' :: (u ++ ']' :: r) by simp]
    simp only [List.length_cons, List.length_append, List.length_nil] at hn
    unfold pVal
    simp only
    cases xs with
    | nil =>
      simp only [Elems] at hu
      rw [ws_cons u hu _ _ (by decide)]
      rfl
    | cons x xs =>
      have hr := reads_elems (x :: xs) (by simp) ih u hu n r (by omega)
      obtain ⟨c, r', h1, h2⟩ := Elems.head hu (']' :: r)
      rw [h1] at hr ⊢
      split
      · next heq => simp only [List.cons.injEq] at heq; exact absurd heq.1 h2
      · rw [hr]; rfl
  | obj xs ih =>
    intro t ht n r hn hr
    obtain ⟨n, rfl⟩ : ∃ k, n = k + 1 := ⟨n - 1, by omega⟩
    simp only [Val] at ht
    obtain ⟨u, hu, rfl⟩ := ht
    rw [show '{' :: (u ++ ['}']) ++ r = '{' :: (u ++ '}' :: r) by simp]
    simp only [List.length_cons, List.length_append, List.length_nil] at hn
    unfold pVal
    simp only
    cases xs with
    | nil =>
      simp only [Members] at hu
      rw [ws_cons u hu _ _ (by decide)]
      rfl
    | cons x xs =>
      have hr := reads_members (x :: xs) (by simp) ih u hu n r (by omega)
      obtain ⟨c, r', h1, h2⟩ := Members.head hu ('}' :: r)
      rw [h1] at hr ⊢
      split
      · next heq => simp only [List.cons.injEq] at heq; exact absurd heq.1 h2
      · rw [hr]; rfl

theorem parse_complete {j : J} {t : Text} (h : Doc j t) : parse t = some j := by
  obtain ⟨w, u, w', hw, hu, hw', rfl⟩ := h
  obtain ⟨c, u', h1, hs⟩ := Val.head hu
  have hst := start_not hs
  have e1 : ws (w ++ (u ++ w')) = u ++ w' := by
    rw [h1, List.cons_append]; exact ws_cons w hw c _ hst.1
  have hf : VFollow w' := by simpa using VFollow.ws hw' (r := []) (by intro c hc; simp at hc)
  unfold parse
  rw [e1, reads j u hu _ w' (by simp [List.length_append]; omega) hf]
  have e2 : ws w' = [] := by simpa using ws_append w' [] hw' (by simp)
  simp [e2]

/-- A text stands for at most one document. -/
theorem Doc.unique {j j' : J} {t : Text} (h : Doc j t) (h' : Doc j' t) : j = j' :=
  Option.some.inj ((parse_complete h).symm.trans (parse_complete h'))

theorem p_sound (n : Nat) :
    (∀ t j r, pVal n t = some (j, r) → ∃ u, Val j u ∧ t = u ++ r) ∧
    (∀ t xs r, pElems n t = some (xs, r) → xs ≠ [] ∧ ∃ u, Elems xs u ∧ t = u ++ ']' :: r) ∧
    (∀ t xs r, pMembers n t = some (xs, r) → xs ≠ [] ∧ ∃ u, Members xs u ∧ t = u ++ '}' :: r) := by
  induction n with
  | zero => refine ⟨?_, ?_, ?_⟩ <;> intro t x r h <;> simp [pVal, pElems, pMembers] at h
  | succ n ih =>
    obtain ⟨ihv, ihe, ihm⟩ := ih
    refine ⟨?_, ?_, ?_⟩
    · intro t j r h
      unfold pVal at h
      split at h
      · next t =>
        simp only [Option.map_eq_some_iff, Prod.mk.injEq] at h
        obtain ⟨⟨s, r'⟩, h1, rfl, rfl⟩ := h
        obtain ⟨u, h2, h3⟩ := pStr_sound _ _ _ _ h1
        exact ⟨'"' :: (u ++ ['"']), by simp only [Val]; exact ⟨u, h2, rfl⟩, by simp [h3]⟩
      · next t =>
        obtain ⟨w, hw, ht⟩ := ws_split t
        split at h
        · next r' heq =>
          simp only [Option.some.injEq, Prod.mk.injEq] at h
          obtain ⟨rfl, rfl⟩ := h
          refine ⟨'[' :: (w ++ [']']), by simp only [Val, Elems]; exact ⟨w, hw, rfl⟩, ?_⟩
          rw [ht, heq]; simp
        · simp only [Option.map_eq_some_iff, Prod.mk.injEq] at h
          obtain ⟨⟨xs, r'⟩, h1, rfl, rfl⟩ := h
          obtain ⟨hne, u, h2, h3⟩ := ihe _ _ _ h1
          refine ⟨'[' :: ((w ++ u) ++ [']']), ?_, ?_⟩
          · simp only [Val]
            refine ⟨w ++ u, ?_, rfl⟩
            cases xs with
            | nil => exact absurd rfl hne
            | cons x xs =>
              cases xs with
              | nil =>
                simp only [Elems] at h2 ⊢
                obtain ⟨w0, u, w', hw0, hu, hw', rfl⟩ := h2
                exact ⟨w ++ w0, u, w', hw.append hw0, hu, hw', by simp⟩
              | cons y ys =>
                simp only [Elems] at h2 ⊢
                obtain ⟨w0, u, w', r, hw0, hu, hw', hr, rfl⟩ := h2
                exact ⟨w ++ w0, u, w', r, hw.append hw0, hu, hw', hr, by simp⟩
          · rw [ht, h3]; simp
      · next t =>
        obtain ⟨w, hw, ht⟩ := ws_split t
        split at h
        · next r' heq =>
          simp only [Option.some.injEq, Prod.mk.injEq] at h
          obtain ⟨rfl, rfl⟩ := h
          refine ⟨'{' :: (w ++ ['}']), by simp only [Val, Members]; exact ⟨w, hw, rfl⟩, ?_⟩
          rw [ht, heq]; simp
        · simp only [Option.map_eq_some_iff, Prod.mk.injEq] at h
          obtain ⟨⟨xs, r'⟩, h1, rfl, rfl⟩ := h
          obtain ⟨hne, u, h2, h3⟩ := ihm _ _ _ h1
          refine ⟨'{' :: ((w ++ u) ++ ['}']), ?_, ?_⟩
          · simp only [Val]
            refine ⟨w ++ u, ?_, rfl⟩
            cases xs with
            | nil => exact absurd rfl hne
            | cons x xs =>
              obtain ⟨k, x⟩ := x
              cases xs with
              | nil =>
                simp only [Members] at h2 ⊢
                obtain ⟨w0, k', w1, w2, u, w', hw0, hk, hw1, hw2, hu, hw', rfl⟩ := h2
                exact ⟨w ++ w0, k', w1, w2, u, w', hw.append hw0, hk, hw1, hw2, hu, hw', by simp⟩
              | cons y ys =>
                simp only [Members] at h2 ⊢
                obtain ⟨w0, k', w1, w2, u, w', r, hw0, hk, hw1, hw2, hu, hw', hr, rfl⟩ := h2
                exact ⟨w ++ w0, k', w1, w2, u, w', r, hw.append hw0, hk, hw1, hw2, hu, hw', hr, by simp⟩
          · rw [ht, h3]; simp
      · simp only [Option.some.injEq, Prod.mk.injEq] at h
        obtain ⟨rfl, rfl⟩ := h
        exact ⟨t! "null", by simp only [Val], rfl⟩
      · simp only [Option.some.injEq, Prod.mk.injEq] at h
        obtain ⟨rfl, rfl⟩ := h
        exact ⟨t! "true", by simp only [Val]; rfl, rfl⟩
      · simp only [Option.some.injEq, Prod.mk.injEq] at h
        obtain ⟨rfl, rfl⟩ := h
        exact ⟨t! "false", by simp only [Val]; rfl, rfl⟩
      · simp only [Option.map_eq_some_iff, Prod.mk.injEq] at h
        obtain ⟨⟨m, r'⟩, h1, rfl, rfl⟩ := h
        obtain ⟨h2, h3⟩ := pNum_sound _ _ _ h1
        exact ⟨m.text, by simp only [Val]; exact ⟨m, h2, rfl, rfl⟩, h3⟩
    · intro t xs r h
      unfold pElems at h
      split at h
      · cases h
      · next j r1 h1 =>
        obtain ⟨u, hu, rfl⟩ := ihv _ _ _ h1
        obtain ⟨w, hw, hr1⟩ := ws_split r1
        split at h
        · next r2 heq =>
          simp only [Option.map_eq_some_iff, Prod.mk.injEq] at h
          obtain ⟨⟨xs, r'⟩, h2, rfl, rfl⟩ := h
          obtain ⟨hne, u', h3, h4⟩ := ihe _ _ _ h2
          obtain ⟨w2, hw2, hr2⟩ := ws_split r2
          refine ⟨by simp, ?_⟩
          cases xs with
          | nil => exact absurd rfl hne
          | cons y ys =>
            refine ⟨u ++ (w ++ ',' :: (w2 ++ u')), ?_, ?_⟩
            · simp only [Elems]
              refine ⟨[], u, w, w2 ++ u', rfl, hu, hw, ?_, rfl⟩
              cases ys with
              | nil =>
                simp only [Elems] at h3 ⊢
                obtain ⟨w0, u, w', hw0, hu, hw', rfl⟩ := h3
                exact ⟨w2 ++ w0, u, w', hw2.append hw0, hu, hw', by simp⟩
              | cons z zs =>
                simp only [Elems] at h3 ⊢
                obtain ⟨w0, u, w', r, hw0, hu, hw', hr, rfl⟩ := h3
                exact ⟨w2 ++ w0, u, w', r, hw2.append hw0, hu, hw', hr, by simp⟩
            · rw [hr1, heq, hr2, h4]; simp
        · next r2 heq =>
          simp only [Option.some.injEq, Prod.mk.injEq] at h
          obtain ⟨rfl, rfl⟩ := h
          refine ⟨by simp, u ++ w, ?_, ?_⟩
          · simp only [Elems]
            exact ⟨[], u, w, rfl, hu, hw, rfl⟩
          · rw [hr1, heq]; simp
        · cases h
    · intro t xs r h
      unfold pMembers at h
      split at h
      · next t =>
        split at h
        · cases h
        · next k r0 h0 =>
          obtain ⟨k', hk, rfl⟩ := pStr_sound _ _ _ _ h0
          obtain ⟨w1, hw1, hr0⟩ := ws_split r0
          split at h
          · next r1 heq1 =>
            obtain ⟨w2, hw2, hr1⟩ := ws_split r1
            split at h
            · cases h
            · next j r2 h1 =>
              obtain ⟨u, hu, hr1'⟩ := ihv _ _ _ h1
              obtain ⟨w, hw, hr2⟩ := ws_split r2
              split at h
              · next r3 heq =>
                simp only [Option.map_eq_some_iff, Prod.mk.injEq] at h
                obtain ⟨⟨xs, r'⟩, h2, rfl, rfl⟩ := h
                obtain ⟨hne, u', h3, h4⟩ := ihm _ _ _ h2
                obtain ⟨w3, hw3, hr3⟩ := ws_split r3
                refine ⟨by simp, ?_⟩
                cases xs with
                | nil => exact absurd rfl hne
                | cons y ys =>
                  refine ⟨'"' :: (k' ++ '"' :: (w1 ++ ':' :: (w2 ++ (u ++ (w ++ ',' :: (w3 ++ u')))))), ?_, ?_⟩
                  · simp only [Members]
                    refine ⟨[], k', w1, w2, u, w, w3 ++ u', rfl, hk, hw1, hw2, hu, hw, ?_, rfl⟩
                    obtain ⟨ky, y⟩ := y
                    cases ys with
                    | nil =>
                      simp only [Members] at h3 ⊢
                      obtain ⟨w0, k', w1, w2, u, w', hw0, hk, hw1, hw2, hu, hw', rfl⟩ := h3
                      exact ⟨w3 ++ w0, k', w1, w2, u, w', hw3.append hw0, hk, hw1, hw2, hu, hw', by simp⟩
                    | cons z zs =>
                      simp only [Members] at h3 ⊢
                      obtain ⟨w0, k', w1, w2, u, w', r, hw0, hk, hw1, hw2, hu, hw', hr, rfl⟩ := h3
                      exact ⟨w3 ++ w0, k', w1, w2, u, w', r, hw3.append hw0, hk, hw1, hw2, hu, hw', hr, by simp⟩
                  · rw [hr0, heq1, hr1, hr1', hr2, heq, hr3, h4]; simp
              · next r3 heq =>
                simp only [Option.some.injEq, Prod.mk.injEq] at h
                obtain ⟨rfl, rfl⟩ := h
                refine ⟨by simp, '"' :: (k' ++ '"' :: (w1 ++ ':' :: (w2 ++ (u ++ w)))), ?_, ?_⟩
                · simp only [Members]
                  exact ⟨[], k', w1, w2, u, w, rfl, hk, hw1, hw2, hu, hw, rfl⟩
                · rw [hr0, heq1, hr1, hr1', hr2, heq]; simp
              · cases h
          · cases h
      · cases h

theorem parse_sound {j : J} {t : Text} (h : parse t = some j) : Doc j t := by
  unfold parse at h
  split at h
  · next j' r h1 =>
    split at h
    · next hr =>
      cases h
      obtain ⟨w, hw, ht⟩ := ws_split t
      obtain ⟨w', hw', hr'⟩ := ws_split r
      obtain ⟨u, hu, h2⟩ := (p_sound _).1 _ _ _ h1
      refine ⟨w, u, w', hw, hu, hw', ?_⟩
      rw [ht, h2, hr', hr]; simp
    · cases h
  · cases h

theorem parse_iff (j : J) (t : Text) : parse t = some j ↔ Doc j t := ⟨parse_sound, parse_complete⟩

end Sval.Json
