import Verif.Reader.Model
import Verif.Core.Carried

set_option autoImplicit false

/-!
# What the JSON reader streams is in proportion to what it reads
-/

namespace Sval.Reader

section
variable (f32 : UInt32 → Text) (f64 : UInt64 → Text) (a b : Nat)

/-- The weight of a call: `a` for each byte and `b` for the call. -/
def weigh (t : Token) : Nat := a * t.bytes f32 f64 + b

/-- The weight of calls. -/
def weight (ts : List Token) : Nat := (ts.map (weigh f32 f64 a b)).sum

/-- What characters may cost: `a` for each byte and eight calls for each character. -/
def funds (s : Text) : Nat := a * utf8Len s + 8 * b * s.length

/-- What is left of `n`, by `f`, when `x` has ended well; less than `n` was used if it did not. -/
def Affords {α : Type} (f : α → Nat) (x : Act α) (n : Nat) : Prop :=
  match x.res with
  | .ok r => weight f32 f64 a b x.calls + f r ≤ n
  | _ => weight f32 f64 a b x.calls ≤ n

variable {f32 : UInt32 → Text} {f64 : UInt64 → Text} {a b} {α β : Type}

theorem Affords.bind {f : α → Nat} {g : β → Nat} {x : Act α} {h : α → Act β} {n : Nat} (hx : Affords f32 f64 a b f x n)
    (hh : ∀ r, Affords f32 f64 a b g (h r) (f r)) : Affords f32 f64 a b g (x >>= h) n := by
  show Affords f32 f64 a b g (x.bind h) n
  obtain ⟨calls, res⟩ := x
  cases res with
  | ok r =>
    have h1 := hh r
    have hx : weight f32 f64 a b calls + f r ≤ n := hx
    simp only [Act.bind, Affords] at *
    have e : weight f32 f64 a b (calls ++ (h r).calls) = weight f32 f64 a b calls + weight f32 f64 a b (h r).calls := by simp [weight]
    split
    · rename_i e'; rw [e'] at h1; simp only at h1; omega
    · rename_i e'
      have : weight f32 f64 a b (h r).calls ≤ f r := by
        revert h1
        split
        · rename_i e2; exact absurd e2 (e' _)
        · exact id
      omega
  | err => exact hx
  | panic => exact hx

theorem Affords.mono {f g : α → Nat} {x : Act α} {n m : Nat} (h : Affords f32 f64 a b f x n) (hn : n ≤ m) (hf : ∀ r, g r ≤ f r) : Affords f32 f64 a b g x m := by
  obtain ⟨calls, res⟩ := x
  cases res with
  | ok r =>
    have h : weight f32 f64 a b calls + f r ≤ n := h
    have := hf r
    show weight f32 f64 a b calls + g r ≤ m
    omega
  | err => exact Nat.le_trans h hn
  | panic => exact Nat.le_trans h hn

theorem affords_pure {f : α → Nat} {r : α} {n : Nat} (h : f r ≤ n) : Affords f32 f64 a b f (pure r : Act α) n := by
  show weight f32 f64 a b [] + f r ≤ n
  simpa [weight] using h

theorem affords_pure' {f : α → Nat} {r : α} {n : Nat} (h : f r ≤ n) : Affords f32 f64 a b f (Act.pure r) n := affords_pure h

theorem affords_fail {f : α → Nat} {n : Nat} : Affords f32 f64 a b f (.fail : Act α) n := Nat.zero_le _

theorem affords_panic {f : α → Nat} {n : Nat} : Affords f32 f64 a b f (.panic : Act α) n := Nat.zero_le _

theorem affords_ofRes {f : Stack → Nat} {n : Nat} {r : Res Unit Stack} (h : ∀ s, f s ≤ n) : Affords f32 f64 a b f (.ofRes r) n := by
  cases r with
  | ok s => exact affords_pure (h s)
  | err _ _ => exact affords_fail
  | panic => exact affords_panic

theorem affords_call {t : Token} {n k : Nat} (h : weigh f32 f64 a b t + k ≤ n) : Affords f32 f64 a b (fun _ => k) (.call t) n := by
  show weight f32 f64 a b [t] + k ≤ n
  simpa [weight] using h

/-- A call of something without data. -/
theorem affords_plain {t : Token} {n k : Nat} (ht : t.bytes f32 f64 = 0) (h : b + k ≤ n) :
    Affords f32 f64 a b (fun _ => k) (.call t) n := by
  refine affords_call ?_
  rw [weigh, ht]
  omega

theorem funds_append (s t : Text) : funds a b (s ++ t) = funds a b s + funds a b t := by
  have : utf8Len (s ++ t) = utf8Len s + utf8Len t := by simp [utf8Len]
  rw [funds, funds, funds, this, List.length_append, Nat.mul_add, Nat.mul_add]
  omega

theorem funds_cons (c : Char) (s : Text) : 8 * b + funds a b s ≤ funds a b (c :: s) := by
  rw [show c :: s = [c] ++ s from rfl, funds_append]
  have : 8 * b * 1 ≤ funds a b [c] := by simp [funds]
  omega

/-- What the state may still cost. -/
abbrev left (a b : Nat) (s : St) : Nat := funds a b s.rest

theorem affords_maybeDone (s : St) (n : Nat) (h : left a b s ≤ n) : Affords f32 f64 a b (fun r => left a b r.2) (maybeDone s) n := by
  rw [maybeDone]
  split
  · exact affords_pure h
  · split
    · exact affords_pure h
    · exact affords_fail

theorem affords_nestedBegin (s : St) (k : Nat) : Affords f32 f64 a b (fun _ => k) (nestedBegin s) (b + k) := by
  rw [nestedBegin]
  split
  · exact affords_plain rfl (Nat.le_refl _)
  · exact affords_plain rfl (Nat.le_refl _)
  · exact affords_plain rfl (Nat.le_refl _)
  · exact affords_pure' (by omega)
  · exact affords_panic

variable (checks : Bool)

theorem affords_mapBegin (s : St) : Affords f32 f64 a b (left a b) (mapBegin checks s) (left a b s + 2 * b) := by
  rw [mapBegin]
  refine Affords.bind ((affords_nestedBegin s (left a b s + b)).mono (by omega) fun _ => Nat.le_refl _) fun _ => ?_
  refine Affords.bind (f := fun _ => left a b s + b) (affords_ofRes fun _ => Nat.le_refl _) fun st => ?_
  refine Affords.bind (f := fun _ => left a b s) (affords_plain rfl (by omega)) fun _ => ?_
  exact affords_pure (Nat.le_refl _)

theorem affords_seqBegin (s : St) : Affords f32 f64 a b (left a b) (seqBegin checks s) (left a b s + 2 * b) := by
  rw [seqBegin]
  refine Affords.bind ((affords_nestedBegin s (left a b s + b)).mono (by omega) fun _ => Nat.le_refl _) fun _ => ?_
  refine Affords.bind (f := fun _ => left a b s + b) (affords_ofRes fun _ => Nat.le_refl _) fun st => ?_
  refine Affords.bind (f := fun _ => left a b s) (affords_plain rfl (by omega)) fun _ => ?_
  exact affords_pure (Nat.le_refl _)

theorem affords_mapEnd (s : St) : Affords f32 f64 a b (left a b) (mapEnd checks s) (left a b s + 2 * b) := by
  rw [mapEnd]
  refine Affords.bind (f := fun _ => left a b s + b) ?_ fun _ => ?_
  · rw [lastEntry]
    split
    · exact affords_pure' (by omega)
    · exact affords_plain rfl (by omega)
    · exact affords_panic
  refine Affords.bind (f := fun _ => left a b s + b) (affords_ofRes fun _ => Nat.le_refl _) fun st => ?_
  refine Affords.bind (f := fun _ => left a b s) (affords_plain rfl (by omega)) fun _ => ?_
  exact affords_pure (Nat.le_refl _)

theorem affords_seqEnd (s : St) : Affords f32 f64 a b (left a b) (seqEnd checks s) (left a b s + 2 * b) := by
  rw [seqEnd]
  refine Affords.bind (f := fun _ => left a b s + b) ?_ fun _ => ?_
  · rw [lastElem]
    split
    · exact affords_pure' (by omega)
    · exact affords_plain rfl (by omega)
    · exact affords_panic
  refine Affords.bind (f := fun _ => left a b s + b) (affords_ofRes fun _ => Nat.le_refl _) fun st => ?_
  refine Affords.bind (f := fun _ => left a b s) (affords_plain rfl (by omega)) fun _ => ?_
  exact affords_pure (Nat.le_refl _)

theorem affords_mapKeyEnd (s : St) : Affords f32 f64 a b (left a b) (mapKeyEnd s) (left a b s + b) := by
  rw [mapKeyEnd]
  split
  · exact Affords.bind (f := fun _ => left a b s) (affords_plain rfl (by omega)) fun _ => affords_pure (Nat.le_refl _)
  · exact affords_panic

theorem affords_valueEnd (s : St) : Affords f32 f64 a b (left a b) (valueEnd s) (left a b s + b) := by
  rw [valueEnd]
  split
  · exact Affords.bind (f := fun _ => left a b s) (affords_plain rfl (by omega)) fun _ => affords_pure (Nat.le_refl _)
  · exact Affords.bind (f := fun _ => left a b s) (affords_plain rfl (by omega)) fun _ => affords_pure (Nat.le_refl _)
  · exact affords_panic

theorem affords_strBegin (s : St) (k : Nat) : Affords f32 f64 a b (fun s' => left a b s' + k) (strBegin s) (left a b s + b + k) := by
  rw [strBegin]
  split
  all_goals first
    | exact Affords.bind (f := fun _ => left a b s + k) (affords_plain rfl (by omega)) fun _ => affords_pure (Nat.le_refl _)
    | exact affords_pure (by omega)

theorem affords_valueBegin (s : St) (k : Nat) : Affords f32 f64 a b (fun s' => left a b s' + k) (valueBegin s) (left a b s + b + k) := by
  rw [valueBegin]
  split
  all_goals first
    | exact Affords.bind (f := fun _ => left a b s + k) (affords_plain rfl (by omega)) fun _ => affords_pure (Nat.le_refl _)
    | exact affords_pure (by omega)
    | exact affords_panic

theorem funds_one (c : Char) : a * c.utf8Size + 8 * b = funds a b [c] := by simp [funds, utf8Len]

/-- A piece of text, and something consumed. -/
theorem affords_strFragment (src : Text) :
    Affords f32 f64 a b (fun r => a * utf8Len r.1 + 8 * b + funds a b r.2.2) (strFragment src) (funds a b src) := by
  have esc : ∀ (x y : Char) (r : Text), x.utf8Size = 1 → a * utf8Len [x] + 8 * b + funds a b r ≤ funds a b ('\\' :: y :: r) := by
    intro x y r hx
    rw [show '\\' :: y :: r = ['\\'] ++ ([y] ++ r) from rfl, funds_append, funds_append, ← funds_one]
    have h1 : utf8Len [x] = 1 := by simp [utf8Len, hx]
    have h2 : ('\\' : Char).utf8Size = 1 := rfl
    rw [h1, h2]
    omega
  have plain : ∀ src : Text, src ≠ [] → (∀ r, src ≠ '\\' :: r) →
      Affords f32 f64 a b (fun r => a * utf8Len r.1 + 8 * b + funds a b r.2.2)
        (match src.dropWhile isPlain with
          | '\\' :: r => (pure (src.takeWhile isPlain, true, '\\' :: r) : Act (Text × Bool × Text))
          | _ :: r => pure (src.takeWhile isPlain, false, r)
          | [] => pure (src.takeWhile isPlain, false, [])) (funds a b src) := by
    intro src hne hb
    have hs : src.takeWhile isPlain ++ src.dropWhile isPlain = src := List.takeWhile_append_dropWhile
    have hf : funds a b src = funds a b (src.takeWhile isPlain) + funds a b (src.dropWhile isPlain) := by rw [← funds_append, hs]
    have ht : a * utf8Len (src.takeWhile isPlain) ≤ funds a b (src.takeWhile isPlain) := Nat.le_add_right _ _
    have ht' : src.takeWhile isPlain ≠ [] → a * utf8Len (src.takeWhile isPlain) + 8 * b ≤ funds a b (src.takeWhile isPlain) := by
      intro h
      rw [funds]
      have : 1 ≤ (src.takeWhile isPlain).length := List.length_pos_iff.mpr h
      have := Nat.mul_le_mul_left (8 * b) this
      omega
    split
    · rename_i r hr
      have : src.takeWhile isPlain ≠ [] := by
        intro h
        rw [h, hr] at hs
        exact hb r hs.symm
      refine affords_pure ?_
      have := ht' this
      rw [hf, hr]
      dsimp only
      omega
    · rename_i c r _ hr
      refine affords_pure ?_
      have := funds_cons (a := a) (b := b) c r
      rw [hf, hr]
      dsimp only
      omega
    · rename_i hr
      have : src.takeWhile isPlain ≠ [] := by
        intro h
        rw [h, hr] at hs
        exact hne hs.symm
      refine affords_pure ?_
      have := ht' this
      rw [hf, hr]
      dsimp only
      omega
  unfold strFragment
  split
  · exact affords_panic
  · split
    · exact affords_pure (esc _ _ _ rfl)
    · exact affords_pure (esc _ _ _ rfl)
    · exact affords_pure (esc _ _ _ rfl)
    · exact affords_pure (esc _ _ _ rfl)
    · exact affords_panic
  · rename_i h1 h2
    exact plain _ h1 h2

theorem affords_resumeStr (s : St) : Affords f32 f64 a b (fun r => left a b r.2) (resumeStr s) (left a b s) := by
  rw [resumeStr]
  refine Affords.bind (affords_strFragment s.rest) fun ⟨f, more, r⟩ => ?_
  refine Affords.bind (f := fun _ => funds a b r + b) (affords_call ?_) fun _ => ?_
  · simp only [weigh, Token.bytes]; omega
  cases more with
  | false =>
    exact Affords.bind (f := fun _ => funds a b r) (affords_plain rfl (by omega)) fun _ => affords_maybeDone _ _ (Nat.le_refl _)
  | true => exact affords_pure (Nat.le_add_right _ _)

theorem affords_beginStr (s : St) : Affords f32 f64 a b (fun r => left a b r.2) (beginStr s) (left a b s + 8 * b) := by
  rw [beginStr]
  refine Affords.bind ((affords_strBegin s (3 * b)).mono (by omega) fun _ => Nat.le_refl _) fun s => ?_
  refine Affords.bind (f := fun r : Text × Bool × Text => a * utf8Len r.1 + funds a b r.2.2 + 3 * b) ?_ fun ⟨f, more, r⟩ => ?_
  · have := affords_strFragment (f32 := f32) (f64 := f64) (a := a) (b := b) s.rest
    revert this
    generalize strFragment s.rest = x
    obtain ⟨calls, res⟩ := x
    cases res with
    | ok r =>
      intro h
      have h : weight f32 f64 a b calls + (a * utf8Len r.1 + 8 * b + funds a b r.2.2) ≤ funds a b s.rest := h
      show weight f32 f64 a b calls + (a * utf8Len r.1 + funds a b r.2.2 + 3 * b) ≤ _
      have : left a b s = funds a b s.rest := rfl
      omega
    | err => exact fun h => Nat.le_trans h (Nat.le_add_right _ _)
    | panic => exact fun h => Nat.le_trans h (Nat.le_add_right _ _)
  refine Affords.bind (f := fun _ => a * utf8Len f + funds a b r + 2 * b) (affords_plain rfl (by dsimp only; omega)) fun _ => ?_
  refine Affords.bind (f := fun _ => funds a b r + b) (affords_call ?_) fun _ => ?_
  · simp only [weigh, Token.bytes]; omega
  cases more with
  | false =>
    exact Affords.bind (f := fun _ => funds a b r) (affords_plain rfl (by omega)) fun _ => affords_maybeDone _ _ (Nat.le_refl _)
  | true => exact affords_pure (Nat.le_add_right _ _)

theorem affords_word (w : Text) (hw : w ≠ []) (t : Token) (ht : t.bytes f32 f64 = 0) (s : St) :
    Affords f32 f64 a b (fun r => left a b r.2) (word w t s) (left a b s) := by
  rw [word]
  split
  · rename_i h
    obtain ⟨r, hr⟩ := List.isPrefixOf_iff_prefix.mp h
    have hd : s.rest.drop w.length = r := by rw [← hr]; simp
    have hl : 8 * b + funds a b r ≤ left a b s := by
      show _ ≤ funds a b s.rest
      rw [← hr, funds_append]
      cases w with
      | nil => exact absurd rfl hw
      | cons c w =>
        have := funds_cons (a := a) (b := b) c w
        omega
    refine Affords.bind ((affords_valueBegin { s with rest := s.rest.drop w.length } b).mono ?_ fun _ => Nat.le_refl _) fun s' => ?_
    · show funds a b (s.rest.drop w.length) + b + b ≤ _
      rw [hd]
      omega
    · exact Affords.bind (f := fun _ => left a b s') (affords_plain ht (by omega)) fun _ => affords_maybeDone _ _ (Nat.le_refl _)
  · exact affords_panic

theorem affords_number (s : St) (h : ∃ c r, s.rest = c :: r ∧ isNumberChar c = true) :
    Affords f32 f64 a b (fun r => left a b r.2) (number s) (left a b s) := by
  have hs : s.rest.takeWhile isNumberChar ++ s.rest.dropWhile isNumberChar = s.rest := List.takeWhile_append_dropWhile
  have hf : left a b s = funds a b (s.rest.takeWhile isNumberChar) + funds a b (s.rest.dropWhile isNumberChar) := by
    rw [← funds_append, hs]
  have ht : a * utf8Len (s.rest.takeWhile isNumberChar) + 8 * b ≤ funds a b (s.rest.takeWhile isNumberChar) := by
    obtain ⟨c, r, h1, h2⟩ := h
    have : 1 ≤ (s.rest.takeWhile isNumberChar).length := by rw [h1, List.takeWhile_cons_of_pos h2]; simp
    have := Nat.mul_le_mul_left (8 * b) this
    rw [funds]
    omega
  rw [number]
  refine Affords.bind ((affords_valueBegin { s with rest := s.rest.dropWhile isNumberChar }
    (a * utf8Len (s.rest.takeWhile isNumberChar) + 7 * b)).mono ?_ fun _ => Nat.le_refl _) fun s' => ?_
  · show funds a b (s.rest.dropWhile isNumberChar) + b + _ ≤ _
    omega
  generalize s.rest.takeWhile isNumberChar = n
  refine Affords.bind (f := fun _ => left a b s' + (a * utf8Len n + 6 * b)) (affords_plain rfl (by omega)) fun _ => ?_
  refine Affords.bind (f := fun _ => left a b s' + (a * utf8Len n + 5 * b)) (affords_plain rfl (by omega)) fun _ => ?_
  refine Affords.bind (f := fun _ => left a b s' + (a * utf8Len n + 4 * b)) (affords_plain rfl (by omega)) fun _ => ?_
  refine Affords.bind (f := fun _ => left a b s' + 3 * b) (affords_call (by simp only [weigh, Token.bytes]; omega)) fun _ => ?_
  refine Affords.bind (f := fun _ => left a b s' + 2 * b) (affords_plain rfl (by omega)) fun _ => ?_
  refine Affords.bind (f := fun _ => left a b s' + b) (affords_plain rfl (by omega)) fun _ => ?_
  refine Affords.bind (f := fun _ => left a b s') (affords_plain rfl (by omega)) fun _ => ?_
  exact affords_maybeDone _ _ (Nat.le_refl _)

theorem affords_goOn (x : Act St) (n : Nat) (h : Affords f32 f64 a b (left a b) x n) : Affords f32 f64 a b (fun r => left a b r.2) (goOn x) n :=
  Affords.bind h fun _ => affords_pure (Nat.le_refl _)

theorem affords_scan (s : St) (r : Text) : Affords f32 f64 a b (fun r => left a b r.2) (scan checks s r) (funds a b r) := by
  induction r with
  | nil => rw [scan]; exact affords_maybeDone _ _ (Nat.le_refl _)
  | cons c r ih =>
    have hc := funds_cons (a := a) (b := b) c r
    have skip : Affords f32 f64 a b (fun r => left a b r.2) (scan checks s r) (funds a b (c :: r)) := ih.mono (by omega) fun _ => Nat.le_refl _
    have after : ∀ x : Act St, Affords f32 f64 a b (left a b) x (left a b { s with rest := r } + 2 * b) → Affords f32 f64 a b (left a b) x (funds a b (c :: r)) :=
      fun x h => h.mono (by show funds a b r + _ ≤ _; omega) fun _ => Nat.le_refl _
    have after1 : ∀ x : Act St, Affords f32 f64 a b (left a b) x (left a b { s with rest := r } + b) → Affords f32 f64 a b (left a b) x (funds a b (c :: r)) :=
      fun x h => h.mono (by show funds a b r + _ ≤ _; omega) fun _ => Nat.le_refl _
    unfold scan
    split
    · exact (affords_beginStr _).mono (by show funds a b r + _ ≤ _; omega) fun _ => Nat.le_refl _
    · exact affords_goOn _ _ (after _ (affords_mapBegin checks _))
    · exact Affords.bind (after _ (affords_mapEnd checks _)) fun s => affords_maybeDone s _ (Nat.le_refl _)
    · exact affords_goOn _ _ (after _ (affords_seqBegin checks _))
    · exact Affords.bind (after _ (affords_seqEnd checks _)) fun s => affords_maybeDone s _ (Nat.le_refl _)
    · exact affords_goOn _ _ (after1 _ (affords_mapKeyEnd _))
    · exact affords_goOn _ _ (after1 _ (affords_valueEnd _))
    · exact affords_word _ (by simp) _ rfl { s with rest := _ }
    · exact affords_word _ (by simp) _ rfl { s with rest := _ }
    · exact affords_word _ (by simp) _ rfl { s with rest := _ }
    · exact skip
    · exact skip
    · exact skip
    · exact skip
    · exact affords_number { s with rest := _ } ⟨_, _, rfl, by decide⟩
    · split
      · rename_i hd
        exact affords_number { s with rest := c :: r } ⟨_, _, rfl, by simp [isNumberChar, hd]⟩
      · exact affords_panic

theorem affords_resume (s : St) : Affords f32 f64 a b (fun r => left a b r.2) (resume checks s) (left a b s) := by
  rw [resume]
  split
  · exact affords_resumeStr s
  · exact affords_scan checks s s.rest

theorem affords_loop (n : Nat) (s : St) (x : Act Unit) (h : loop checks n s = some x) : weight f32 f64 a b x.calls ≤ left a b s := by
  induction n generalizing s x with
  | zero => cases h
  | succ n ih =>
    have hr := affords_resume (f32 := f32) (f64 := f64) (a := a) (b := b) checks s
    rw [loop] at h
    generalize hx : resume checks s = y at h hr
    obtain ⟨calls, res⟩ := y
    match res with
    | .ok (true, s') =>
      have hr : weight f32 f64 a b calls + left a b s' ≤ left a b s := hr
      simp only [Option.map_eq_some_iff] at h
      obtain ⟨z, hz, rfl⟩ := h
      have := ih s' z hz
      show weight f32 f64 a b (calls ++ z.calls) ≤ _
      have e : weight f32 f64 a b (calls ++ z.calls) = weight f32 f64 a b calls + weight f32 f64 a b z.calls := by simp [weight]
      omega
    | .ok (false, s') =>
      have hr : weight f32 f64 a b calls + left a b s' ≤ left a b s := hr
      cases h
      show weight f32 f64 a b (calls ++ []) ≤ _
      rw [List.append_nil]
      omega
    | .err => cases h; exact hr
    | .panic => cases h; exact hr

theorem affords_read (src : Text) : weight f32 f64 a b (read checks src).calls ≤ funds a b src := by
  rw [read]
  cases h : loop checks (src.length + 1) (St.new src) with
  | none => exact Nat.zero_le _
  | some x => exact affords_loop checks _ _ x h

end

end Sval.Reader
