import Verif.Json.Link

set_option autoImplicit false

/-!
# `JsonStr`: text that is JSON already

`json/src/value.rs`. `embed` puts a `JsonStr` in the place of parts of a value.
-/

namespace Sval.Json

/-- `impl Value for JsonStr`: `json/src/value.rs:60-66`; `&self.0` is a `str`, `src/data/text.rs:103-108`. -/
def jsonStr (t : Text) : V := .tagged { tag := some tags.JSON_VALUE } (.text (some (utf8Len t)) [.borrowed t])

section
variable (env : Env)

/-- The value in its JSON, as a `JsonStr`. -/
def asJson (v : V) : V :=
  match toString env (valueOf v) with
  | some t => jsonStr t
  | none => v

/-- Where to look in a part of a value. -/
def under (i : Nat) (p : List Nat → Bool) : List Nat → Bool := fun q => p (i :: q)

mutual
/-- The value, with every part that `p` says (by the way to it) in its JSON. Keys, and the text of special tags, are
left as they are; what an enum holds is a variant, not a value. -/
def embed (p : List Nat → Bool) (v : V) : V :=
  if p [] then asJson env v
  else
    match v with
    | .seq n xs => .seq n (embeds 0 p xs)
    | .map n kvs => .map n (embedEntries 0 p kvs)
    | .tagged m v => if isSpecialTag m.tag then .tagged m v else .tagged m (embed (under 0 p) v)
    | .enum m v => .enum m (embedVariant (under 0 p) v)
    | .record m n fs => .record m n (embedFields 0 p fs)
    | .tuple m n fs => .tuple m n (embedItems 0 p fs)
    | .recordTuple m n fs => .recordTuple m n (embedRT 0 p fs)
    | .hint t v => .hint t (embed (under 0 p) v)
    | v => v
def embedVariant (p : List Nat → Bool) (v : V) : V :=
  match v with
  | .tagged m v => if isSpecialTag m.tag then .tagged m v else .tagged m (embed (under 0 p) v)
  | .enum m v => .enum m (embedVariant (under 0 p) v)
  | .record m n fs => .record m n (embedFields 0 p fs)
  | .tuple m n fs => .tuple m n (embedItems 0 p fs)
  | .recordTuple m n fs => .recordTuple m n (embedRT 0 p fs)
  | .hint t v => .hint t (embedVariant (under 0 p) v)
  | v => v
def embeds (i : Nat) (p : List Nat → Bool) : List V → List V
  | [] => []
  | x :: xs => embed (under i p) x :: embeds (i + 1) p xs
def embedEntries (i : Nat) (p : List Nat → Bool) : List (V × V) → List (V × V)
  | [] => []
  | (k, v) :: r => (k, embed (under i p) v) :: embedEntries (i + 1) p r
def embedFields (i : Nat) (p : List Nat → Bool) : List (Option Tag × Label × V) → List (Option Tag × Label × V)
  | [] => []
  | (t, l, v) :: r => (t, l, embed (under i p) v) :: embedFields (i + 1) p r
def embedItems (i : Nat) (p : List Nat → Bool) : List (Option Tag × Index × V) → List (Option Tag × Index × V)
  | [] => []
  | (t, x, v) :: r => (t, x, embed (under i p) v) :: embedItems (i + 1) p r
def embedRT (i : Nat) (p : List Nat → Bool) : List (Option Tag × Label × Index × V) → List (Option Tag × Label × Index × V)
  | [] => []
  | (t, l, x, v) :: r => (t, l, x, embed (under i p) v) :: embedRT (i + 1) p r
end

theorem toString_text_of (v : V) (j : J) (hj : value env v = some j) (hs : safe v = true) :
    toString env (valueOf v) = some (valueT env v) ∧ parse (valueT env v) = some j := by
  obtain ⟨t, tg, h1, h3, h2⟩ := (P4_all env v).1 j hj hs false true false [] (.inl rfl)
  subst h2
  refine ⟨?_, (parse_iff _ _).2 h3⟩
  rw [valueOf, toString_eq, show ({ out := [] } : St Text) = ⟨false, true, true, none, false, []⟩ from rfl, h1]
  simp [Res.toOption]

/-- Nothing that matters is different. -/
structure Like (v w : V) : Prop where
  value : ∀ j, value env v = some j → safe v = true → Json.value env w = some j ∧ safe w = true ∧ valueT env w = valueT env v
  named : named w = true → Json.named v = true

structure LikeX (v w : V) : Prop where
  variant : ∀ j, variant env v = some j → safeVariant v = true →
    Json.variant env w = some j ∧ safeVariant w = true ∧ variantT env w = variantT env v
  named : named w = Json.named v

theorem Like.refl (v : V) : Like env v v := ⟨fun _ h1 h2 => ⟨h1, h2, rfl⟩, id⟩
theorem LikeX.refl (v : V) : LikeX env v v := ⟨fun _ h1 h2 => ⟨h1, h2, rfl⟩, rfl⟩

theorem like_asJson (v : V) : Like env v (asJson env v) := by
  refine ⟨fun j hj hs => ?_, fun h => ?_⟩
  · obtain ⟨h1, h2⟩ := toString_text_of env v j hj hs
    simp only [asJson, h1]
    refine ⟨?_, rfl, ?_⟩
    · simpa [jsonStr, Json.value, isSpecialTag, textOf, specialJ, fragsText, Frag.content,
        show ¬ tags.JSON_VALUE = tags.NUMBER by decide] using h2
    · simp [jsonStr, valueT, isSpecialTag, textOf, specialT, specialKeyT, fragsText, Frag.content,
        show ¬ tags.JSON_VALUE = tags.NUMBER by decide, show ¬ tags.JSON_VALUE = tags.JSON_TEXT by decide]
  · unfold asJson at h
    split at h
    · cases h
    · exact h

def Embeds (v : V) : Prop := ∀ p, Like env v (embed env p v) ∧ LikeX env v (embedVariant env p v)

theorem embeds_like (xs : List V) (ih : ∀ x ∈ xs, Embeds env x) : ∀ (i : Nat) (p : List Nat → Bool) (js : List J),
    values env xs = some js → safes xs = true →
      values env (embeds env i p xs) = some js ∧ safes (embeds env i p xs) = true ∧
        valuesT env (embeds env i p xs) = valuesT env xs := by
  induction xs with
  | nil => intro i p js h1 h2; exact ⟨h1, h2, rfl⟩
  | cons x xs ihx =>
    intro i p js h1 h2
    obtain ⟨y, ys, h3, h4, rfl⟩ := consO_some h1
    rw [safes, Bool.and_eq_true] at h2
    obtain ⟨a1, a2, a3⟩ := (ih x (by simp) (under i p)).1.value y h3 h2.1
    obtain ⟨b1, b2, b3⟩ := ihx (fun x hx => ih x (by simp [hx])) (i + 1) p ys h4 h2.2
    simp [embeds, values, safes, valuesT, a1, a2, a3, b1, b2, b3, consO]

theorem embedItems_like (xs : List (Option Tag × Index × V)) (ih : ∀ f ∈ xs, Embeds env f.2.2) : ∀ (i : Nat) (p : List Nat → Bool)
    (js : List J), items env xs = some js → safeItems xs = true →
      items env (embedItems env i p xs) = some js ∧ safeItems (embedItems env i p xs) = true ∧
        itemsT env (embedItems env i p xs) = itemsT env xs := by
  induction xs with
  | nil => intro i p js h1 h2; exact ⟨h1, h2, rfl⟩
  | cons x xs ihx =>
    intro i p js h1 h2
    obtain ⟨t, ix, x⟩ := x
    obtain ⟨y, ys, h3, h4, rfl⟩ := consO_some h1
    rw [safeItems, Bool.and_eq_true] at h2
    obtain ⟨a1, a2, a3⟩ := (ih (t, ix, x) (by simp) (under i p)).1.value y h3 h2.1
    obtain ⟨b1, b2, b3⟩ := ihx (fun x hx => ih x (by simp [hx])) (i + 1) p ys h4 h2.2
    simp only [] at a1 a2 a3
    simp [embedItems, items, safeItems, itemsT, a1, a2, a3, b1, b2, b3, consO]

theorem embedFields_like (xs : List (Option Tag × Label × V)) (ih : ∀ f ∈ xs, Embeds env f.2.2) : ∀ (i : Nat) (p : List Nat → Bool)
    (js : List (Text × J)), fields env xs = some js → safeFields xs = true →
      fields env (embedFields env i p xs) = some js ∧ safeFields (embedFields env i p xs) = true ∧
        fieldsT env (embedFields env i p xs) = fieldsT env xs := by
  induction xs with
  | nil => intro i p js h1 h2; exact ⟨h1, h2, rfl⟩
  | cons x xs ihx =>
    intro i p js h1 h2
    obtain ⟨t, l, x⟩ := x
    obtain ⟨y, ys, h3, h4, rfl⟩ := consO_some h1
    obtain ⟨k, j, h5, h6, rfl⟩ := pairO_some h3
    rw [safeFields, Bool.and_eq_true] at h2
    obtain ⟨a1, a2, a3⟩ := (ih (t, l, x) (by simp) (under i p)).1.value j h6 h2.1
    obtain ⟨b1, b2, b3⟩ := ihx (fun x hx => ih x (by simp [hx])) (i + 1) p ys h4 h2.2
    simp only [] at a1 a2 a3
    simp [embedFields, fields, safeFields, fieldsT, a1, a2, a3, b1, b2, b3, h5, consO, pairO]

theorem embedRT_like (xs : List (Option Tag × Label × Index × V)) (ih : ∀ f ∈ xs, Embeds env f.2.2.2) : ∀ (i : Nat)
    (p : List Nat → Bool) (js : List (Text × J)), fieldsRT env xs = some js → safeRT xs = true →
      fieldsRT env (embedRT env i p xs) = some js ∧ safeRT (embedRT env i p xs) = true ∧
        fieldsRTT env (embedRT env i p xs) = fieldsRTT env xs := by
  induction xs with
  | nil => intro i p js h1 h2; exact ⟨h1, h2, rfl⟩
  | cons x xs ihx =>
    intro i p js h1 h2
    obtain ⟨t, l, ix, x⟩ := x
    obtain ⟨y, ys, h3, h4, rfl⟩ := consO_some h1
    obtain ⟨k, j, h5, h6, rfl⟩ := pairO_some h3
    rw [safeRT, Bool.and_eq_true] at h2
    obtain ⟨a1, a2, a3⟩ := (ih (t, l, ix, x) (by simp) (under i p)).1.value j h6 h2.1
    obtain ⟨b1, b2, b3⟩ := ihx (fun x hx => ih x (by simp [hx])) (i + 1) p ys h4 h2.2
    simp only [] at a1 a2 a3
    simp [embedRT, fieldsRT, safeRT, fieldsRTT, a1, a2, a3, b1, b2, b3, h5, consO, pairO]

theorem embedEntries_like (xs : List (V × V)) (ih : ∀ f ∈ xs, Embeds env f.2) : ∀ (i : Nat) (p : List Nat → Bool)
    (js : List (Text × J)), entries env xs = some js → safeEntries xs = true →
      entries env (embedEntries env i p xs) = some js ∧ safeEntries (embedEntries env i p xs) = true ∧
        entriesT env (embedEntries env i p xs) = entriesT env xs := by
  induction xs with
  | nil => intro i p js h1 h2; exact ⟨h1, h2, rfl⟩
  | cons x xs ihx =>
    intro i p js h1 h2
    obtain ⟨k, x⟩ := x
    obtain ⟨y, ys, h3, h4, rfl⟩ := consO_some h1
    obtain ⟨u, j, h5, h6, rfl⟩ := pairO_some h3
    simp only [safeEntries, Bool.and_eq_true, Bool.not_eq_true'] at h2
    obtain ⟨⟨⟨s1, s2⟩, s3⟩, s4⟩ := h2
    have hl := (ih (k, x) (by simp) (under i p)).1
    obtain ⟨a1, a2, a3⟩ := hl.value j h6 s2
    obtain ⟨b1, b2, b3⟩ := ihx (fun x hx => ih x (by simp [hx])) (i + 1) p ys h4 s4
    have hn : (named k && named (embed env (under i p) x)) = false := by
      cases hk : named k
      · rfl
      · cases hx : named (embed env (under i p) x)
        · rfl
        · rw [hk, hl.named hx] at s3; cases s3
    simp only [] at a1 a2 a3
    simp only [embedEntries, entries, safeEntries, entriesT, a1, a2, a3, b1, b2, b3, h5, s1, hn]
    simp [consO, pairO]

/-- A value that is not replaced itself. -/
theorem both_of {v : V} (h : ∀ p, p [] = false → Like env v (embed env p v)) (hx : ∀ p, LikeX env v (embedVariant env p v)) :
    Embeds env v := fun p => by
  refine ⟨?_, hx p⟩
  cases hp : p []
  · exact h p hp
  · unfold embed
    rw [hp, if_pos rfl]
    exact like_asJson env v

theorem both_leaf {v : V} (h : ∀ p, p [] = false → embed env p v = v) (hx : ∀ p, embedVariant env p v = v) : Embeds env v :=
  both_of env (fun p hp => by rw [h p hp]; exact .refl env v) (fun p => by rw [hx p]; exact .refl env v)

theorem embed_all (v : V) : Embeds env v := by
  induction v using V.ind with
  | null => exact both_leaf env (fun p hp => by unfold embed; simp [hp]) (fun p => by unfold embedVariant; rfl)
  | bool b => exact both_leaf env (fun p hp => by unfold embed; simp [hp]) (fun p => by unfold embedVariant; rfl)
  | int t v => exact both_leaf env (fun p hp => by unfold embed; simp [hp]) (fun p => by unfold embedVariant; rfl)
  | f32 b => exact both_leaf env (fun p hp => by unfold embed; simp [hp]) (fun p => by unfold embedVariant; rfl)
  | f64 b => exact both_leaf env (fun p hp => by unfold embed; simp [hp]) (fun p => by unfold embedVariant; rfl)
  | text n fs => exact both_leaf env (fun p hp => by unfold embed; simp [hp]) (fun p => by unfold embedVariant; rfl)
  | binary n fs => exact both_leaf env (fun p hp => by unfold embed; simp [hp]) (fun p => by unfold embedVariant; rfl)
  | tag m => exact both_leaf env (fun p hp => by unfold embed; simp [hp]) (fun p => by unfold embedVariant; rfl)
  | seq n xs ih =>
    refine both_of env (fun p hp => ?_) (fun p => by unfold embedVariant; exact .refl env _)
    have e : embed env p (.seq n xs) = .seq n (embeds env 0 p xs) := by rw [embed]; simp [hp]
    rw [e]
    refine ⟨fun j hj hs => ?_, fun h => by cases h⟩
    rw [value, Option.map_eq_some_iff] at hj
    obtain ⟨js, hj, rfl⟩ := hj
    obtain ⟨a, b, c⟩ := embeds_like env xs ih 0 p js hj hs
    simp [value, safe, valueT, a, b, c]
  | map n kvs ih =>
    refine both_of env (fun p hp => ?_) (fun p => by unfold embedVariant; exact .refl env _)
    have e : embed env p (.map n kvs) = .map n (embedEntries env 0 p kvs) := by rw [embed]; simp [hp]
    rw [e]
    refine ⟨fun j hj hs => ?_, fun h => by cases h⟩
    rw [value, Option.map_eq_some_iff] at hj
    obtain ⟨js, hj, rfl⟩ := hj
    obtain ⟨a, b, c⟩ := embedEntries_like env kvs (fun f hf => (ih f hf).2) 0 p js hj hs
    simp [value, safe, valueT, a, b, c]
  | tagged m v ih =>
    by_cases hsp : isSpecialTag m.tag = true
    · exact both_leaf env (fun p hp => by rw [embed]; simp [hp, hsp]) (fun p => by rw [embedVariant]; simp [hsp])
    · refine both_of env (fun p hp => ?_) (fun p => ?_)
      · have e : embed env p (.tagged m v) = .tagged m (embed env (under 0 p) v) := by rw [embed]; simp [hp, hsp]
        rw [e]
        refine ⟨fun j hj hs => ?_, fun h => h⟩
        simp only [value, hsp] at hj
        simp only [safe, hsp] at hs
        have := (ih (under 0 p)).1.value j hj hs
        simpa [value, safe, valueT, hsp] using this
      · have e : embedVariant env p (.tagged m v) = .tagged m (embed env (under 0 p) v) := by rw [embedVariant]; simp [hsp]
        rw [e]
        refine ⟨fun j hj hs => ?_, rfl⟩
        simp only [variant, hsp, Option.map_eq_some_iff] at hj
        simp only [safeVariant, hsp] at hs
        obtain ⟨j, hj, rfl⟩ := hj
        obtain ⟨a, b, c⟩ := (ih (under 0 p)).1.value j hj hs
        simp [variant, safeVariant, variantT, hsp, a, b, c]
  | enum m v ih =>
    refine both_of env (fun p hp => ?_) (fun p => ?_)
    · have e : embed env p (.enum m v) = .enum m (embedVariant env (under 0 p) v) := by rw [embed]; simp [hp]
      rw [e]
      exact ⟨fun j hj hs => (ih (under 0 p)).2.variant j hj hs, fun h => h⟩
    · rw [embedVariant]
      refine ⟨fun j hj hs => ?_, rfl⟩
      simp only [variant, Option.map_eq_some_iff] at hj
      simp only [safeVariant, Bool.and_eq_true] at hs
      obtain ⟨j, hj, rfl⟩ := hj
      have hl := (ih (under 0 p)).2
      obtain ⟨a, b, c⟩ := hl.variant j hj hs.1
      refine ⟨by simp [variant, a], ?_, by simp [variantT, c]⟩
      rw [safeVariant, b, hl.named, hs.2]; rfl
  | record m n fs ih =>
    refine both_of env (fun p hp => ?_) (fun p => ?_)
    · have e : embed env p (.record m n fs) = .record m n (embedFields env 0 p fs) := by rw [embed]; simp [hp]
      rw [e]
      refine ⟨fun j hj hs => ?_, fun h => h⟩
      rw [value, Option.map_eq_some_iff] at hj
      obtain ⟨js, hj, rfl⟩ := hj
      obtain ⟨a, b, c⟩ := embedFields_like env fs ih 0 p js hj hs
      simp [value, safe, valueT, a, b, c]
    · rw [embedVariant]
      refine ⟨fun j hj hs => ?_, rfl⟩
      rw [variant, Option.map_eq_some_iff] at hj
      obtain ⟨js, hj, rfl⟩ := hj
      obtain ⟨a, b, c⟩ := embedFields_like env fs ih 0 p js hj hs
      simp [variant, safeVariant, variantT, a, b, c]
  | tuple m n fs ih =>
    refine both_of env (fun p hp => ?_) (fun p => ?_)
    · have e : embed env p (.tuple m n fs) = .tuple m n (embedItems env 0 p fs) := by rw [embed]; simp [hp]
      rw [e]
      refine ⟨fun j hj hs => ?_, fun h => h⟩
      rw [value, Option.map_eq_some_iff] at hj
      obtain ⟨js, hj, rfl⟩ := hj
      obtain ⟨a, b, c⟩ := embedItems_like env fs ih 0 p js hj hs
      simp [value, safe, valueT, a, b, c]
    · rw [embedVariant]
      refine ⟨fun j hj hs => ?_, rfl⟩
      rw [variant, Option.map_eq_some_iff] at hj
      obtain ⟨js, hj, rfl⟩ := hj
      obtain ⟨a, b, c⟩ := embedItems_like env fs ih 0 p js hj hs
      simp [variant, safeVariant, variantT, a, b, c]
  | recordTuple m n fs ih =>
    refine both_of env (fun p hp => ?_) (fun p => ?_)
    · have e : embed env p (.recordTuple m n fs) = .recordTuple m n (embedRT env 0 p fs) := by rw [embed]; simp [hp]
      rw [e]
      refine ⟨fun j hj hs => ?_, fun h => h⟩
      rw [value, Option.map_eq_some_iff] at hj
      obtain ⟨js, hj, rfl⟩ := hj
      obtain ⟨a, b, c⟩ := embedRT_like env fs ih 0 p js hj hs
      simp [value, safe, valueT, a, b, c]
    · rw [embedVariant]
      refine ⟨fun j hj hs => ?_, rfl⟩
      rw [variant, Option.map_eq_some_iff] at hj
      obtain ⟨js, hj, rfl⟩ := hj
      obtain ⟨a, b, c⟩ := embedRT_like env fs ih 0 p js hj hs
      simp [variant, safeVariant, variantT, a, b, c]
  | hint t v ih =>
    refine both_of env (fun p hp => ?_) (fun p => ?_)
    · have e : embed env p (.hint t v) = .hint t (embed env (under 0 p) v) := by rw [embed]; simp [hp]
      rw [e]
      exact ⟨fun j hj hs => (ih (under 0 p)).1.value j hj hs, fun h => (ih (under 0 p)).1.named h⟩
    · rw [embedVariant]
      exact ⟨fun j hj hs => (ih (under 0 p)).2.variant j hj hs, (ih (under 0 p)).2.named⟩

end

end Sval.Json
