import Verif.Nested.Panic

set_option autoImplicit false

/-!
# A recursive stream sees at most one tree
-/

namespace Sval.Nested

/-- A recursive stream that accepts everything, and remembers it. -/
def rememberCb (c : Cb) (s : List Cb) : Res Unit (List Cb) := .ok (s ++ [c])

theorem runCb_rememberCb (X s : List Cb) : runCb rememberCb X s = .ok (s ++ X) := by
  induction X generalizing s with
  | nil => simp [runCb]
  | cons c X ih => simp [runCb, rememberCb, Res.bind, ih]

theorem makes_rememberCb {c : Bool} {p : Prog} {X : List Cb} (h : Makes c p X) : stream rememberCb c p [] = .done true X := by
  rw [h, runCb_rememberCb]; rfl

theorem makes_unique {c : Bool} {p : Prog} {X Y : List Cb} (h : Makes c p X) (h' : Makes c p Y) : X = Y := by
  have := (makes_rememberCb h).symm.trans (makes_rememberCb h')
  injection this

/-- Induction over what a recursive stream sees. -/
theorem Sees.ind {P : Arg → V → Prop}
    (mk : ∀ a X v, Makes (!a.borrowed) a.prog X → Opened P X v → P a v)
    (on : ∀ a b v, Makes (!a.borrowed) a.prog [.value b] → P b v → P a v) {a : Arg} {v : V} (h : Sees a v) : P a v := by
  refine Sees.rec (motive_1 := fun a v _ => P a v) (motive_2 := fun X v _ => Opened P X v)
    (motive_3 := fun X v _ => Variant P X v) ?_ ?_ ?_ ?_ ?_ ?_ ?_ ?_ ?_ ?_ ?_ ?_ ?_ ?_ ?_ ?_ ?_ ?_ ?_ ?_ ?_ h
  · exact fun a X v h _ ih => mk a X v h ih
  · exact fun a b v h _ ih => on a b v h ih
  · exact .null
  · exact .bool
  · exact .int
  · exact .f32
  · exact .f64
  · exact .text
  · exact .binary
  · exact .tag
  · exact fun m a v _ ih => .tagged m a v ih
  · exact fun n L _ ih => .seq n L ih
  · exact fun n L _ _ h1 h2 => .map n L h1 h2
  · exact fun m n L _ ih => .tuple m n L ih
  · exact fun m n L _ ih => .record m n L ih
  · exact fun m X v _ ih => .enum m X v ih
  · exact .tag
  · exact fun m a v _ ih => .tagged m a v ih
  · exact fun m n L _ ih => .tuple m n L ih
  · exact fun m n L _ ih => .record m n L ih
  · exact fun m X v _ ih => .nested m X v ih

theorem map_pair {α β γ : Type} (f : α → β) (g : α → γ) {L L' : List α} {e : β} (h : L.map f ++ [e] = L'.map f ++ [e])
    (hg : ∀ x ∈ L, ∀ y ∈ L', f x = f y → g x = g y) : L.map g = L'.map g := by
  have h := List.append_cancel_right h
  induction L generalizing L' with
  | nil => cases L' with
    | nil => rfl
    | cons y L' => simp at h
  | cons x L ih => cases L' with
    | nil => simp at h
    | cons y L' =>
      simp only [List.map_cons, List.cons.injEq] at h ⊢
      exact ⟨hg x (by simp) y (by simp) h.1, ih (by simp [h.2]) (fun x hx y hy => hg x (by simp [hx]) y (by simp [hy])) h.2⟩

theorem flat_pair {α β γ : Type} (f1 f2 : α → β) (g : α → γ) {L L' : List α} {e : β}
    (h : (L.flatMap fun x => [f1 x, f2 x]) ++ [e] = (L'.flatMap fun x => [f1 x, f2 x]) ++ [e])
    (hg : ∀ x ∈ L, ∀ y ∈ L', f1 x = f1 y → f2 x = f2 y → g x = g y) : L.map g = L'.map g := by
  have h := List.append_cancel_right h
  induction L generalizing L' with
  | nil => cases L' with
    | nil => rfl
    | cons y L' => simp at h
  | cons x L ih => cases L' with
    | nil => simp at h
    | cons y L' =>
      simp only [List.flatMap_cons, List.cons_append, List.nil_append, List.cons.injEq] at h
      simp only [List.map_cons, List.cons.injEq]
      exact ⟨hg x (by simp) y (by simp) h.1 h.2.1,
        ih (by simp [h.2.2]) (fun x hx y hy => hg x (by simp [hx]) y (by simp [hy])) h.2.2⟩

theorem variant_pair {R S : Arg → V → Prop} (hRS : ∀ a v w, R a v → S a w → v = w) {X : List Cb} {v : V}
    (h : Variant R X v) : ∀ {Y : List Cb} {w : V}, Variant S Y w → X = Y → v = w := by
  induction h with
  | tag m =>
    intro Y w h' e
    cases h' <;> simp only [List.cons.injEq, reduceCtorEq, false_and, Cb.variantTag.injEq] at e
    rw [e.1]
  | tagged m a v h =>
    intro Y w h' e
    cases h' <;> simp only [List.cons.injEq, reduceCtorEq, false_and, Cb.variantTagged.injEq] at e
    rename_i m' a' v' h'
    obtain ⟨⟨e1, rfl⟩, _⟩ := e
    rw [e1, hRS _ _ _ h h']
  | tuple m n L h =>
    intro Y w h' e
    cases h' <;> simp only [List.cons.injEq, reduceCtorEq, false_and, Cb.variantTupleBegin.injEq] at e
    rename_i m' n' L' h'
    obtain ⟨⟨rfl, rfl⟩, e⟩ := e
    rw [map_pair _ (fun x => (x.1, x.2.1, x.2.2.2)) e]
    rintro ⟨t, i, a, v⟩ hx ⟨t', i', a', v'⟩ hy e
    simp only [Cb.tupleValue.injEq] at e
    obtain ⟨rfl, rfl, rfl⟩ := e
    rw [hRS a v v' (h _ hx) (h' _ hy)]
  | record m n L h =>
    intro Y w h' e
    cases h' <;> simp only [List.cons.injEq, reduceCtorEq, false_and, Cb.variantRecordBegin.injEq] at e
    rename_i m' n' L' h'
    obtain ⟨⟨rfl, rfl⟩, e⟩ := e
    rw [map_pair _ (fun x => (x.1, x.2.1, x.2.2.2)) e]
    rintro ⟨t, i, a, v⟩ hx ⟨t', i', a', v'⟩ hy e
    simp only [Cb.recordValue.injEq] at e
    obtain ⟨rfl, rfl, rfl⟩ := e
    rw [hRS a v v' (h _ hx) (h' _ hy)]
  | nested m X v h ih =>
    intro Y w h' e
    cases h' <;> simp only [List.cons.injEq, reduceCtorEq, false_and, Cb.nestedBegin.injEq] at e
    rename_i m' X' v' h'
    obtain ⟨e1, e⟩ := e
    rw [e1] at e
    rw [e1, ih h' (List.append_cancel_right e)]

theorem opened_pair {R S : Arg → V → Prop} (hRS : ∀ a v w, R a v → S a w → v = w) {X : List Cb} {v w : V}
    (h : Opened R X v) (h' : Opened S X w) : v = w := by
  generalize e : X = Y at h'
  cases h with
  | null => cases h' <;> simp only [List.cons.injEq, reduceCtorEq, false_and, Cb.scalar.injEq] at e; rfl
  | bool b =>
    cases h' <;> simp only [List.cons.injEq, reduceCtorEq, false_and, Cb.scalar.injEq, Token.bool.injEq] at e
    rw [e.1]
  | int t v =>
    cases h' <;> simp only [List.cons.injEq, reduceCtorEq, false_and, Cb.scalar.injEq, Token.int.injEq] at e
    rw [e.1.1, e.1.2]
  | f32 b =>
    cases h' <;> simp only [List.cons.injEq, reduceCtorEq, false_and, Cb.scalar.injEq, Token.f32.injEq] at e
    rw [e.1]
  | f64 b =>
    cases h' <;> simp only [List.cons.injEq, reduceCtorEq, false_and, Cb.scalar.injEq, Token.f64.injEq] at e
    rw [e.1]
  | text b s =>
    cases h' <;> simp only [List.cons.injEq, reduceCtorEq, false_and, Cb.text.injEq] at e
    rw [e.1.2]
  | binary b s =>
    cases h' <;> simp only [List.cons.injEq, reduceCtorEq, false_and, Cb.binary.injEq] at e
    rw [e.1.2]
  | tag m =>
    cases h' <;> simp only [List.cons.injEq, reduceCtorEq, false_and, Cb.tag.injEq] at e
    rw [e.1]
  | tagged m a v h =>
    cases h' <;> simp only [List.cons.injEq, reduceCtorEq, false_and, Cb.tagged.injEq] at e
    rename_i m' a' v' h'
    obtain ⟨⟨e1, rfl⟩, _⟩ := e
    rw [e1, hRS _ _ _ h h']
  | seq n L h =>
    cases h' <;> simp only [List.cons.injEq, reduceCtorEq, false_and, Cb.seqBegin.injEq] at e
    rename_i n' L' h'
    obtain ⟨rfl, e⟩ := e
    rw [map_pair _ (·.2) e]
    rintro ⟨a, v⟩ hx ⟨a', v'⟩ hy e
    simp only [Cb.seqValue.injEq] at e
    subst e
    exact hRS a v v' (h _ hx) (h' _ hy)
  | map n L h1 h2 =>
    cases h' <;> simp only [List.cons.injEq, reduceCtorEq, false_and, Cb.mapBegin.injEq] at e
    rename_i n' L' h1' h2'
    obtain ⟨rfl, e⟩ := e
    rw [flat_pair _ _ (fun x => (x.1.2, x.2.2)) e]
    rintro ⟨⟨a, v⟩, b, w⟩ hx ⟨⟨a', v'⟩, b', w'⟩ hy e1 e2
    simp only [Cb.mapKey.injEq, Cb.mapValue.injEq] at e1 e2
    subst e1 e2
    rw [hRS a v v' (h1 _ hx) (h1' _ hy), hRS b w w' (h2 _ hx) (h2' _ hy)]
  | tuple m n L h =>
    cases h' <;> simp only [List.cons.injEq, reduceCtorEq, false_and, Cb.tupleBegin.injEq] at e
    rename_i m' n' L' h'
    obtain ⟨⟨rfl, rfl⟩, e⟩ := e
    rw [map_pair _ (fun x => (x.1, x.2.1, x.2.2.2)) e]
    rintro ⟨t, i, a, v⟩ hx ⟨t', i', a', v'⟩ hy e
    simp only [Cb.tupleValue.injEq] at e
    obtain ⟨rfl, rfl, rfl⟩ := e
    rw [hRS a v v' (h _ hx) (h' _ hy)]
  | record m n L h =>
    cases h' <;> simp only [List.cons.injEq, reduceCtorEq, false_and, Cb.recordBegin.injEq] at e
    rename_i m' n' L' h'
    obtain ⟨⟨rfl, rfl⟩, e⟩ := e
    rw [map_pair _ (fun x => (x.1, x.2.1, x.2.2.2)) e]
    rintro ⟨t, i, a, v⟩ hx ⟨t', i', a', v'⟩ hy e
    simp only [Cb.recordValue.injEq] at e
    obtain ⟨rfl, rfl, rfl⟩ := e
    rw [hRS a v v' (h _ hx) (h' _ hy)]
  | enum m X v h =>
    cases h' <;> simp only [List.cons.injEq, reduceCtorEq, false_and, Cb.enumBegin.injEq] at e
    rename_i m' X' v' h'
    rw [e.1, variant_pair hRS h h' e.2]

theorem not_opened {R : Arg → V → Prop} {a : Arg} {v : V} : ¬ Opened R [.value a] v := by
  intro h
  generalize e : [Cb.value a] = X at h
  cases h <;> simp at e

theorem sees_unique {a : Arg} {v : V} (h : Sees a v) : ∀ {w : V}, Sees a w → v = w := by
  refine Sees.ind (P := fun a v => ∀ {w : V}, Sees a w → v = w) ?_ ?_ h
  · intro a X v hm hX w hw
    cases hw with
    | mk _ Y _ hm' hY =>
      obtain rfl := makes_unique hm hm'
      exact opened_pair (fun a v w h h' => h h') hX hY
    | on _ b _ hm' hb =>
      obtain rfl := makes_unique hm hm'
      exact (not_opened hX).elim
  · intro a b v hm ih w hw
    cases hw with
    | mk _ Y _ hm' hY =>
      obtain rfl := makes_unique hm hm'
      exact (not_opened hY).elim
    | on _ b' _ hm' hb =>
      have := makes_unique hm hm'
      simp only [List.cons.injEq, Cb.value.injEq, and_true] at this
      subst this
      exact ih hb

/-! ## What is seen is supported -/

theorem variant_mono : ∀ v : V, variant true v = true → variant false v = true
  | .tag _, _ | .tagged _ _, _ | .tuple _ _ _, _ | .record _ _ _, _ | .recordTuple _ _ _, _ => rfl
  | .enum _ _, h => h
  | .hint _ v, h => variant_mono v h

theorem supportedSeq_of {xs : List V} (h : ∀ x ∈ xs, supported x = true) : supportedSeq xs = true := by
  induction xs with
  | nil => rfl
  | cons x xs ih => simp_all [supportedSeq]

theorem supportedMap_of {xs : List (V × V)} (h : ∀ x ∈ xs, supported x.1 = true ∧ supported x.2 = true) :
    supportedMap xs = true := by
  induction xs with
  | nil => rfl
  | cons x xs ih =>
    obtain ⟨k, v⟩ := x
    simp only [supportedMap, Bool.and_eq_true]
    exact ⟨h (k, v) (by simp), ih fun y hy => h y (by simp [hy])⟩

theorem supportedTup_of {xs : List (Option Tag × Index × V)} (h : ∀ x ∈ xs, supported x.2.2 = true) :
    supportedTup xs = true := by
  induction xs with
  | nil => rfl
  | cons x xs ih =>
    obtain ⟨t, i, v⟩ := x
    simp only [supportedTup, Bool.and_eq_true]
    exact ⟨h (t, i, v) (by simp), ih fun y hy => h y (by simp [hy])⟩

theorem supportedRec_of {xs : List (Option Tag × Label × V)} (h : ∀ x ∈ xs, supported x.2.2 = true) :
    supportedRec xs = true := by
  induction xs with
  | nil => rfl
  | cons x xs ih =>
    obtain ⟨t, i, v⟩ := x
    simp only [supportedRec, Bool.and_eq_true]
    exact ⟨h (t, i, v) (by simp), ih fun y hy => h y (by simp [hy])⟩

/-- The values that a method is given. -/
def Cb.args : Cb → List Arg
  | .value a | .tagged _ a | .seqValue a | .mapKey a | .mapValue a | .tupleValue _ _ a | .recordValue _ _ a
  | .variantTagged _ a => [a]
  | _ => []

theorem variant_args {R : Arg → V → Prop} {X : List Cb} {v : V} (h : Variant R X v) :
    ∀ c ∈ X, ∀ a ∈ c.args, ∃ v, R a v := by
  induction h with
  | tag m => simp [Cb.args]
  | tagged m a v h => simpa [Cb.args] using ⟨v, h⟩
  | tuple m n L h =>
    simp only [List.mem_cons, List.mem_append, List.mem_map, List.not_mem_nil, or_false]
    rintro c (rfl | ⟨x, hx, rfl⟩ | rfl) a ha <;> simp only [Cb.args, List.mem_cons, List.not_mem_nil, or_false] at ha
    exact ⟨_, ha ▸ h x hx⟩
  | record m n L h =>
    simp only [List.mem_cons, List.mem_append, List.mem_map, List.not_mem_nil, or_false]
    rintro c (rfl | ⟨x, hx, rfl⟩ | rfl) a ha <;> simp only [Cb.args, List.mem_cons, List.not_mem_nil, or_false] at ha
    exact ⟨_, ha ▸ h x hx⟩
  | nested m X v h ih =>
    simp only [List.mem_cons, List.mem_append, List.not_mem_nil, or_false]
    rintro c (rfl | hc | rfl) a ha
    · simp [Cb.args] at ha
    · exact ih c hc a ha
    · simp [Cb.args] at ha

theorem opened_args {R : Arg → V → Prop} {X : List Cb} {v : V} (h : Opened R X v) :
    ∀ c ∈ X, ∀ a ∈ c.args, ∃ v, R a v := by
  cases h with
  | null | bool b | int t v | f32 b | f64 b | text b s | binary b s | tag m => simp [Cb.args]
  | tagged m a v h => simpa [Cb.args] using ⟨v, h⟩
  | seq n L h =>
    simp only [List.mem_cons, List.mem_append, List.mem_map, List.not_mem_nil, or_false]
    rintro c (rfl | ⟨x, hx, rfl⟩ | rfl) a ha <;> simp only [Cb.args, List.mem_cons, List.not_mem_nil, or_false] at ha
    exact ⟨_, ha ▸ h x hx⟩
  | map n L h1 h2 =>
    simp only [List.mem_cons, List.mem_append, List.mem_flatMap, List.not_mem_nil, or_false]
    rintro c (rfl | ⟨x, hx, rfl | rfl⟩ | rfl) a ha <;> simp only [Cb.args, List.mem_cons, List.not_mem_nil, or_false] at ha
    · exact ⟨_, ha ▸ h1 x hx⟩
    · exact ⟨_, ha ▸ h2 x hx⟩
  | tuple m n L h =>
    simp only [List.mem_cons, List.mem_append, List.mem_map, List.not_mem_nil, or_false]
    rintro c (rfl | ⟨x, hx, rfl⟩ | rfl) a ha <;> simp only [Cb.args, List.mem_cons, List.not_mem_nil, or_false] at ha
    exact ⟨_, ha ▸ h x hx⟩
  | record m n L h =>
    simp only [List.mem_cons, List.mem_append, List.mem_map, List.not_mem_nil, or_false]
    rintro c (rfl | ⟨x, hx, rfl⟩ | rfl) a ha <;> simp only [Cb.args, List.mem_cons, List.not_mem_nil, or_false] at ha
    exact ⟨_, ha ▸ h x hx⟩
  | enum m X v h =>
    simp only [List.mem_cons]
    rintro c (rfl | hc) a ha
    · simp [Cb.args] at ha
    · exact variant_args h c hc a ha

theorem variant_supported {R : Arg → V → Prop} {X : List Cb} {v : V} (h : Variant R X v)
    (hR : ∀ c ∈ X, ∀ a ∈ c.args, ∀ v, R a v → supported v = true) : variant false v = true → supported v = true := by
  induction h with
  | tag m => exact fun _ => rfl
  | tagged m a v h => exact fun _ => hR _ (List.mem_cons_self ..) a (by simp [Cb.args]) v h
  | tuple m n L h =>
    refine fun _ => supportedTup_of fun y hy => ?_
    obtain ⟨x, hx, rfl⟩ := List.mem_map.1 hy
    exact hR (.tupleValue x.1 x.2.1 x.2.2.1) (by simp only [List.mem_cons, List.mem_append, List.mem_map]; exact .inr (.inl ⟨x, hx, rfl⟩))
      _ (by simp [Cb.args]) _ (h x hx)
  | record m n L h =>
    refine fun _ => supportedRec_of fun y hy => ?_
    obtain ⟨x, hx, rfl⟩ := List.mem_map.1 hy
    exact hR (.recordValue x.1 x.2.1 x.2.2.1) (by simp only [List.mem_cons, List.mem_append, List.mem_map]; exact .inr (.inl ⟨x, hx, rfl⟩))
      _ (by simp [Cb.args]) _ (h x hx)
  | nested m X v h ih =>
    intro hv
    have := variant_mono v hv
    simp only [supported, Bool.and_eq_true]
    exact ⟨this, ih (fun c hc => hR c (by simp [hc])) this⟩

theorem opened_supported {R : Arg → V → Prop} {X : List Cb} {v : V} (h : Opened R X v)
    (hR : ∀ c ∈ X, ∀ a ∈ c.args, ∀ v, R a v → supported v = true) (hv : rootOk v = true) : supported v = true := by
  cases h with
  | null | bool b | int t v | f32 b | f64 b | text b s | binary b s | tag m => rfl
  | tagged m a v h => exact hR _ (List.mem_cons_self ..) a (by simp [Cb.args]) v h
  | seq n L h =>
    refine supportedSeq_of fun y hy => ?_
    obtain ⟨x, hx, rfl⟩ := List.mem_map.1 hy
    exact hR (.seqValue x.1) (by simp only [List.mem_cons, List.mem_append, List.mem_map]; exact .inr (.inl ⟨x, hx, rfl⟩))
      _ (by simp [Cb.args]) _ (h x hx)
  | map n L h1 h2 =>
    refine supportedMap_of fun y hy => ?_
    obtain ⟨x, hx, rfl⟩ := List.mem_map.1 hy
    exact ⟨hR (.mapKey x.1.1)
        (by simp only [List.mem_cons, List.mem_append, List.mem_flatMap]; exact .inr (.inl ⟨x, hx, .inl rfl⟩))
        _ (by simp [Cb.args]) _ (h1 x hx),
      hR (.mapValue x.2.1)
        (by simp only [List.mem_cons, List.mem_append, List.mem_flatMap]; exact .inr (.inl ⟨x, hx, .inr (.inl rfl)⟩))
        _ (by simp [Cb.args]) _ (h2 x hx)⟩
  | tuple m n L h =>
    refine supportedTup_of fun y hy => ?_
    obtain ⟨x, hx, rfl⟩ := List.mem_map.1 hy
    exact hR (.tupleValue x.1 x.2.1 x.2.2.1) (by simp only [List.mem_cons, List.mem_append, List.mem_map]; exact .inr (.inl ⟨x, hx, rfl⟩))
      _ (by simp [Cb.args]) _ (h x hx)
  | record m n L h =>
    refine supportedRec_of fun y hy => ?_
    obtain ⟨x, hx, rfl⟩ := List.mem_map.1 hy
    exact hR (.recordValue x.1 x.2.1 x.2.2.1) (by simp only [List.mem_cons, List.mem_append, List.mem_map]; exact .inr (.inl ⟨x, hx, rfl⟩))
      _ (by simp [Cb.args]) _ (h x hx)
  | enum m X v h =>
    simp only [supported, Bool.and_eq_true]
    exact ⟨hv, variant_supported h (fun c hc => hR c (by simp [hc])) hv⟩

/-! ## Enums that hold something else than a variant -/

theorem fails_enum {m : Meta} {is : List Item} {v : V} (h : Shows is v) (hv : variant false v = false) :
    ∀ s, match exec rememberCb (prog (.tok (.enumBegin m) :: (is ++ [.tok (.enumEnd m)]))) false ⟨none, .any, s⟩ with
      | .done _ st => st.mode ≠ .done true
      | .panicked => True := by
  intro s
  have hb := exec_bad rememberCb _ is v [] (s ++ [.enumBegin (cloneMeta m)]) (Nat.le_refl _) h hv
  have e1 : call rememberCb (.enumBegin m) ⟨none, .any, s⟩ = .ok ⟨none, .enum [], s ++ [.enumBegin (cloneMeta m)]⟩ := rfl
  rw [exec_go rememberCb e1, exec_append]
  split at hb
  · rw [hb]; trivial
  · obtain ⟨b, hb⟩ := hb
    rw [hb]; simp [Outcome.andThen]

theorem bad_any {is : List Item} {v : V} (h : Shows is v) (hv : rootOk v = false) :
    (∃ a q, a.prog = prog q ∧ Shows q v ∧ Does is none .any [.value a] none (.done true)) ∨
    (∀ s, match exec rememberCb (prog is) false ⟨none, .any, s⟩ with
      | .done _ st => st.mode ≠ .done true
      | .panicked => True) := by
  have puts : ∀ any a, Puts .any any a [any] (.done true) := fun _ _ => .inl ⟨rfl, rfl, rfl⟩
  induction h with
  | enum m is v h => exact .inr (fails_enum h hv)
  | hint t is v h ih =>
    rcases ih hv with ⟨a, q, h1, h2, hd⟩ | hf
    · exact .inl ⟨a, q, h1, h2, Does.cons (X := []) (does_ok fun _ _ _ => rfl) hd⟩
    · refine .inr fun s => ?_
      have e1 : call rememberCb (.tagHint t) ⟨none, .any, s⟩ = .ok ⟨none, .any, s⟩ := rfl
      rw [exec_go rememberCb e1]
      exact hf s
  | val q v h => exact .inl ⟨_, q, rfl, h, does_val (puts _ _)⟩
  | comp q v h => exact .inl ⟨_, q, rfl, h, does_comp (puts _ _)⟩
  | _ => exact Bool.noConfusion hv

theorem bad_makes {is : List Item} {v : V} (h : Shows is v) (hv : rootOk v = false) (c : Bool) {X : List Cb}
    (hX : Makes c (prog is) X) : ∃ a q, a.prog = prog q ∧ Shows q v ∧ X = [.value a] := by
  have key : ∀ {is : List Item}, Shows is v → Makes false (prog is) X → ∃ a q, a.prog = prog q ∧ Shows q v ∧ X = [.value a] := by
    intro is h hX
    rcases bad_any h hv with ⟨a, q, h1, h2, hd⟩ | hf
    · exact ⟨a, q, h1, h2, makes_unique hX hd.makes⟩
    · exfalso
      have e := makes_rememberCb hX
      have := hf []
      simp only [stream] at e
      revert e this
      cases exec rememberCb (prog is) false ⟨none, .any, []⟩ with
      | done b st => intro e h; simp only [Outcome.done.injEq, decide_eq_true_eq] at e; exact h e.1
      | panicked => intro e; cases e
  cases c with
  | false => exact key h hX
  | true =>
    refine key h.computed ?_
    intro σ C s
    rw [← hX σ C s]
    simp only [stream, exec_true]

/-- Code that shows a tree is seen as that tree, and only if the tree is supported. -/
theorem sees_shown {a : Arg} {w : V} (h : Sees a w) : ∀ {v : V}, Showing a v → v = w ∧ supported v = true := by
  refine Sees.ind (P := fun a w => ∀ {v : V}, Showing a v → v = w ∧ supported v = true) ?_ ?_ h
  · intro a X w hm hX v ⟨q, hq, hs⟩
    cases hr : rootOk v with
    | false =>
      obtain ⟨b, r, _, _, rfl⟩ := bad_makes hs hr _ (hq ▸ hm)
      exact (not_opened hX).elim
    | true =>
      rcases makes_any hs hr (!a.borrowed) with ⟨Y, hY, hm'⟩ | ⟨b, r, _, _, _, hm'⟩
      · obtain rfl := makes_unique hm (hq ▸ hm')
        refine ⟨opened_pair (fun a v w h h' => (h' h).1) hY hX, ?_⟩
        refine opened_supported hY (fun c hc b hb v' hv' => ?_) hr
        obtain ⟨w', hw'⟩ := opened_args hX c hc b hb
        exact (hw' hv').2
      · obtain rfl := makes_unique hm (hq ▸ hm')
        exact (not_opened hX).elim
  · intro a b w hm ih v ⟨q, hq, hs⟩
    cases hr : rootOk v with
    | false =>
      obtain ⟨b', r, h1, h2, e⟩ := bad_makes hs hr _ (hq ▸ hm)
      simp only [List.cons.injEq, Cb.value.injEq, and_true] at e
      subst e
      exact ih ⟨r, h1, h2⟩
    | true =>
      rcases makes_any hs hr (!a.borrowed) with ⟨Y, hY, hm'⟩ | ⟨b', r, h1, h2, _, hm'⟩
      · obtain rfl := makes_unique hm (hq ▸ hm')
        exact (not_opened hY).elim
      · have e := makes_unique hm (hq ▸ hm')
        simp only [List.cons.injEq, Cb.value.injEq, and_true] at e
        subst e
        exact ih ⟨r, h1, h2⟩

end Sval.Nested
