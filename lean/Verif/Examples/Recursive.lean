import Verif.Examples.Simple

set_option autoImplicit false

/-!
# What the recursive example stream prints
-/

namespace Sval.Examples

open Nested

section
variable {env : Fmt.Env} {float : UInt64 → Text}

/-- Every method, deep enough, prints a text. -/
def Puts (env : Fmt.Env) (float : UInt64 → Text) (X : List Cb) (t : Text) : Prop :=
  ∃ N, ∀ k, N ≤ k → ∀ o, runCb (recStep env float k) X o = .ok (o ++ t)

/-- A value in a value, deep enough, prints a text. -/
def PutsArg (env : Fmt.Env) (float : UInt64 → Text) (a : Arg) (t : Text) : Prop :=
  ∃ N, ∀ k n, N ≤ k → N ≤ n → ∀ o, result (stream (full {} (recStep env float k) n) true a.prog o) = .ok (o ++ t)

theorem puts_one {c : Cb} {t : Text} (h : ∀ k o, recStep env float (k + 1) c o = .ok (o ++ t)) : Puts env float [c] t := by
  refine ⟨1, fun k hk o => ?_⟩
  obtain ⟨k, rfl⟩ : ∃ j, k = j + 1 := ⟨k - 1, by omega⟩
  rw [runCb_one, h]

theorem runCb_append {σ : Type} (C : Cb → σ → Res Unit σ) (X Y : List Cb) : ∀ s : σ,
    runCb C (X ++ Y) s = (runCb C X s).bind (runCb C Y) := by
  induction X with
  | nil => intro s; rfl
  | cons c X ih =>
    intro s
    simp only [List.cons_append, runCb]
    cases C c s with
    | ok s => exact ih s
    | err e s => rfl
    | panic => rfl

theorem Puts.append {X Y : List Cb} {s t : Text} (hX : Puts env float X s) (hY : Puts env float Y t) :
    Puts env float (X ++ Y) (s ++ t) := by
  obtain ⟨N, h1⟩ := hX
  obtain ⟨M, h2⟩ := hY
  refine ⟨N + M, fun k hk o => ?_⟩
  rw [runCb_append, h1 k (by omega)]
  simp only [Res.bind]
  rw [h2 k (by omega), List.append_assoc]

theorem puts_nil : Puts env float [] [] := ⟨0, fun _ _ o => by simp [runCb]⟩

theorem puts_flatMap {α : Type} (L : List α) (f : α → List Cb) (g : α → Text) (h : ∀ x ∈ L, Puts env float (f x) (g x)) :
    Puts env float (L.flatMap f) (L.flatMap g) := by
  induction L with
  | nil => exact puts_nil
  | cons x L ih =>
    simp only [List.flatMap_cons]
    exact (h x (by simp)).append (ih fun y hy => h y (by simp [hy]))

/-- A list. -/
theorem puts_list {α : Type} {b e : Cb} (L : List α) (f : α → List Cb) (g : α → Text)
    (hb : ∀ k o, recStep env float (k + 1) b o = .ok (o ++ t! "[ ")) (he : ∀ k o, recStep env float (k + 1) e o = .ok (o ++ t! "]"))
    (h : ∀ x ∈ L, Puts env float (f x) (g x ++ t! ", ")) :
    Puts env float (b :: (L.flatMap f ++ [e])) (list (L.map g)) := by
  have := ((puts_one hb).append (puts_flatMap L f _ h)).append (puts_one he)
  simpa [list, List.flatMap_map] using this

theorem puts_of_gets {a : Arg} {v : V} {t : Text} (ha : a.borrowed = false)
    (h : ∀ X, (∀ c ∈ X, Impl.has {} c = true) → Opened (Gets {}) X v → Puts env float X t) (hg : Gets {} a v) : PutsArg env float a t := by
  cases hg with
  | mk _ X _ N h1 hI hX =>
    obtain ⟨M, h2⟩ := h X hI hX
    refine ⟨N + M, fun k n hk hn o => ?_⟩
    have := h1 Text (recStep env float k) o n (by omega)
    rw [ha] at this
    simp only [Bool.not_false] at this
    rw [this, result_outcome, h2 k (by omega)]

theorem puts_elem {a : Arg} {t s : Text} (c : Cb) (h : PutsArg env float a t)
    (hc : ∀ k o, recStep env float (k + 1) c o =
      (result (stream (full {} (recStep env float k) k) true a.prog o)).bind fun o => .ok (o ++ s)) :
    Puts env float [c] (t ++ s) := by
  obtain ⟨N, h⟩ := h
  refine ⟨N + 1, fun k hk o => ?_⟩
  obtain ⟨k, rfl⟩ : ∃ j, k = j + 1 := ⟨k - 1, by omega⟩
  rw [runCb_one, hc, h k k (by omega) (by omega)]
  simp [Res.bind]

/-- A method of an enum that does the same as a method of the stream. -/
theorem puts_via {c c' : Cb} {v : V} {t : Text} (hc : ∀ k o, recStep env float (k + 1) c o = full {} (recStep env float k) k c' o)
    (hl : Lowered {} [c'] v)
    (h : ∀ X, (∀ c ∈ X, Impl.has {} c = true) → Opened (Gets {}) X v → Puts env float X t) : Puts env float [c] t := by
  obtain ⟨X, N, h1, h2, h3⟩ := hl
  obtain ⟨M, h4⟩ := h X h2 h3
  refine ⟨N + M + 1, fun k hk o => ?_⟩
  obtain ⟨k, rfl⟩ : ∃ j, k = j + 1 := ⟨k - 1, by omega⟩
  rw [runCb_one, hc, ← runCb_one (full {} (recStep env float k) k), h1 Text _ o k (by omega), h4 k (by omega)]

theorem puts_text (s : Text) (X : List Cb) (hI : ∀ c ∈ X, Impl.has {} c = true) (h : Opened (Gets {}) X (text s)) :
    Puts env float X (recText env [s]) := by
  generalize e : text s = v at h
  cases h <;> simp [text, binary] at e
  subst e
  rename_i b
  have := hI _ (List.mem_singleton.2 rfl)
  simp [Impl.has] at this
  subst this
  exact puts_one fun k o => by simp [recStep, recText]

theorem puts_null (X : List Cb) (h : Opened (Gets {}) X .null) : Puts env float X (t! "null") := by
  cases h
  exact puts_one fun k o => rfl

theorem puts_str (s : Text) : PutsArg env float ⟨false, prog (strProg s)⟩ (recText env [s]) :=
  puts_of_gets rfl (puts_text s) (gets_text s ⟨_, rfl, shows_str s⟩)

/-- A field of a record: its label, and its value. -/
theorem puts_field {a : Arg} {u : Text} (tg : Option Tag) (l : Label) (h : PutsArg env float a u) :
    Puts env float [.recordValue tg l a] (list [recText env [l.text], u] ++ t! ", ") := by
  obtain ⟨N, h⟩ := h
  obtain ⟨M, hl⟩ := puts_str (env := env) (float := float) l.text
  refine ⟨N + M + 1, fun k hk o => ?_⟩
  obtain ⟨k, rfl⟩ : ∃ j, k = j + 1 := ⟨k - 1, by omega⟩
  rw [runCb_one]
  simp only [recStep]
  rw [hl k k (by omega) (by omega)]
  simp only [Res.bind]
  rw [h k k (by omega) (by omega)]
  simp [list]

theorem puts_tag (m : Meta) (X : List Cb) (hI : ∀ c ∈ X, Impl.has {} c = true) (h : Opened (Gets {}) X (tagV m)) :
    Puts env float X (shown (recText env) float (.tag m)) := by
  simp only [tagV] at h
  simp only [shown]
  split
  · rename_i h1
    rw [if_pos h1] at h
    exact puts_null X h
  · rename_i h1
    rw [if_neg h1] at h
    cases hl : m.label with
    | none =>
      rw [hl] at h
      exact puts_null X h
    | some l =>
      rw [hl] at h
      exact puts_text _ X hI h

theorem shown_own (m : Meta) : shown (recText env) float (.tag (own m)) = shown (recText env) float (.tag m) := by
  obtain ⟨t, l, i⟩ := m
  cases l with
  | none => rfl
  | some l =>
    have : l.toOwned.text = l.text := by simp only [Label.toOwned]; split <;> rfl
    simp [shown, own, this]

/-- What is known of the arguments of methods. -/
def KnownArg (env : Fmt.Env) (float : UInt64 → Text) (a : Arg) (v : V) : Prop :=
  a.borrowed = false → PutsArg env float a (shown (recText env) float v)

theorem puts_tagged {m : Meta} {a : Arg} {t : Text} (ha : a.borrowed = false) (h : PutsArg env float a t) :
    Puts env float [.variantTagged m a] t := by
  obtain ⟨N, h⟩ := h
  refine ⟨N + 3, fun k hk o => ?_⟩
  obtain ⟨k, rfl⟩ : ∃ j, k = j + 3 := ⟨k - 3, by omega⟩
  have e : recStep env float (k + 3) (.variantTagged m a) o =
      result (stream (full {} (recStep env float (k + 2)) k) true a.prog o) := by
    simp [recStep, full, Impl.has, provided, ha]
  rw [runCb_one, e, h (k + 2) k (by omega) (by omega)]

theorem puts_tupleL {b : Cb} (hb : ∀ k o, recStep env float (k + 1) b o = .ok (o ++ t! "[ "))
    (L : List (Option Tag × Index × Arg × V)) (h : ∀ x ∈ L, KnownArg env float x.2.2.1 x.2.2.2)
    (hI : ∀ x ∈ L, x.2.2.1.borrowed = false) :
    Puts env float (b :: ((L.map fun x => .tupleValue x.1 x.2.1 x.2.2.1) ++ [.tupleEnd]))
      (list (shownTup (recText env) float (L.map fun x => (x.1, x.2.1, x.2.2.2)))) := by
  have := puts_list L (fun x => [Cb.tupleValue x.1 x.2.1 x.2.2.1]) (fun x => shown (recText env) float x.2.2.2) hb
    (e := .tupleEnd) (fun _ _ => rfl) (fun x hx => puts_elem _ (h x hx (hI x hx)) fun _ _ => rfl)
  rw [← List.map_eq_flatMap] at this
  simpa [shownTup_map, Function.comp_def] using this

theorem puts_recordL {b : Cb} (hb : ∀ k o, recStep env float (k + 1) b o = .ok (o ++ t! "[ "))
    (L : List (Option Tag × Label × Arg × V)) (h : ∀ x ∈ L, KnownArg env float x.2.2.1 x.2.2.2)
    (hI : ∀ x ∈ L, x.2.2.1.borrowed = false) :
    Puts env float (b :: ((L.map fun x => .recordValue x.1 x.2.1 x.2.2.1) ++ [.recordEnd]))
      (list (shownRec (recText env) float (L.map fun x => (x.1, x.2.1, x.2.2.2)))) := by
  have := puts_list L (fun x => [Cb.recordValue x.1 x.2.1 x.2.2.1])
    (fun x => list [recText env [x.2.1.text], shown (recText env) float x.2.2.2]) hb
    (e := .recordEnd) (fun _ _ => rfl) (fun x hx => puts_field _ _ (h x hx (hI x hx)))
  rw [← List.map_eq_flatMap] at this
  simpa [shownRec_map, Function.comp_def] using this

theorem puts_variant {X : List Cb} {v : V} (h : Variant (KnownArg env float) X v) :
    (∀ c ∈ X, Impl.has {} c = true) → Puts env float X (shown (recText env) float v) := by
  induction h with
  | tag m =>
    intro _
    rw [shown_own]
    refine puts_via (fun _ _ => rfl) (lowered_tag m) ?_
    intro X hI hX
    have e : Nested.lower {} (.tag (own m)) = tagV m := by simp [Nested.lower, taggedV, tagV_own]
    rw [e] at hX
    exact puts_tag m X hI hX
  | tagged m a v h =>
    intro hI
    have ha : a.borrowed = false := by simpa [Impl.has] using hI _ (List.mem_singleton.2 rfl)
    exact puts_tagged ha (h ha)
  | tuple m n L h =>
    intro hI
    exact puts_tupleL (fun _ _ => rfl) L h fun x hx => by
      simpa [Impl.has] using hI (.tupleValue x.1 x.2.1 x.2.2.1)
        (List.mem_cons_of_mem _ (List.mem_append_left _ (List.mem_map.2 ⟨x, hx, rfl⟩)))
  | record m n L h =>
    intro hI
    exact puts_recordL (fun _ _ => rfl) L h fun x hx => by
      simpa [Impl.has] using hI (.recordValue x.1 x.2.1 x.2.2.1)
        (List.mem_cons_of_mem _ (List.mem_append_left _ (List.mem_map.2 ⟨x, hx, rfl⟩)))
  | nested m X v h ih =>
    intro hI
    have h1 : Puts env float [.nestedBegin (own m)] [] := puts_one fun _ _ => by simp [recStep]
    have h2 : Puts env float [.nestedEnd (own m)] [] := puts_one fun _ _ => by simp [recStep]
    have := (h1.append (ih fun c hc => hI c (by simp [hc]))).append h2
    simpa [shown] using this

theorem puts_opened {X : List Cb} {v : V} (h : Opened (KnownArg env float) X v) (hI : ∀ c ∈ X, Impl.has {} c = true) :
    Puts env float X (shown (recText env) float v) := by
  cases h with
  | null => exact puts_one fun _ _ => rfl
  | bool b => exact puts_one fun _ _ => rfl
  | int t v =>
    have := hI _ (List.mem_singleton.2 rfl)
    rw [has_int] at this
    have ht : t = .i64 := by simpa using this
    subst ht
    exact puts_one fun _ _ => by simp [recStep, shown, int]
  | f32 b => exact absurd (hI _ (List.mem_singleton.2 rfl)) (by simp [Impl.has])
  | f64 b => exact puts_one fun _ _ => rfl
  | text b s => exact puts_text s _ hI (.text b s)
  | binary b s => exact absurd (hI _ (List.mem_singleton.2 rfl)) (by simp [Impl.has])
  | tag m => exact absurd (hI _ (List.mem_singleton.2 rfl)) (by simp [Impl.has])
  | tagged m a v h => exact absurd (hI _ (List.mem_singleton.2 rfl)) (by simp [Impl.has])
  | seq n L h =>
    have hb : ∀ x ∈ L, x.1.borrowed = false := fun x hx => by
      simpa [Impl.has] using hI (.seqValue x.1) (List.mem_cons_of_mem _ (List.mem_append_left _ (List.mem_map.2 ⟨x, hx, rfl⟩)))
    have := puts_list L (fun x => [Cb.seqValue x.1]) (fun x => shown (recText env) float x.2) (b := .seqBegin n) (fun _ _ => rfl)
      (e := .seqEnd) (fun _ _ => rfl) (fun x hx => puts_elem _ (h x hx (hb x hx)) fun _ _ => rfl)
    rw [← List.map_eq_flatMap] at this
    simpa [shown, shownSeq_map, Function.comp_def] using this
  | map n L h1 h2 =>
    have hm : ∀ x ∈ L, ∀ c ∈ [Cb.mapKey x.1.1, .mapValue x.2.1], Impl.has {} c = true := fun x hx c hc =>
      hI c (List.mem_cons_of_mem _ (List.mem_append_left _ (List.mem_flatMap.2 ⟨x, hx, hc⟩)))
    have hk : ∀ x ∈ L, x.1.1.borrowed = false := fun x hx => by simpa [Impl.has] using hm x hx (.mapKey x.1.1) (by simp)
    have hv : ∀ x ∈ L, x.2.1.borrowed = false := fun x hx => by simpa [Impl.has] using hm x hx (.mapValue x.2.1) (by simp)
    have key : ∀ x ∈ L, Puts env float [.mapKey x.1.1, .mapValue x.2.1]
        (list [shown (recText env) float x.1.2, shown (recText env) float x.2.2] ++ t! ", ") := by
      intro x hx
      have k1 : Puts env float [.mapKey x.1.1] (t! "[ " ++ (shown (recText env) float x.1.2 ++ t! ", ")) := by
        obtain ⟨N, h⟩ := h1 x hx (hk x hx)
        refine ⟨N + 1, fun k hk o => ?_⟩
        obtain ⟨k, rfl⟩ : ∃ j, k = j + 1 := ⟨k - 1, by omega⟩
        rw [runCb_one]
        simp only [recStep]
        rw [h k k (by omega) (by omega)]
        simp [Res.bind]
      have k2 : Puts env float [.mapValue x.2.1] (shown (recText env) float x.2.2 ++ t! ", ], ") :=
        puts_elem _ (h2 x hx (hv x hx)) fun _ _ => rfl
      have := k1.append k2
      simpa [list] using this
    have := puts_list L (fun x => [Cb.mapKey x.1.1, .mapValue x.2.1]) _ (b := .mapBegin n) (fun _ _ => rfl)
      (e := .mapEnd) (fun _ _ => rfl) key
    simpa [shown, shownMap_map, Function.comp_def] using this
  | tuple m n L h =>
    exact puts_tupleL (fun _ _ => rfl) L h fun x hx => by
      simpa [Impl.has] using hI (.tupleValue x.1 x.2.1 x.2.2.1)
        (List.mem_cons_of_mem _ (List.mem_append_left _ (List.mem_map.2 ⟨x, hx, rfl⟩)))
  | record m n L h =>
    exact puts_recordL (fun _ _ => rfl) L h fun x hx => by
      simpa [Impl.has] using hI (.recordValue x.1 x.2.1 x.2.2.1)
        (List.mem_cons_of_mem _ (List.mem_append_left _ (List.mem_map.2 ⟨x, hx, rfl⟩)))
  | enum m X v h =>
    have h1 : Puts env float [.enumBegin m] [] := puts_one fun _ _ => by simp [recStep]
    have := h1.append (puts_variant h fun c hc => hI c (by simp [hc]))
    simpa [shown] using this

/-! ## What is printed for the tree that it sees -/

theorem intV_min (t : IntTy) (n : Int) :
    intV {} t n = .int .i64 n ∨ (intV {} t n = text (intDec n) ∧ t ∉ [.i8, .i16, .i32, .i64] ∧ ¬ IntTy.i64.fits n = true) := by
  cases t <;> by_cases h : IntTy.i64.fits n = true <;> simp [intV, wider, h, taggedV]

theorem intV_shown (t : IntTy) (n : Int) : shown (recText env) float (intV {} t n) = int (recText env) t n := by
  have ht : recText env (intDecFrags n) = recText env [intDec n] := by simp [recText, LowV.intDecFrags_flatten]
  cases t <;> by_cases h : IntTy.i64.fits n = true <;> simp [intV, wider, h, taggedV, shown, int, text, ht, Frag.content]

theorem supported_int (t : IntTy) (n : Int) : supported (intV {} t n) = true := by
  rcases intV_min t n with h | h
  · rw [h]; rfl
  · rw [h.1]; rfl

theorem supported_lower (v : V) :
    supported (Nested.lower {} v) = supported v ∧ supported (lowerVariant {} v) = supported v ∧
      ∀ b, variant b (lowerVariant {} v) = variant b v := by
  induction v using V.ind with
  | int t n => exact ⟨supported_int t n, rfl, fun _ => rfl⟩
  | binary n fs =>
    refine ⟨?_, rfl, fun _ => rfl⟩
    simp only [Nested.lower, Bool.false_eq_true, if_false, supported]
    generalize (fs.map Frag.content).flatten = s
    induction s with
    | nil => rfl
    | cons x s ih => simp only [List.map_cons, supportedSeq, supported_int, Bool.true_and, ih]
  | tag m =>
    refine ⟨?_, rfl, fun _ => rfl⟩
    simp only [Nested.lower, taggedV, tagV, Bool.false_eq_true, if_false, supported]
    split
    · rfl
    · split <;> rfl
  | tagged m v ih =>
    simp only [Nested.lower, lowerVariant, taggedV, Bool.false_eq_true, if_false, supported, variant, ih.1, and_self, implies_true]
  | enum m v ih => simp only [Nested.lower, lowerVariant, supported, variant, ih.2.1, ih.2.2, and_self, implies_true]
  | seq n xs ih =>
    refine ⟨?_, rfl, fun _ => rfl⟩
    simp only [Nested.lower, supported]
    induction xs with
    | nil => rfl
    | cons x xs ih' => simp only [lowerSeq, supportedSeq, (ih x (by simp)).1, ih' fun y hy => ih y (by simp [hy])]
  | map n xs ih =>
    refine ⟨?_, rfl, fun _ => rfl⟩
    simp only [Nested.lower, supported]
    induction xs with
    | nil => rfl
    | cons x xs ih' =>
      obtain ⟨k, v⟩ := x
      simp only [lowerMap, supportedMap, (ih (k, v) (by simp)).1.1, (ih (k, v) (by simp)).2.1, ih' fun y hy => ih y (by simp [hy])]
  | record m n xs ih =>
    have h : supportedRec (lowerRec {} xs) = supportedRec xs := by
      induction xs with
      | nil => rfl
      | cons x xs ih' =>
        obtain ⟨t, l, v⟩ := x
        simp only [lowerRec, supportedRec, (ih (t, l, v) (by simp)).1, ih' fun y hy => ih y (by simp [hy])]
    exact ⟨h, h, fun _ => rfl⟩
  | tuple m n xs ih =>
    have h : supportedTup (lowerTup {} xs) = supportedTup xs := by
      induction xs with
      | nil => rfl
      | cons x xs ih' =>
        obtain ⟨t, l, v⟩ := x
        simp only [lowerTup, supportedTup, (ih (t, l, v) (by simp)).1, ih' fun y hy => ih y (by simp [hy])]
    exact ⟨h, h, fun _ => rfl⟩
  | _ => exact ⟨rfl, rfl, fun _ => rfl⟩

theorem shown_lower (v : V) : shown (recText env) float (Nested.lower {} v) = shown (recText env) float v ∧
    shown (recText env) float (lowerVariant {} v) = shown (recText env) float v := by
  induction v using V.ind with
  | int t n => exact ⟨intV_shown t n, rfl⟩
  | binary n fs =>
    refine ⟨?_, rfl⟩
    simp only [Nested.lower, Bool.false_eq_true, if_false, shown, shownSeq_map, List.map_map, Function.comp_def, fragsBytes]
    congr 1
    refine List.map_congr_left fun b _ => ?_
    have hf : IntTy.i64.fits (b.toNat : Int) = true := by
      have := b.toNat_lt
      rw [IntTy.fits_iff]
      simp only [IntTy.min, IntTy.max]
      omega
    rw [intV_shown]
    simp [int, hf]
  | tag m =>
    refine ⟨?_, rfl⟩
    simp only [Nested.lower, taggedV, tagV, Bool.false_eq_true, if_false]
    simp only [shown]
    split
    · rfl
    · cases m.label <;> rfl
  | tagged m v ih =>
    simp only [Nested.lower, lowerVariant, taggedV, Bool.false_eq_true, if_false, shown, ih.1, and_self]
  | enum m v ih => simp only [Nested.lower, lowerVariant, shown, ih.2, and_self]
  | seq n xs ih =>
    refine ⟨?_, rfl⟩
    simp only [Nested.lower, shown, shownSeq_map, lowerSeq_map, List.map_map]
    congr 1
    exact List.map_congr_left fun x hx => (ih x hx).1
  | map n xs ih =>
    refine ⟨?_, rfl⟩
    simp only [Nested.lower, shown, shownMap_map, lowerMap_map, List.map_map]
    congr 1
    exact List.map_congr_left fun x hx => by simp only [Function.comp_apply, (ih x hx).1.1, (ih x hx).2.1]
  | record m n xs ih =>
    have h : shownRec (recText env) float (lowerRec {} xs) = shownRec (recText env) float xs := by
      simp only [shownRec_map, lowerRec_map, List.map_map]
      exact List.map_congr_left fun x hx => by simp only [Function.comp_apply, (ih x hx).1]
    simp only [Nested.lower, lowerVariant, shown, h, and_self]
  | tuple m n xs ih =>
    have h : shownTup (recText env) float (lowerTup {} xs) = shownTup (recText env) float xs := by
      simp only [shownTup_map, lowerTup_map, List.map_map]
      exact List.map_congr_left fun x hx => by simp only [Function.comp_apply, (ih x hx).1]
    simp only [Nested.lower, lowerVariant, shown, h, and_self]
  | _ => exact ⟨rfl, rfl⟩

theorem shown_seen (v : V) : shown (recText env) float (seen v) = shown (recText env) float v := by
  have own : ∀ l : Label, l.toOwned.text = l.text := fun l => by simp only [Label.toOwned]; split <;> rfl
  induction v using V.ind with
  | text n fs => simp [seen, text, shown, recText, Frag.content]
  | binary n fs => simp [seen, binary, shown, fragsBytes, Frag.content]
  | tag m => exact shown_own m
  | tagged m v ih => exact ih
  | enum m v ih => exact ih
  | hint t v ih => exact ih
  | seq n xs ih =>
    simp only [seen, shown]; congr 1
    induction xs with
    | nil => rfl
    | cons x xs ih' => simp only [seenSeq, shownSeq, ih x (by simp), ih' fun y hy => ih y (by simp [hy])]
  | map n xs ih =>
    simp only [seen, shown]; congr 1
    induction xs with
    | nil => rfl
    | cons x xs ih' =>
      obtain ⟨k, v⟩ := x
      simp only [seenMap, shownMap, (ih (k, v) (by simp)).1, (ih (k, v) (by simp)).2, ih' fun y hy => ih y (by simp [hy])]
  | record m n xs ih =>
    simp only [seen, shown]; congr 1
    induction xs with
    | nil => rfl
    | cons x xs ih' =>
      obtain ⟨t, l, v⟩ := x
      simp only [seenRec, shownRec, own, ih (t, l, v) (by simp), ih' fun y hy => ih y (by simp [hy])]
  | tuple m n xs ih =>
    simp only [seen, shown]; congr 1
    induction xs with
    | nil => rfl
    | cons x xs ih' =>
      obtain ⟨t, l, v⟩ := x
      simp only [seenTup, shownTup, ih (t, l, v) (by simp), ih' fun y hy => ih y (by simp [hy])]
  | recordTuple m n xs ih =>
    simp only [seen, shown]; congr 1
    induction xs with
    | nil => rfl
    | cons x xs ih' =>
      obtain ⟨t, l, i, v⟩ := x
      simp only [seenRT, shownRec, shownRT, own, ih (t, l, i, v) (by simp), ih' fun y hy => ih y (by simp [hy])]
  | _ => rfl

theorem puts_gets (k : Nat) : ∀ (v : V), sizeOf v ≤ k → supported v = true → ∀ a : Arg, a.borrowed = false → Gets {} a v →
    PutsArg env float a (shown (recText env) float v) := by
  induction k with
  | zero => intro v hn; cases v <;> simp at hn
  | succ k ih =>
    intro v hk hs a ha hg
    refine puts_of_gets ha (fun X hI hX => ?_) hg
    exact puts_opened (hX.imp hs fun b w hw hsw hb c => ih w (by omega) hsw _ c hb) hI

end

end Sval.Examples
