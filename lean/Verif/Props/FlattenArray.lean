import Verif.Props.FlattenJson

set_option autoImplicit false

/-!
# Properties of flattened fields written as JSON, where there are no names: C69

Structs without names for their fields are arrays. Arrays flattened into structs with names are numbered.
-/

namespace Sval

open Rust
open Json (J Env Doc parse consO pairO)
open Derive (Field Attrs FV stream ftree ftrees fok structRows flatRows keyText)

/-- The values in an array or an object. -/
def partsOf : Option J → Option (List J)
  | some (.arr js) => some js
  | some (.obj kvs) => some (kvs.map (·.2))
  | _ => none

/-- The elements that fields without names should have: a flattened field has the values that are in its own. -/
def flatParts : List (Field × Option J) → Option (List J)
  | [] => some []
  | (f, j) :: r => if f.flatten then appendO (partsOf j) (flatParts r) else consO j (flatParts r)

/-- The members of an object; the elements of an array, numbered from `n`. -/
def numberedOf (n : Nat) : Option J → Option (List (Text × J))
  | some (.obj kvs) => some kvs
  | some (.arr js) => some ((js.zipIdx n).map fun x => (natDec x.2, x.1))
  | _ => none

/-- The members that fields with names should have, if arrays are flattened too: their elements are numbered, from the
number of members before them. Fields that are not flattened count if `counts` says so. -/
def flatNumbered (counts : Bool) : Nat → List (Field × Option J) → Option (List (Text × J))
  | _, [] => some []
  | n, (f, j) :: r =>
    if f.flatten then (numberedOf n j).bind fun kvs => (flatNumbered counts (n + kvs.length) r).map (kvs ++ ·)
    else consO (pairO (some (Derive.name f).text) j) (flatNumbered counts (if counts then n + 1 else n) r)

/-- Values that are arrays in JSON, and have entries to flatten. -/
def spreadSeq : V → Bool
  | .seq _ _ | .tuple _ _ _ => true
  | .tagged m v => !Json.isSpecialTag m.tag && spreadSeq v
  | .hint _ v => spreadSeq v
  | _ => false

/-- Values that are arrays or objects in JSON, and have entries to flatten. -/
def opens : V → Bool
  | .seq _ _ | .tuple _ _ _ | .record _ _ _ | .recordTuple _ _ _ | .map _ _ => true
  | .tagged m v => !Json.isSpecialTag m.tag && opens v
  | .hint _ v => opens v
  | _ => false

theorem allO_snd {α : Type} (f : α → Option Text) (g : α → Option J) (xs : List α) (kvs : List (Text × J))
    (h : allO (xs.map fun x => pairO (f x) (g x)) = some kvs) : allO (xs.map g) = some (kvs.map (·.2)) := by
  induction xs generalizing kvs with
  | nil => cases h; rfl
  | cons x xs ih =>
    simp only [List.map_cons, allO, consO, pairO] at h ⊢
    cases h1 : f x <;> cases h2 : g x <;> cases h3 : allO (xs.map fun x => pairO (f x) (g x)) <;>
      simp only [pairO] at h3 <;>
      simp [h1, h2, h3] at h
    subst h
    rw [ih _ h3]
    rfl

theorem opens_entries (env : Env) (v : V) (h : opens v = true) :
    (∀ js, partsOf (Json.value env v) = some js → allO ((Flatten.entries v).map fun e => Json.value env e.val) = some js) ∧
    (Json.safe v = true → ∀ e ∈ Flatten.entries v, Json.safe e.val = true) := by
  have hm : ∀ (x : Option (List (Text × J))) js, partsOf (x.map .obj) = some js → ∃ kvs, x = some kvs ∧ js = kvs.map (·.2) := by
    intro x js h; cases x with
    | none => cases h
    | some x => cases h; exact ⟨x, rfl, rfl⟩
  have ha : ∀ x : Option (List J), partsOf (x.map .arr) = x := fun x => by cases x <;> rfl
  induction v using V.ind <;> try (cases h; done)
  case seq n xs _ =>
    rw [Json.value, ha, json_values, Flatten.entries, List.map_map]
    refine ⟨fun _ => id, fun hs e he => ?_⟩
    obtain ⟨x, hx, rfl⟩ := List.mem_map.mp he
    rw [Json.safe] at hs
    exact (safes_iff xs).1 hs x hx
  case tuple m n fs _ =>
    rw [Json.value, ha, json_items, Flatten.entries, List.map_map]
    refine ⟨fun _ => id, fun hs e he => ?_⟩
    obtain ⟨x, hx, rfl⟩ := List.mem_map.mp he
    rw [Json.safe, safeItems_iff] at hs
    exact hs x hx
  case map n kvs _ =>
    rw [Json.value, json_entries, Flatten.entries, List.map_map]
    refine ⟨fun js hj => ?_, fun hs e he => ?_⟩
    · obtain ⟨kvs, h1, rfl⟩ := hm _ _ hj
      exact allO_snd _ _ _ _ h1
    · obtain ⟨x, hx, rfl⟩ := List.mem_map.mp he
      rw [Json.safe, safeEntries_iff] at hs
      exact (hs x hx).1.2
  case record m n fs _ =>
    rw [Json.value, json_fields, Flatten.entries, List.map_map]
    refine ⟨fun js hj => ?_, fun hs e he => ?_⟩
    · obtain ⟨kvs, h1, rfl⟩ := hm _ _ hj
      exact allO_snd _ _ _ _ h1
    · obtain ⟨x, hx, rfl⟩ := List.mem_map.mp he
      rw [Json.safe, safeFields_iff] at hs
      exact hs x hx
  case recordTuple m n fs _ =>
    rw [Json.value, json_fieldsRT, Flatten.entries, List.map_map]
    refine ⟨fun js hj => ?_, fun hs e he => ?_⟩
    · obtain ⟨kvs, h1, rfl⟩ := hm _ _ hj
      exact allO_snd _ _ _ _ h1
    · obtain ⟨x, hx, rfl⟩ := List.mem_map.mp he
      rw [Json.safe, safeRT_iff] at hs
      exact hs x hx
  case tagged m v ih =>
    rw [opens, Bool.and_eq_true] at h
    have hs : Json.isSpecialTag m.tag = false := by simpa using h.1
    simp only [Json.value, Json.safe, hs, Bool.false_eq_true, if_false, Flatten.entries]
    exact ih h.2
  case hint n v ih => exact ih h

theorem appendO_some {α : Type} {x y : Option (List α)} {zs : List α} (h : appendO x y = some zs) :
    ∃ xs ys, x = some xs ∧ y = some ys ∧ zs = xs ++ ys := by
  cases x <;> cases y <;> simp [appendO] at h
  exact ⟨_, _, rfl, rfl, h.symm⟩

theorem consO_some {α : Type} {x : Option α} {y : Option (List α)} {zs : List α} (h : consO x y = some zs) :
    ∃ a ys, x = some a ∧ y = some ys ∧ zs = a :: ys := by
  cases x <;> cases y <;> simp [consO] at h
  exact ⟨_, _, rfl, rfl, h.symm⟩

theorem contents_json (env : Env) (rs : List (Field × V)) (hf : ∀ r ∈ rs, r.1.flatten = true → opens r.2 = true)
    (hp : ∀ r ∈ rs, plainTag r.1.dataTag = true) :
    (∀ js, flatParts (rs.map fun r => (r.1, Json.value env r.2)) = some js →
      allO ((rs.flatMap Derive.contents).map (Json.value env)) = some js) ∧
    ((∀ r ∈ rs, Json.safe r.2 = true) → ∀ v ∈ rs.flatMap Derive.contents, Json.safe v = true) := by
  induction rs with
  | nil => exact ⟨fun _ => id, fun _ v hv => by cases hv⟩
  | cons r rs ih =>
    obtain ⟨f, v⟩ := r
    have ih := ih (fun r h => hf r (.tail _ h)) (fun r h => hp r (.tail _ h))
    rw [List.map_cons, flatParts, List.flatMap_cons, Derive.contents]
    cases hfl : f.flatten with
    | true =>
      obtain ⟨h1, h2⟩ := opens_entries env v (hf (f, v) (.head _) hfl)
      simp only [if_true, List.map_append, allO_append, List.map_map]
      refine ⟨fun js hj => ?_, fun hs x hx => ?_⟩
      · obtain ⟨xs, ys, e1, e2, rfl⟩ := appendO_some hj
        have := h1 _ e1
        simp only [Function.comp_def, this, ih.1 _ e2]
        rfl
      · rcases List.mem_append.mp hx with h | h
        · obtain ⟨e, he, rfl⟩ := List.mem_map.mp h
          exact h2 (hs (f, v) (.head _)) e he
        · exact ih.2 (fun r h => hs r (.tail _ h)) x h
    | false =>
      simp only [Bool.false_eq_true, if_false, List.cons_append, List.nil_append, List.map_cons, allO]
      refine ⟨fun js hj => ?_, fun hs x hx => ?_⟩
      · obtain ⟨a, ys, e1, e2, rfl⟩ := consO_some hj
        rw [value_data env f v (hp (f, v) (.head _)), e1, ih.1 _ e2]
        rfl
      · rcases List.mem_cons.mp hx with rfl | h
        · rw [safe_data f v (hp (f, v) (.head _))]; exact hs (f, v) (.head _)
        · exact ih.2 (fun r h => hs r (.tail _ h)) x h

theorem ftrees_map (K : V → Text) (xs : List FV) : ftrees K xs = xs.map (ftree K) := by
  induction xs with
  | nil => rfl
  | cons x xs ih => rw [ftrees, ih]; rfl

/-- C69 for structs without names for their fields: one array, in which a flattened field has the values of the array or
object its value is by itself. -/
theorem C69_array_partial (env : Env) (ryu : UInt64 → Text) (named : Bool) (name : Text) (at' : Attrs) (fs : List Field) (xs : List FV)
    (js : List J) (hx : fok (keyText ryu) (.struct named name at' fs xs)) (hp : fs.all plainField = true)
    (ha : plainTag at'.tag = true) (hl : Derive.labeled named at' (Derive.rows fs xs) = false)
    (hf : ∀ r ∈ Derive.rows fs (ftrees (keyText ryu) xs), Json.safe r.2 = true ∧ (r.1.flatten = true → opens r.2 = true))
    (hj : flatParts (Derive.rows fs ((ftrees (keyText ryu) xs).map (Json.value env))) = some js) :
    ∃ t, jsonOf env (stream true ryu (.struct named name at' fs xs)) = some t ∧ parse t = some (.arr js) ∧
      ∀ j, Doc j t → j = .arr js := by
  rw [jsonOf_value env _ _ fun S s => (C40_exact ryu _ hx S s).1]
  have hl' : Derive.labeled named at' (Derive.rows fs (ftrees (keyText ryu) xs)) = false := by
    rw [← hl, ftrees_map, rows_map]
    exact labeled_map (fun r => (r.1, ftree (keyText ryu) r.2)) (fun _ => rfl) _ _ _
  rw [rows_map] at hj
  obtain ⟨h1, h2⟩ := contents_json env (Derive.rows fs (ftrees (keyText ryu) xs)) (fun r h => (hf r h).2)
    (fun r h => (rows_plain hp _ r h).1)
  have h1 := h1 _ hj
  have h2 := h2 fun r h => (hf r h).1
  have hv := fun c fc => Derive.structRows_values (keyText ryu) c fc 0 false 0 (Derive.rows fs (ftrees (keyText ryu) xs))
  refine C20_round_trip_partial env _ (.arr js) ?_ ?_
  · simp only [ftree, Derive.flatTree, hl']
    cases Derive.indexed at' (Derive.rows fs (ftrees (keyText ryu) xs))
    · simp only [Json.value, plainTag_special _ ha, Bool.false_eq_true, if_false, json_values, hv, h1]
      rfl
    · simp only [Json.value, json_items, List.map_map]
      rw [← hv true true, List.map_map] at h1
      simp only [Function.comp_def] at h1 ⊢
      rw [h1]
      rfl
  · simp only [ftree, Derive.flatTree, hl']
    cases Derive.indexed at' (Derive.rows fs (ftrees (keyText ryu) xs))
    · simp only [Json.safe, plainTag_special _ ha, Bool.false_eq_true, if_false, hv]
      exact (safes_iff _).2 h2
    · simp only [Json.safe, safeItems_iff]
      intro x hx
      obtain ⟨r, hr, rfl⟩ := List.mem_map.mp hx
      refine h2 _ ?_
      rw [← hv true true]
      exact List.mem_map_of_mem hr

/-! ## Arrays flattened into structs with names -/

theorem spreadSeq_entries (env : Env) (v : V) (h : spreadSeq v = true) :
    Json.value env v = (allO ((Flatten.entries v).map fun e => Json.value env e.val)).map .arr ∧
    (∀ e ∈ Flatten.entries v, e.key = none ∧ e.label = none) ∧
    (Json.safe v = true → ∀ e ∈ Flatten.entries v, Json.safe e.val = true) := by
  induction v using V.ind <;> try (cases h; done)
  case seq n xs _ =>
    rw [Json.value, json_values, Flatten.entries, List.map_map]
    refine ⟨rfl, fun e he => ?_, fun hs e he => ?_⟩
    · obtain ⟨x, hx, rfl⟩ := List.mem_map.mp he; exact ⟨rfl, rfl⟩
    · obtain ⟨x, hx, rfl⟩ := List.mem_map.mp he
      rw [Json.safe] at hs
      exact (safes_iff xs).1 hs x hx
  case tuple m n fs _ =>
    rw [Json.value, json_items, Flatten.entries, List.map_map]
    refine ⟨rfl, fun e he => ?_, fun hs e he => ?_⟩
    · obtain ⟨x, hx, rfl⟩ := List.mem_map.mp he; exact ⟨rfl, rfl⟩
    · obtain ⟨x, hx, rfl⟩ := List.mem_map.mp he
      rw [Json.safe, safeItems_iff] at hs
      exact hs x hx
  case tagged m v ih =>
    rw [spreadSeq, Bool.and_eq_true] at h
    have hs : Json.isSpecialTag m.tag = false := by simpa using h.1
    simp only [Json.value, Json.safe, hs, Bool.false_eq_true, if_false, Flatten.entries]
    exact ih h.2
  case hint n v ih => exact ih h

theorem allO_length {α : Type} (xs : List (Option α)) (ys : List α) (h : allO xs = some ys) : ys.length = xs.length := by
  induction xs generalizing ys with
  | nil => cases h; rfl
  | cons x xs ih =>
    obtain ⟨a, zs, e1, e2, rfl⟩ := consO_some h
    simp [ih _ e2]

theorem numbered_json (env : Env) (es : List Flatten.Entry) (n : Nat) (js : List J)
    (h : allO (es.map fun e => Json.value env e.val) = some js) :
    allO (es.mapIdx fun j e => pairO (some (intDec ((n : Int) + (j : Int)))) (Json.value env e.val)) =
      some ((js.zipIdx n).map fun x => (natDec x.2, x.1)) := by
  induction es generalizing n js with
  | nil => cases h; rfl
  | cons e es ih =>
    obtain ⟨a, ys, e1, e2, rfl⟩ := consO_some h
    have := ih (n + 1) ys e2
    have hn : ∀ j : Nat, ((n + 1 : Nat) : Int) + (j : Int) = (n : Int) + ((j + 1 : Nat) : Int) := by intro j; omega
    simp only [hn] at this
    have hd : intDec ((n : Int) + ((0 : Nat) : Int)) = natDec n := by
      rw [intDec, if_neg (by omega)]
      simp
    rw [List.mapIdx_cons, allO, this, show Json.value env e.val = some a from e1, hd]
    simp [consO, pairO, List.zipIdx_cons]

theorem spread_obj (env : Env) (v : V) (h : spread v = true) (j : J) (hj : Json.value env v = some j) : ∃ ms, j = .obj ms := by
  induction v using V.ind <;> try (cases h; done)
  case map m kvs _ =>
    rw [Json.value] at hj
    obtain ⟨ms, _, rfl⟩ := Option.map_eq_some_iff.mp hj
    exact ⟨_, rfl⟩
  case record m k fs _ =>
    rw [Json.value] at hj
    obtain ⟨ms, _, rfl⟩ := Option.map_eq_some_iff.mp hj
    exact ⟨_, rfl⟩
  case recordTuple m k fs _ =>
    rw [Json.value] at hj
    obtain ⟨ms, _, rfl⟩ := Option.map_eq_some_iff.mp hj
    exact ⟨_, rfl⟩
  case tagged m v ih =>
    rw [spread, Bool.and_eq_true] at h
    have hs : Json.isSpecialTag m.tag = false := by simpa using h.1
    simp only [Json.value, hs, Bool.false_eq_true, if_false] at hj
    exact ih h.2 hj
  case hint m v ih =>
    rw [Json.value] at hj
    exact ih h hj

theorem structRows_numbered (env : Env) (ryu : UInt64 → Text) (c : Bool) (i : Int) (n : Nat) (rs : List (Field × V))
    (hi : ∀ r ∈ rs, r.1.index = none)
    (hd : ∀ r ∈ rs, r.1.flatten = true → ∀ (j : Nat) (h : j < (Flatten.entries r.2).length),
      (Flatten.entries r.2)[j].index = none ∨ (Flatten.entries r.2)[j].index = some ⟨j, some tags.VALUE_OFFSET⟩)
    (hf : ∀ r ∈ rs, r.1.flatten = true → (spread r.2 || spreadSeq r.2) = true)
    (hp : ∀ r ∈ rs, plainTag r.1.dataTag = true ∧ Json.labelText (Derive.name r.1) = some (Derive.name r.1).text)
    (hn : n + (rs.flatMap Derive.contents).length < 2 ^ 63) (kvs : List (Text × J))
    (hj : flatNumbered c n (rs.map fun r => (r.1, Json.value env r.2)) = some kvs) :
    allO ((structRows (keyText ryu) c true i false n rs).map fun r => pairO (Json.labelText r.2.1) (Json.value env r.2.2.2)) = some kvs := by
  induction rs generalizing i n kvs with
  | nil => exact hj
  | cons r rs ih =>
    obtain ⟨f, v⟩ := r
    have hi0 : f.index = none := hi (f, v) (.head _)
    have ih := fun i n => ih i n (fun r h => hi r (.tail _ h)) (fun r h => hd r (.tail _ h)) (fun r h => hf r (.tail _ h))
      (fun r h => hp r (.tail _ h))
    rw [List.flatMap_cons, List.length_append] at hn
    rw [List.map_cons, flatNumbered] at hj
    rw [structRows, hi0]
    cases hfl : f.flatten with
    | true =>
      have hc : (Derive.contents (f, v)).length = (Flatten.entries v).length := by simp [Derive.contents, hfl]
      rw [hc] at hn
      have hdense := (number_dense n (by omega) (Flatten.entries v) 0 (by simp only [Flatten.isIsize]; omega) (by
        intro j hj
        have := hd (f, v) (.head _) hfl j hj
        simpa using this)).2
      simp only [Int.natCast_zero, Int.add_zero] at hdense
      simp only [hfl, if_true] at hj
      simp only [if_true, Option.isSome_none, Bool.or_false, List.map_append, allO_append, flatRows, hdense]
      rw [List.map_map]
      have hrow : ∀ g : Flatten.Entry × Index → Option (Text × J),
          ((Flatten.entries v).mapIdx fun j e => (e, (⟨(n : Int) + j, some tags.VALUE_OFFSET⟩ : Index))).map g =
            (Flatten.entries v).mapIdx fun j e => g (e, ⟨(n : Int) + j, some tags.VALUE_OFFSET⟩) := by
        intro g
        rw [List.mapIdx_eq_zipIdx_map, List.mapIdx_eq_zipIdx_map, List.map_map]
        rfl
      rw [hrow]
      have hfl' := hf (f, v) (.head _) hfl
      rw [Bool.or_eq_true] at hfl'
      rcases hfl' with hs | hs
      · obtain ⟨h1, h2, _⟩ := spread_entries env ryu v hs
        have hv : ∃ ms, Json.value env v = some (.obj ms) := by
          cases hj' : Json.value env v with
          | none => rw [hj'] at hj; cases hj
          | some j => obtain ⟨ms, rfl⟩ := spread_obj env v hs j hj'; exact ⟨ms, rfl⟩
        obtain ⟨ms, hv⟩ := hv
        rw [hv] at hj h1
        obtain ⟨ks, hk, rfl⟩ := Option.map_eq_some_iff.mp hj
        have hlen : ms.length = (Flatten.entries v).length := by simpa using allO_length _ _ h1.symm
        rw [hlen] at hk
        have := ih (Derive.nextIndex i none) (n + (Flatten.entries v).length) (by omega) ks hk
        push_cast at this
        rw [this]
        have h3 : allO ((Flatten.entries v).mapIdx fun j e => pairO (Json.labelText (Flatten.labelOf (keyText ryu) e
            ⟨(n : Int) + j, some tags.VALUE_OFFSET⟩)) (Json.value env e.val)) = some ms := by
          rw [show some ms = _ from h1, List.mapIdx_eq_zipIdx_map]
          conv => rhs; rw [← List.zipIdx_map_fst 0 (Flatten.entries v), List.map_map]
          congr 1
          refine List.map_congr_left fun x hx => ?_
          have := h2 x.1 (List.fst_mem_of_mem_zipIdx hx)
          simp only [Function.comp]
          congr 2
          unfold Flatten.labelOf
          rcases this with h | h
          · obtain ⟨k, hk⟩ := Option.isSome_iff_exists.mp h; rw [hk]
          · obtain ⟨l, hk⟩ := Option.isSome_iff_exists.mp h; rw [hk]; cases x.1.key <;> rfl
        simp only [Function.comp] 
        rw [h3]
        rfl
      · obtain ⟨h1, h2, _⟩ := spreadSeq_entries env v hs
        rw [h1] at hj
        cases ha : allO ((Flatten.entries v).map fun e => Json.value env e.val) with
        | none => rw [ha] at hj; cases hj
        | some js =>
          rw [ha] at hj
          obtain ⟨ks, hk, rfl⟩ := Option.map_eq_some_iff.mp hj
          have hlen : js.length = (Flatten.entries v).length := by simpa using allO_length _ _ ha
          rw [List.length_map, List.length_zipIdx, hlen] at hk
          have := ih (Derive.nextIndex i none) (n + (Flatten.entries v).length) (by omega) ks hk
          push_cast at this
          rw [this]
          have h3 := numbered_json env _ n _ ha
          have h4 : ((Flatten.entries v).mapIdx fun j e => pairO (Json.labelText (Flatten.labelOf (keyText ryu) e
            ⟨(n : Int) + j, some tags.VALUE_OFFSET⟩)) (Json.value env e.val)) =
              (Flatten.entries v).mapIdx fun j e => pairO (some (intDec ((n : Int) + (j : Int)))) (Json.value env e.val) := by
            rw [List.mapIdx_eq_zipIdx_map, List.mapIdx_eq_zipIdx_map]
            refine List.map_congr_left fun x hx => ?_
            obtain ⟨k1, k2⟩ := h2 x.1 (List.fst_mem_of_mem_zipIdx hx)
            simp only [Flatten.labelOf, k1, k2]
            rfl
          simp only [Function.comp]
          rw [h4, h3]
          rfl
    | false =>
      have hc : (Derive.contents (f, v)).length = 1 := by simp [Derive.contents, hfl]
      rw [hc] at hn
      obtain ⟨hp1, hp2⟩ := hp (f, v) (.head _)
      simp only [hfl, Bool.false_eq_true, if_false] at hj
      obtain ⟨a, ks, e1, e2, rfl⟩ := consO_some hj
      have := ih (Derive.nextIndex i none) (if c then n + 1 else n) (by split <;> omega) ks e2
      simp only [Bool.false_eq_true, if_false, Option.isSome_none, Option.isNone_none, Bool.or_false, Bool.not_false, Bool.and_true,
        List.map_cons, allO, hp2, value_data env f v hp1, e1]
      cases c
      · simp only [Bool.false_eq_true, if_false] at this ⊢
        rw [this]; rfl
      · simp only [if_true] at this ⊢
        push_cast at this
        rw [this]; rfl

theorem opens_of_spread (v : V) (h : (spread v || spreadSeq v) = true) : opens v = true := by
  induction v using V.ind <;> try (cases h; done)
  case tagged m v ih =>
    rw [spread, spreadSeq, ← Bool.and_or_distrib_left, Bool.and_eq_true] at h
    rw [opens, Bool.and_eq_true]
    exact ⟨h.1, ih h.2⟩
  case hint n v ih => exact ih h
  all_goals rfl

/-- C69 for structs with names for their fields, into which arrays are flattened too: one object, in which a flattened
object has the members it has by itself, and the elements of a flattened array are numbered. As in C40, fields have no
explicit indexes, and flattened values none other than offsets. -/
theorem C69_numbered_partial (env : Env) (ryu : UInt64 → Text) (named : Bool) (name : Text) (at' : Attrs) (fs : List Field) (xs : List FV)
    (kvs : List (Text × J)) (hx : fok (keyText ryu) (.struct named name at' fs xs)) (hp : fs.all plainField = true)
    (hl : Derive.labeled named at' (Derive.rows fs xs) = true)
    (hi : ∀ r ∈ Derive.rows fs (ftrees (keyText ryu) xs), r.1.index = none)
    (hd : ∀ r ∈ Derive.rows fs (ftrees (keyText ryu) xs), r.1.flatten = true → ∀ (j : Nat) (h : j < (Flatten.entries r.2).length),
      (Flatten.entries r.2)[j].index = none ∨ (Flatten.entries r.2)[j].index = some ⟨j, some tags.VALUE_OFFSET⟩)
    (hf : ∀ r ∈ Derive.rows fs (ftrees (keyText ryu) xs), Json.safe r.2 = true ∧ (r.1.flatten = true → (spread r.2 || spreadSeq r.2) = true))
    (hn : (fieldValues (ftree (keyText ryu) (.struct named name at' fs xs))).length < 2 ^ 63)
    (hj : flatNumbered (Derive.indexed at' (Derive.rows fs xs)) 0
      (Derive.rows fs ((ftrees (keyText ryu) xs).map (Json.value env))) = some kvs) :
    ∃ t, jsonOf env (stream true ryu (.struct named name at' fs xs)) = some t ∧ parse t = some (.obj kvs) ∧
      ∀ j, Doc j t → j = .obj kvs := by
  rw [jsonOf_value env _ _ fun S s => (C40_exact ryu _ hx S s).1]
  have hl' : Derive.labeled named at' (Derive.rows fs (ftrees (keyText ryu) xs)) = true := by
    rw [← hl, ftrees_map, rows_map]
    exact labeled_map (fun r => (r.1, ftree (keyText ryu) r.2)) (fun _ => rfl) _ _ _
  have hi' : Derive.indexed at' (Derive.rows fs (ftrees (keyText ryu) xs)) = Derive.indexed at' (Derive.rows fs xs) := by
    rw [ftrees_map, rows_map, Derive.indexed, List.isEmpty_map, Derive.indexed]
  rw [C40_values] at hn
  rw [rows_map] at hj
  have key := structRows_numbered env ryu (Derive.indexed at' (Derive.rows fs xs)) 0 0 _ hi hd (fun r h => (hf r h).2) (rows_plain hp _)
    (by rw [Nat.zero_add]; exact hn) kvs hj
  obtain ⟨_, h2⟩ := contents_json env (Derive.rows fs (ftrees (keyText ryu) xs)) (fun r h hfl => opens_of_spread _ ((hf r h).2 hfl))
    (fun r h => (rows_plain hp _ r h).1)
  have h2 := h2 fun r h => (hf r h).1
  have hv := fun c fc => Derive.structRows_values (keyText ryu) c fc 0 false 0 (Derive.rows fs (ftrees (keyText ryu) xs))
  have hs : ∀ c fc, ∀ r ∈ structRows (keyText ryu) c fc 0 false 0 (Derive.rows fs (ftrees (keyText ryu) xs)), Json.safe r.2.2.2 = true := by
    intro c fc r hr
    refine h2 _ ?_
    rw [← hv c fc]
    exact List.mem_map_of_mem hr
  refine C20_round_trip_partial env _ (.obj kvs) ?_ ?_
  · simp only [ftree, Derive.flatTree, hl', hi']
    revert key
    cases Derive.indexed at' (Derive.rows fs xs) <;> intro key
    · simp only [Json.value, json_fields, List.map_map, Function.comp_def]
      exact congrArg (Option.map J.obj) key
    · simp only [Json.value, json_fieldsRT]
      exact congrArg (Option.map J.obj) key
  · simp only [ftree, Derive.flatTree, hl', hi']
    cases Derive.indexed at' (Derive.rows fs xs)
    · simp only [Json.safe, safeFields_iff]
      intro x hx
      obtain ⟨r, hr, rfl⟩ := List.mem_map.mp hx
      exact hs _ _ r hr
    · simp only [Json.safe, safeRT_iff]
      exact hs _ _

/-- `struct P(u8, #[sval(flatten)] (bool, u8), #[sval(flatten)] B, u8)`, or with names `a`, `b`, `c`, `d`, of which `b` is a
`Vec`. -/
def arrayFields (named : Bool) : List Field := [{ ident := if named then some (t! "a") else none },
  { ident := if named then some (t! "b") else none, flatten := true }, { ident := if named then some (t! "c") else none, flatten := true },
  { ident := if named then some (t! "d") else none }]

def arrayValues (named : Bool) : List FV := [.plain (.int .u8 1),
  .plain (if named then .slice [.bool true, .int .u8 2] else .struct false (t! "P") {} [{}, {}] [.bool true, .int .u8 2]),
  .plain (.struct true (t! "B") {} [{ ident := some (t! "x") }] [.int .u8 3]), .plain (.int .u8 4)]

theorem arrayValues_ok (ryu : UInt64 → Text) (named : Bool) :
    fok (keyText ryu) (.struct named (t! "A") {} (arrayFields named) (arrayValues named)) := by
  have h : ∀ v e, Flatten.untaggedEnum v = true → ∀ n, Flatten.isIsize n → Flatten.entries v = e → Flatten.inRange n n e →
      (∀ x ∈ e, Token.mapKeyEnd ∉ toks x.val) → Derive.flattens n v := by
    intro v e h1 n h2 h3 h4 h5
    exact ⟨h1, h2, h3 ▸ h4, h3 ▸ h5⟩
  cases named
  · refine ⟨⟨rfl, rfl, h _ [⟨none, none, none, some (offset 0), .bool true⟩, ⟨none, none, none, some (offset 1), .int .u8 2⟩]
      rfl 1 (by decide) rfl (by decide) (by simp [toks]),
      h _ [⟨none, none, some (identLabel (t! "x")), some (offset 0), .int .u8 3⟩] rfl 3 (by decide) rfl (by decide) (by simp [toks]),
      trivial⟩, trivial, ⟨⟨rfl, by simp, rfl⟩, trivial, trivial, trivial⟩, ⟨⟨rfl, by simp, rfl⟩, trivial, trivial⟩, trivial, trivial⟩
  · refine ⟨⟨rfl, rfl, h _ [⟨none, none, none, none, .bool true⟩, ⟨none, none, none, none, .int .u8 2⟩]
      rfl 1 (by decide) rfl (by decide) (by simp [toks]),
      h _ [⟨none, none, some (identLabel (t! "x")), some (offset 0), .int .u8 3⟩] rfl 3 (by decide) rfl (by decide) (by simp [toks]),
      trivial⟩, trivial, ⟨trivial, trivial, trivial⟩, ⟨⟨rfl, by simp, rfl⟩, trivial, trivial⟩, trivial, trivial⟩

/-- The hypotheses of `C69_array_partial` hold, and the document is `[1,true,2,3,4]`. -/
example (env : Env) (ryu : UInt64 → Text) : fok (keyText ryu) (.struct false (t! "A") {} (arrayFields false) (arrayValues false)) ∧
    (arrayFields false).all plainField = true ∧ plainTag ({} : Attrs).tag = true ∧
    Derive.labeled false {} (Derive.rows (arrayFields false) (arrayValues false)) = false ∧
    (∀ r ∈ Derive.rows (arrayFields false) (ftrees (keyText ryu) (arrayValues false)),
      Json.safe r.2 = true ∧ (r.1.flatten = true → opens r.2 = true)) ∧
    flatParts (Derive.rows (arrayFields false) ((ftrees (keyText ryu) (arrayValues false)).map (Json.value env))) =
      some [.num 1, .bool true, .num 2, .num 3, .num 4] := by
  refine ⟨arrayValues_ok ryu false, rfl, rfl, rfl, ?_, rfl⟩
  intro r hr
  simp only [Derive.rows, arrayFields, arrayValues, ftrees, List.zip_cons_cons, List.zip_nil_right, List.filter, Bool.not_false,
    List.mem_cons, List.not_mem_nil, or_false] at hr
  rcases hr with rfl | rfl | rfl | rfl
  · exact ⟨rfl, nofun⟩
  · exact ⟨rfl, fun _ => rfl⟩
  · exact ⟨rfl, fun _ => rfl⟩
  · exact ⟨rfl, nofun⟩

/-- The hypotheses of `C69_numbered_partial` hold, and the document is `{"a":1,"1":true,"2":2,"x":3,"d":4}`. -/
example (env : Env) (ryu : UInt64 → Text) : fok (keyText ryu) (.struct true (t! "A") {} (arrayFields true) (arrayValues true)) ∧
    (arrayFields true).all plainField = true ∧
    Derive.labeled true {} (Derive.rows (arrayFields true) (arrayValues true)) = true ∧
    (∀ r ∈ Derive.rows (arrayFields true) (ftrees (keyText ryu) (arrayValues true)), r.1.index = none) ∧
    (∀ r ∈ Derive.rows (arrayFields true) (ftrees (keyText ryu) (arrayValues true)), r.1.flatten = true →
      ∀ (j : Nat) (h : j < (Flatten.entries r.2).length),
      (Flatten.entries r.2)[j].index = none ∨ (Flatten.entries r.2)[j].index = some ⟨j, some tags.VALUE_OFFSET⟩) ∧
    (∀ r ∈ Derive.rows (arrayFields true) (ftrees (keyText ryu) (arrayValues true)),
      Json.safe r.2 = true ∧ (r.1.flatten = true → (spread r.2 || spreadSeq r.2) = true)) ∧
    (fieldValues (ftree (keyText ryu) (.struct true (t! "A") {} (arrayFields true) (arrayValues true)))).length < 2 ^ 63 ∧
    flatNumbered (Derive.indexed {} (Derive.rows (arrayFields true) (arrayValues true))) 0
      (Derive.rows (arrayFields true) ((ftrees (keyText ryu) (arrayValues true)).map (Json.value env))) =
      some [(t! "a", .num 1), (t! "1", .bool true), (t! "2", .num 2), (t! "x", .num 3), (t! "d", .num 4)] := by
  have hr : ∀ r ∈ Derive.rows (arrayFields true) (ftrees (keyText ryu) (arrayValues true)),
      r = (({ ident := some (t! "a") } : Field), .int .u8 1) ∨
      r = ({ ident := some (t! "b"), flatten := true }, .seq (some 2) [.bool true, .int .u8 2]) ∨
      r = ({ ident := some (t! "c"), flatten := true }, tree (.struct true (t! "B") {} [{ ident := some (t! "x") }] [.int .u8 3])) ∨
      r = ({ ident := some (t! "d") }, .int .u8 4) := by
    intro r hr
    simp only [Derive.rows, arrayFields, arrayValues, ftrees, List.zip_cons_cons, List.zip_nil_right, List.filter, Bool.not_false,
      List.mem_cons, List.not_mem_nil, or_false] at hr
    exact hr
  refine ⟨arrayValues_ok ryu true, rfl, rfl, ?_, ?_, ?_, ?_, ?_⟩
  · intro r h
    rcases hr r h with rfl | rfl | rfl | rfl <;> rfl
  · intro r h
    rcases hr r h with rfl | rfl | rfl | rfl
    · exact nofun
    · intro _ j hj
      have hj : j < 2 := hj
      match j, hj with
      | 0, _ => exact .inl rfl
      | 1, _ => exact .inl rfl
    · intro _ j hj
      have hj : j < 1 := hj
      match j, hj with
      | 0, _ => exact .inr rfl
    · exact nofun
  · intro r h
    rcases hr r h with rfl | rfl | rfl | rfl
    · exact ⟨rfl, nofun⟩
    · exact ⟨rfl, fun _ => rfl⟩
    · exact ⟨rfl, fun _ => rfl⟩
    · exact ⟨rfl, nofun⟩
  · rw [C40_values]
    exact Nat.lt_of_le_of_lt (m := 5) (Nat.le_of_eq rfl) (by decide)
  · rfl

end Sval
