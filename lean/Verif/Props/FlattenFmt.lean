import Verif.Props.FlattenArray
import Verif.Props.FlattenOther

set_option autoImplicit false

/-!
# Flattened fields without names, formatted: C78

Arrays and tuples can be flattened into a struct with names for its fields, too. Their elements are numbered.
-/

namespace Sval

open Rust
open Derive (Field Attrs FV stream ftree ftrees fok structRows flatRows keyText)
open Fmt (Out lay entry layout twice)

/-- The name under which the entry numbered `n` is written: the text of its key, its label, or its number. -/
def entryNameAt (K : V → Text) (n : Nat) (e : Flatten.Entry) : Text :=
  match e.key, e.label with
  | some k, _ => K k
  | none, some l => l.text
  | none, none => natDec n

/-- The fields of a struct as they are written: those that are flattened are written as their entries, numbered from the number of
fields before them. Fields that are not flattened count if `counts` says so. -/
def writtenNumbered (env : Fmt.Env) (K : V → Text) (counts : Bool) : Nat → List (Field × V) → List Out
  | _, [] => []
  | n, (f, v) :: r =>
    if f.flatten then
      (Flatten.entries v).mapIdx (fun j e => entry (lay .ident (entryNameAt K (n + j) e)) (layout env twice false e.val)) ++
        writtenNumbered env K counts (n + (Flatten.entries v).length) r
    else
      entry (lay .ident (Derive.name f).text) (layout env twice false (Derive.data f v)) ::
        writtenNumbered env K counts (if counts then n + 1 else n) r

theorem structRows_written (env : Fmt.Env) (K : V → Text) (c : Bool) (i : Int) (n : Nat) (rs : List (Field × V))
    (hi : ∀ r ∈ rs, r.1.index = none)
    (hd : ∀ r ∈ rs, r.1.flatten = true → ∀ (j : Nat) (h : j < (Flatten.entries r.2).length),
      (Flatten.entries r.2)[j].index = none ∨ (Flatten.entries r.2)[j].index = some ⟨j, some tags.VALUE_OFFSET⟩)
    (hn : n + (rs.flatMap Derive.contents).length < 2 ^ 63) :
    (structRows K c true i false n rs).map (fun r => entry (lay .ident r.2.1.text) (layout env twice false r.2.2.2)) =
      writtenNumbered env K c n rs := by
  induction rs generalizing i n with
  | nil => rfl
  | cons r rs ih =>
    obtain ⟨f, v⟩ := r
    have hi0 : f.index = none := hi (f, v) (.head _)
    have ih := fun i n => ih i n (fun r h => hi r (.tail _ h)) (fun r h => hd r (.tail _ h))
    rw [List.flatMap_cons, List.length_append] at hn
    rw [writtenNumbered, structRows, hi0]
    cases hfl : f.flatten with
    | true =>
      have hc : (Derive.contents (f, v)).length = (Flatten.entries v).length := by simp [Derive.contents, hfl]
      rw [hc] at hn
      have hdense := (number_dense n (by omega) (Flatten.entries v) 0 (by simp only [Flatten.isIsize]; omega) (by
        intro j hj
        have := hd (f, v) (.head _) hfl j hj
        simpa using this)).2
      simp only [Int.natCast_zero, Int.add_zero] at hdense
      simp only [if_true, Option.isSome_none, Bool.or_false, List.map_append, flatRows, hdense]
      have := ih (Derive.nextIndex i none) (n + (Flatten.entries v).length) (by omega)
      push_cast at this
      rw [this, List.map_map]
      congr 1
      rw [List.mapIdx_eq_zipIdx_map, List.mapIdx_eq_zipIdx_map, List.map_map]
      refine List.map_congr_left fun x hx => ?_
      have : (Flatten.labelOf K x.1 ⟨(n : Int) + (x.2 : Int), some tags.VALUE_OFFSET⟩).text = entryNameAt K (n + x.2) x.1 := by
        unfold Flatten.labelOf entryNameAt
        cases x.1.key with
        | some k => rfl
        | none =>
          cases x.1.label with
          | some l => rfl
          | none =>
            show intDec ((n : Int) + (x.2 : Int)) = _
            rw [intDec, if_neg (by omega)]
            congr 1
      simp only [Function.comp, this]
    | false =>
      have hc : (Derive.contents (f, v)).length = 1 := by simp [Derive.contents, hfl]
      rw [hc] at hn
      have := ih (Derive.nextIndex i none) (if c then n + 1 else n) (by split <;> omega)
      simp only [Bool.false_eq_true, if_false, Option.isSome_none, Option.isNone_none, Bool.or_false, Bool.not_false, Bool.and_true,
        List.map_cons]
      cases c
      · simp only [Bool.false_eq_true, if_false] at this ⊢
        rw [this]
      · simp only [if_true] at this ⊢
        push_cast at this
        rw [this]

/-- C78 for structs with names for their fields, whatever is flattened into them: elements of arrays and tuples are written with their
number. Fields have no explicit indexes, and flattened values none other than offsets. -/
theorem C78_fmt_numbered (fl : Fmt.Floats) (env : Fmt.Env) (ryu : UInt64 → Text) (named : Bool) (name : Text) (at' : Attrs)
    (fs : List Field) (xs : List FV) (hx : fok (keyText ryu) (.struct named name at' fs xs))
    (hl : Derive.labeled named at' (Derive.rows fs (ftrees (keyText ryu) xs)) = true)
    (hi : ∀ r ∈ Derive.rows fs (ftrees (keyText ryu) xs), r.1.index = none)
    (hd : ∀ r ∈ Derive.rows fs (ftrees (keyText ryu) xs), r.1.flatten = true → ∀ (j : Nat) (h : j < (Flatten.entries r.2).length),
      (Flatten.entries r.2)[j].index = none ∨ (Flatten.entries r.2)[j].index = some ⟨j, some tags.VALUE_OFFSET⟩)
    (hn : ((Derive.rows fs (ftrees (keyText ryu) xs)).flatMap Derive.contents).length < 2 ^ 63) :
    formatOf {} fl env (stream true ryu (.struct named name at' fs xs)) =
      some (Out.text (lay .ident (Derive.labelOr at'.label name).text ++ lay .ws (t! " ") ++
        Fmt.braces (writtenNumbered { env with f32 := fun b => (fl.f32 {} b).flatten, f64 := fun b => (fl.f64 {} b).flatten }
          (keyText ryu) (Derive.indexed at' (Derive.rows fs xs)) 0 (Derive.rows fs (ftrees (keyText ryu) xs))))) := by
  rw [formatOf_value _ _ _ _ _ fun S s => (C40_exact ryu _ hx S s).1, C74_exact, C26_exact]
  have hi' : Derive.indexed at' (Derive.rows fs (ftrees (keyText ryu) xs)) = Derive.indexed at' (Derive.rows fs xs) := by
    rw [ftrees_map, rows_map, Derive.indexed, List.isEmpty_map, Derive.indexed]
  rw [← hi']
  simp only [ftree, Derive.flatTree, hl]
  generalize ({ env with f32 := fun b => (fl.f32 {} b).flatten, f64 := fun b => (fl.f64 {} b).flatten } : Fmt.Env) = env'
  have key := fun c => structRows_written env' (keyText ryu) c 0 0 _ hi hd (by rw [Nat.zero_add]; exact hn)
  cases Derive.indexed at' (Derive.rows fs (ftrees (keyText ryu) xs)) with
  | true =>
    have := key true
    simp only [Int.natCast_zero] at this
    simp only [layout, layoutRT_map, this]
    rfl
  | false =>
    have := key false
    simp only [Int.natCast_zero] at this
    simp only [layout, layoutRec_map, List.map_map, Function.comp_def]
    rw [this]
    rfl

/-- `struct S { a: u8, #[sval(flatten)] b: [u8; 2], c: u8 }`: `S { a: 1, 1: 2, 2: 3, c: 4 }` -/
def flatPair : FV := .struct true (t! "S") {}
  [{ ident := some (t! "a") }, { ident := some (t! "b"), flatten := true }, { ident := some (t! "c") }]
  [.plain (.int .u8 1), .plain (.array [.int .u8 2, .int .u8 3]), .plain (.int .u8 4)]

/-- The hypotheses of `C78_fmt_numbered` hold of it. -/
example (fl : Fmt.Floats) (env : Fmt.Env) (ryu : UInt64 → Text) :
    formatOf {} fl env (stream true ryu flatPair) = some (t! "S { a: 1, 1: 2, 2: 3, c: 4 }") := by
  have hv : ∀ r ∈ ([(({ ident := some (t! "a") } : Field), V.int .u8 1),
      ({ ident := some (t! "b"), flatten := true }, ftree (keyText ryu) (.plain (.array [.int .u8 2, .int .u8 3]))),
      ({ ident := some (t! "c") }, .int .u8 4)] : List (Field × V)), r.1.index = none ∧ (r.1.flatten = true →
        r.2 = ftree (keyText ryu) (.plain (.array [.int .u8 2, .int .u8 3]))) := by
    intro r hr
    simp only [List.mem_cons, List.not_mem_nil, or_false] at hr
    rcases hr with rfl | rfl | rfl
    · exact ⟨rfl, fun h => by cases h⟩
    · exact ⟨rfl, fun _ => rfl⟩
    · exact ⟨rfl, fun h => by cases h⟩
  unfold flatPair
  refine (C78_fmt_numbered fl env ryu _ _ _ _ _ ?_ rfl ?_ ?_ ?_).trans rfl
  rotate_left
  · exact fun r hr => (hv r hr).1
  · intro r hr hf
    rw [(hv r hr).2 hf]
    intro j hj
    have hj : j < 2 := hj
    match j, hj with
    | 0, _ => exact .inl rfl
    | 1, _ => exact .inl rfl
  · exact show 4 < 2 ^ 63 by decide
  · refine ⟨⟨rfl, rfl, ?_⟩, trivial, ⟨trivial, trivial, trivial⟩, trivial, trivial⟩
    have he : Flatten.entries (ftree (keyText ryu) (.plain (.array [.int .u8 2, .int .u8 3]))) =
      [⟨none, none, none, none, .int .u8 2⟩, ⟨none, none, none, none, .int .u8 3⟩] := rfl
    refine ⟨⟨rfl, show Flatten.isIsize 1 by decide, ?_, ?_⟩, trivial⟩
    · rw [he]
      show Flatten.inRange 1 1 _
      decide
    · rw [he]
      simp [toks]

end Sval
