import Verif.Examples.TagsExact
import Verif.Props.Rust
import Verif.Props.Examples

set_option autoImplicit false

/-!
# Properties of the example with a tag of its own: C100
-/

namespace Sval

open Examples
open Rust (allO)

/-- C100. Integers are printed as times exactly where they are in a value with the tag, and everything else as it should be,
for all values in which the tag is not in itself; it panics exactly if there is a time that cannot be printed. The stream is
left as it was. Missing: tags in themselves, for which it is false (`C100_fails`). -/
theorem C100_partial (env : Fmt.Env) (float : UInt64 → Text) (time : Int → Option Text) (v : V) (o : Text) (hv : alone false v = true) :
    drive (clockStream env float time) (valueOf v) ⟨o, false⟩ =
      match told (flatText env) float time false v with
      | some t => .done true ⟨o ++ t, false⟩
      | none => .panicked := by
  have h := tells_lowV (env := env) (float := float) (time := time) v false hv o
  rw [valueOf, drive_ofToks, run_clockStream, lower_toks, h]
  cases told (flatText env) float time false v <;> rfl

/-- Two timestamps in a list, one of them in a record, and numbers that are none. -/
def timedExample : V := .seq none [.tagged { tag := some UNIX_TIMESTAMP } (.int .u64 1),
  .record { tag := some UNIX_TIMESTAMP } none [(none, .new (t! "a"), .int .u8 2), (none, .new (t! "b"), .int .i64 3)],
  .int .u64 18446744073709551615]

/-- It meets the hypothesis of `C100_partial`, and what is printed is a list with times in it. -/
example (float : UInt64 → Text) : alone false timedExample = true ∧
    told (fun fs => fs.flatten) float (fun n => some ('@' :: intDec n)) false timedExample =
      some (t! "[ @1, [ [ a, @2, ], [ b, 3, ], ], 18446744073709551615, ]") := by
  exact ⟨rfl, rfl⟩

/-- C100 is false of values with the tag in themselves: what follows the inner one is not printed as a time. -/
theorem C100_fails : ∃ v : V, ∃ s t, told (fun _ => []) (fun _ => []) (fun n => some ('@' :: intDec n)) false v = some t ∧
    drive (clockStream ⟨fun _ => [], fun _ => [], fun _ => false, fun _ => true⟩ (fun _ => []) (fun n => some ('@' :: intDec n)))
      (valueOf v) ⟨[], false⟩ = .done true ⟨s, false⟩ ∧ s ≠ t ∧ s = t! "[ @1, 2, ]" ∧ t = t! "[ @1, @2, ]" := by
  refine ⟨.tagged { tag := some UNIX_TIMESTAMP } (.seq none [.tagged { tag := some UNIX_TIMESTAMP } (.int .u64 1), .int .u64 2]),
    _, _, rfl, ?_, ?_, rfl, rfl⟩
  · rw [valueOf, drive_ofToks]; rfl
  · decide

/-- C100. Exactly what is printed of any value, tags in themselves included, whatever the flag was before: an integer is a time
if of the tags before it the last that was opened or closed was opened. The flag is cleared if there is a tag, and else left. -/
theorem C100_exact (env : Fmt.Env) (float : UInt64 → Text) (time : Int → Option Text) (v : V) (o : Text) (ts : Bool) :
    drive (clockStream env float time) (valueOf v) ⟨o, ts⟩ =
      match heard (flatText env) float time ts v with
      | some t => .done true ⟨o ++ t, ts && !timed v⟩
      | none => .panicked := by
  have h := turns_lowV (env := env) (float := float) (time := time) v ts o
  rw [valueOf, drive_ofToks, run_clockStream, lower_toks, h]
  cases heard (flatText env) float time ts v <;> rfl

/-- A list with the tag, in which the second of three integers has it too: only the first two are times. -/
example (float : UInt64 → Text) : heard (fun fs => fs.flatten) float (fun n => some ('@' :: intDec n)) false
    (.tagged { tag := some UNIX_TIMESTAMP } (.seq none [.int .u64 1, .tagged { tag := some UNIX_TIMESTAMP } (.int .u64 2), .int .u64 3])) =
      some (t! "[ @1, @2, 3, ]") := rfl

/-- C100. `Timestamp(n)`, which has the derived implementation, is printed as the time. -/
theorem C100_derived (env : Fmt.Env) (float : UInt64 → Text) (time : Int → Option Text) (n : Int) (o : Text) :
    drive (clockStream env float time)
      (Nested.prog (Rust.items (.newtype (t! "Timestamp") { tag := some UNIX_TIMESTAMP } false (.int .u64 n)))) ⟨o, false⟩ =
      match time n with
      | some t => .done true ⟨o ++ t, false⟩
      | none => .panicked := by
  have h : drive (clockStream env float time)
      (Nested.prog (Rust.items (.newtype (t! "Timestamp") { tag := some UNIX_TIMESTAMP } false (.int .u64 n)))) ⟨o, false⟩ =
      drive (clockStream env float time)
      (valueOf (Rust.tree (.newtype (t! "Timestamp") { tag := some UNIX_TIMESTAMP } false (.int .u64 n)))) ⟨o, false⟩ := by
    simp only [drive, (C38 (guarded (clockStream env float time)) (.newtype (t! "Timestamp") { tag := some UNIX_TIMESTAMP } false (.int .u64 n))
      trivial (_, false)).1]
  rw [h, C100_partial _ _ _ _ _ rfl]
  rfl

/-- A call that neither begins something with the tag, nor gives an integer that an `i64` cannot hold. -/
def calm : Token → Bool
  | .taggedBegin m | .enumBegin m | .recordBegin m _ | .tupleBegin m _ | .recordTupleBegin m _ => m.tag != some UNIX_TIMESTAMP
  | .int .u8 v | .int .u16 v | .int .u32 v | .int .u64 v => IntTy.i64.fits v
  | _ => true

theorem timed_seq : ∀ L : List V, toksSeq L = L.flatMap fun x => .seqValueBegin :: (toks x ++ [.seqValueEnd]) := by
  intro L; induction L with
  | nil => rfl
  | cons x L ih => simp [toksSeq, ih]

theorem timed_map : ∀ L : List (V × V), toksMap L = L.flatMap fun x => .mapKeyBegin :: (toks x.1 ++ (.mapKeyEnd :: .mapValueBegin :: (toks x.2 ++ [.mapValueEnd]))) := by
  intro L; induction L with
  | nil => rfl
  | cons x L ih => obtain ⟨k, v⟩ := x; simp [toksMap, ih]

theorem timed_rec : ∀ L : List (Option Tag × Label × V), toksRec L =
    L.flatMap fun x => .recordValueBegin x.1 x.2.1 :: (toks x.2.2 ++ [.recordValueEnd x.1 x.2.1]) := by
  intro L; induction L with
  | nil => rfl
  | cons x L ih => obtain ⟨t, l, v⟩ := x; simp [toksRec, ih]

theorem timed_tup : ∀ L : List (Option Tag × Index × V), toksTup L =
    L.flatMap fun x => .tupleValueBegin x.1 x.2.1 :: (toks x.2.2 ++ [.tupleValueEnd x.1 x.2.1]) := by
  intro L; induction L with
  | nil => rfl
  | cons x L ih => obtain ⟨t, l, v⟩ := x; simp [toksTup, ih]

theorem timed_rt : ∀ L : List (Option Tag × Label × Index × V), toksRT L =
    L.flatMap fun x => .recordTupleValueBegin x.1 x.2.1 x.2.2.1 :: (toks x.2.2.2 ++ [.recordTupleValueEnd x.1 x.2.1 x.2.2.1]) := by
  intro L; induction L with
  | nil => rfl
  | cons x L ih => obtain ⟨t, l, i, v⟩ := x; simp [toksRT, ih]

theorem told_calm (txt : List Text → Text) (float : UInt64 → Text) (time : Int → Option Text) (v : V) (h : ∀ t ∈ toks v, calm t = true) :
    told txt float time false v = some (shown txt float v) := by
  have hall : ∀ {α : Type} (L : List α) (f : α → Option Text) (g : α → Text), (∀ x ∈ L, f x = some (g x)) → allO (L.map f) = some (L.map g) := by
    intro α L f g h
    induction L with
    | nil => rfl
    | cons x L ih => simp [allO, Json.consO, h x (by simp), ih fun y hy => h y (by simp [hy])]
  have off : ∀ {m : Meta}, (m.tag != some UNIX_TIMESTAMP) = true → (false || isTime m) = false := by
    intro m h
    simpa [isTime] using h
  induction v using V.ind with
  | int t v =>
    have := h (.int t v) (by simp [toks])
    cases t <;> simp_all [told, toldInt, toldU, shown, int, calm]
  | binary n fs =>
    simp only [told, shown]
    rw [hall _ (fun b : UInt8 => toldU time false b.toNat) (fun b : UInt8 => intDec b.toNat) fun _ _ => rfl]
    rfl
  | seq n xs ih =>
    simp only [told, shown, toldSeq_map, shownSeq_map]
    rw [hall _ _ _ fun x hx => ih x hx fun t ht => h t (by
      simp only [toks, timed_seq, List.mem_cons, List.mem_append, List.mem_flatMap]
      exact .inr (.inl ⟨x, hx, by simp [ht]⟩))]
    rfl
  | map n kvs ih =>
    simp only [told, shown, toldMap_map, shownMap_map]
    have hin : ∀ x ∈ kvs, ∀ t, t ∈ toks x.1 ∨ t ∈ toks x.2 → calm t = true := fun x hx t ht => h t (by
      simp only [toks, timed_map, List.mem_cons, List.mem_append, List.mem_flatMap]
      exact .inr (.inl ⟨x, hx, by rcases ht with ht | ht <;> simp [ht]⟩))
    rw [hall _ _ (fun x : V × V => list [shown txt float x.1, shown txt float x.2]) fun x hx => by
      rw [(ih x hx).1 fun t ht => hin x hx t (.inl ht), (ih x hx).2 fun t ht => hin x hx t (.inr ht)]
      rfl]
    rfl
  | tagged m v ih =>
    have hm := h (.taggedBegin m) (by simp [toks])
    simp only [told, shown, off hm]
    exact ih fun t ht => h t (by simp [toks, ht])
  | enum m v ih =>
    have hm := h (.enumBegin m) (by simp [toks])
    simp only [told, shown, off hm]
    exact ih fun t ht => h t (by simp [toks, ht])
  | record m n fs ih =>
    have hm := h (.recordBegin m n) (by simp [toks])
    simp only [told, shown, off hm, toldRec_map, shownRec_map]
    rw [hall _ _ (fun x : Option Tag × Label × V => list [txt [x.2.1.text], shown txt float x.2.2]) fun x hx => by
      rw [ih x hx fun t ht => h t (by
        simp only [toks, timed_rec, List.mem_cons, List.mem_append, List.mem_flatMap]
        exact .inr (.inl ⟨x, hx, by simp [ht]⟩))]
      rfl]
    rfl
  | tuple m n fs ih =>
    have hm := h (.tupleBegin m n) (by simp [toks])
    simp only [told, shown, off hm, toldTup_map, shownTup_map]
    rw [hall _ _ _ fun x hx => ih x hx fun t ht' => h t (by
      simp only [toks, timed_tup, List.mem_cons, List.mem_append, List.mem_flatMap]
      exact .inr (.inl ⟨x, hx, by simp [ht']⟩))]
    rfl
  | recordTuple m n fs ih =>
    have hm := h (.recordTupleBegin m n) (by simp [toks])
    simp only [told, shown, off hm, toldRT_map, shownRT_map]
    rw [hall _ _ (fun x : Option Tag × Label × Index × V => list [txt [x.2.1.text], shown txt float x.2.2.2]) fun x hx => by
      rw [ih x hx fun t ht => h t (by
        simp only [toks, timed_rt, List.mem_cons, List.mem_append, List.mem_flatMap]
        exact .inr (.inl ⟨x, hx, by simp [ht]⟩))]
      rfl]
    rfl
  | hint t v ih => exact ih fun u hu => h u (by simp [toks, hu])
  | tag m =>
    simp only [told, shown]
    split
    · rfl
    · cases m.label <;> rfl
  | _ => rfl

theorem alone_calm (v : V) (h : ∀ t ∈ toks v, calm t = true) : alone false v = true := by
  have off : ∀ {m : Meta}, (m.tag != some UNIX_TIMESTAMP) = true → isTime m = false := by
    intro m h
    simpa [isTime] using h
  induction v using V.ind with
  | seq n xs ih =>
    rw [alone, alones_iff]
    exact fun x hx => ih x hx fun t ht => h t (by
      simp only [toks, timed_seq, List.mem_cons, List.mem_append, List.mem_flatMap]
      exact .inr (.inl ⟨x, hx, by simp [ht]⟩))
  | map n kvs ih =>
    rw [alone, aloneMap_iff]
    have hin : ∀ x ∈ kvs, ∀ t, t ∈ toks x.1 ∨ t ∈ toks x.2 → calm t = true := fun x hx t ht => h t (by
      simp only [toks, timed_map, List.mem_cons, List.mem_append, List.mem_flatMap]
      exact .inr (.inl ⟨x, hx, by rcases ht with ht | ht <;> simp [ht]⟩))
    exact fun x hx => ⟨(ih x hx).1 fun t ht => hin x hx t (.inl ht), (ih x hx).2 fun t ht => hin x hx t (.inr ht)⟩
  | tagged m v ih =>
    have hm := h (.taggedBegin m) (by simp [toks])
    simp only [alone, off hm]
    exact ih fun t ht => h t (by simp [toks, ht])
  | enum m v ih =>
    have hm := h (.enumBegin m) (by simp [toks])
    simp only [alone, off hm]
    exact ih fun t ht => h t (by simp [toks, ht])
  | record m n fs ih =>
    have hm := h (.recordBegin m n) (by simp [toks])
    simp only [alone, off hm, Bool.false_and, Bool.not_false, Bool.true_and, Bool.or_self, aloneRec_iff]
    exact fun x hx => ih x hx fun t ht => h t (by
      simp only [toks, timed_rec, List.mem_cons, List.mem_append, List.mem_flatMap]
      exact .inr (.inl ⟨x, hx, by simp [ht]⟩))
  | tuple m n fs ih =>
    have hm := h (.tupleBegin m n) (by simp [toks])
    simp only [alone, off hm, Bool.false_and, Bool.not_false, Bool.true_and, Bool.or_self, aloneTup_iff]
    exact fun x hx => ih x hx fun t ht => h t (by
      simp only [toks, timed_tup, List.mem_cons, List.mem_append, List.mem_flatMap]
      exact .inr (.inl ⟨x, hx, by simp [ht]⟩))
  | recordTuple m n fs ih =>
    have hm := h (.recordTupleBegin m n) (by simp [toks])
    simp only [alone, off hm, Bool.false_and, Bool.not_false, Bool.true_and, Bool.or_self, aloneRT_iff]
    exact fun x hx => ih x hx fun t ht => h t (by
      simp only [toks, timed_rt, List.mem_cons, List.mem_append, List.mem_flatMap]
      exact .inr (.inl ⟨x, hx, by simp [ht]⟩))
  | hint t v ih => exact ih fun u hu => h u (by simp [toks, hu])
  | _ => rfl

/-- C100. Values without the tag, and without integers beyond those of an `i64`, are printed as by the example without tags. -/
theorem C100_others (env : Fmt.Env) (float : UInt64 → Text) (time : Int → Option Text) (v : V) (o : Text)
    (h : ∀ t ∈ toks v, calm t = true) :
    ∃ t, drive (flatStream env float) (valueOf v) o = .done true (o ++ t) ∧
      drive (clockStream env float time) (valueOf v) ⟨o, false⟩ = .done true ⟨o ++ t, false⟩ := by
  refine ⟨_, C98_flat env float v o, ?_⟩
  rw [C100_partial _ _ _ _ _ (alone_calm v h), told_calm _ _ _ _ h]

/-- A record with a list of numbers meets the hypothesis of `C100_others`. -/
example : ∀ t ∈ toks (.record { tag := some tags.NUMBER } none [(none, .new (t! "a"), .seq none [.int .u64 1, .int .i128 (2 ^ 100)])]),
    calm t = true := by decide +kernel

end Sval
