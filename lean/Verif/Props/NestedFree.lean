import Verif.Nested.Free
import Verif.Props.Rust
import Verif.Props.NestedDebug

set_option autoImplicit false

/-! # C71: which values of Rust types a recursive stream sees without an allocator -/

namespace Sval

open Nested (Item seen own SeesA DoesA Matches Opened)
open Rust
open Derive (Field Attrs Variant EnumDef Slot)

/-- The fields have labels, or indexes. -/
def keepsFields (named : Bool) (at' : Attrs) (fs : List Field) (vs : List RV) : Prop :=
  (Derive.labeled named at' (Derive.rows fs vs) || Derive.indexed at' (Derive.rows fs vs)) = true

mutual
/-- Values that are made of borrowed text and bytes and of static labels, without data tags, and without structs that
are a sequence. -/
def free : RV → Prop
  | .char _ | .display _ | .number _ => False
  | .some v | .boxed v => free v
  | .slice xs | .array xs | .tuple xs => frees xs
  | .map ks vs => frees ks ∧ frees vs
  | .newtype _ at' transparent v => (transparent = false → staticLabel at'.label) ∧ free v
  | .struct named _ at' fs vs => plainFields fs ∧ keepsFields named at' fs vs ∧ frees vs
  | .enum d i vs => frees vs ∧ ∀ v, d.variants[i]? = some v →
      match v.shape with
      | .unit => True
      | .newtype => d.dyn = false → d.unlabeledVariants = false → staticLabel v.attrs.label
      | .named fs => plainFields fs ∧ keepsFields true v.attrs fs vs
      | .unnamed fs => plainFields fs ∧ keepsFields false v.attrs fs vs
  | _ => True

def frees : List RV → Prop
  | [] => True
  | x :: xs => free x ∧ frees xs
end

theorem frees_iff (xs : List RV) : frees xs ↔ ∀ x ∈ xs, free x := by
  induction xs with
  | nil => simp [frees]
  | cons x xs ih => simp [frees, ih]

namespace Free

theorem seenSeq_eq (xs : List V) : Nested.seenSeq xs = xs.map seen := by
  induction xs with
  | nil => rfl
  | cons x xs ih => simp [Nested.seenSeq, ih]
theorem seenMap_eq (xs : List (V × V)) : Nested.seenMap xs = xs.map fun x => (seen x.1, seen x.2) := by
  induction xs with
  | nil => rfl
  | cons x xs ih => simp [Nested.seenMap, ih]
theorem seenRec_eq (xs : List (Option Tag × Label × V)) :
    Nested.seenRec xs = xs.map fun x => (x.1, x.2.1.toOwned, seen x.2.2) := by
  induction xs with
  | nil => rfl
  | cons x xs ih => simp [Nested.seenRec, ih]
theorem seenTup_eq (xs : List (Option Tag × Index × V)) : Nested.seenTup xs = xs.map fun x => (x.1, x.2.1, seen x.2.2) := by
  induction xs with
  | nil => rfl
  | cons x xs ih => simp [Nested.seenTup, ih]
theorem seenRT_eq (xs : List (Option Tag × Label × Index × V)) :
    Nested.seenRT xs = xs.map fun x => (x.1, x.2.1.toOwned, seen x.2.2.2) := by
  induction xs with
  | nil => rfl
  | cons x xs ih => simp [Nested.seenRT, ih]

variable (B : Nested.Build)

/-- The code shows the value. -/
def Whole (q : List Item) (v : V) : Prop := ∃ X, DoesA B .any q X (.done true) ∧ Matches (SeesA B) X v

/-- The code shows the variant of an enum. -/
def Arm (q : List Item) (v : V) : Prop := ∃ X, DoesA B (.enum []) q X (.done true) ∧ Nested.Variant (SeesA B) X v

variable {B}

theorem Whole.sees {q : List Item} {v : V} (h : Whole B q v) : SeesA B ⟨true, Nested.prog q⟩ v := by
  obtain ⟨X, h, hX⟩ := h
  exact Nested.sees_of_makes h hX

theorem Whole.val {q : List Item} {v : V} (h : Whole B q v) : Whole B [.val q] v :=
  ⟨_, DoesA.val .any _ _ rfl q, .inr ⟨_, rfl, h.sees⟩⟩

theorem Whole.tagged (m : Meta) (hm : ∀ l, m.label = some l → l.backing = .static) {q : List Item} {v : V} (h : Whole B q v) :
    Whole B [.tok (.taggedBegin m), .val q, .tok (.taggedEnd m)] (.tagged (own m) v) := by
  refine ⟨_, DoesA.tagged m hm (DoesA.val _ _ _ rfl q), .inl ?_⟩
  rw [← Nested.own_own m]
  have := Opened.tagged (R := SeesA B) (own m) _ v h.sees
  simpa [Nested.own_own] using this

theorem Arm.tagged (m : Meta) (hm : ∀ l, m.label = some l → l.backing = .static) {q : List Item} {v : V} (h : Whole B q v) :
    Arm B [.tok (.taggedBegin m), .val q, .tok (.taggedEnd m)] (.tagged (own m) v) :=
  ⟨_, DoesA.vtagged m hm (DoesA.val _ _ _ rfl q), Nested.Variant.tagged m _ v h.sees⟩

theorem Whole.seq (n : Option Nat) (L : List (List Item × V)) (h : ∀ x ∈ L, Whole B x.1 x.2) :
    Whole B (.tok (.seqBegin n) :: ((L.flatMap fun x => [.tok .seqValueBegin, .val x.1, .tok .seqValueEnd]) ++ [.tok .seqEnd]))
      (.seq n (L.map (·.2))) := by
  have h1 := DoesA.seq (B := B) n (L.map (·.1))
  have h2 := Opened.seq (R := SeesA B) n (L.map fun x => (⟨true, Nested.prog x.1⟩, x.2))
    (List.forall_mem_map.2 fun x hx => (h x hx).sees)
  simp only [List.flatMap_map, List.map_map, Function.comp_def] at h1 h2
  exact ⟨_, h1, .inl h2⟩

theorem Whole.map (n : Option Nat) (L : List ((List Item × V) × (List Item × V)))
    (h1 : ∀ x ∈ L, Whole B x.1.1 x.1.2) (h2 : ∀ x ∈ L, Whole B x.2.1 x.2.2) :
    Whole B (.tok (.mapBegin n) :: ((L.flatMap fun x => [.tok .mapKeyBegin, .val x.1.1, .tok .mapKeyEnd,
        .tok .mapValueBegin, .val x.2.1, .tok .mapValueEnd]) ++ [.tok .mapEnd]))
      (.map n (L.map fun x => (x.1.2, x.2.2))) := by
  have h3 := DoesA.map (B := B) n (L.map fun x => (x.1.1, x.2.1))
  have h4 := Opened.map (R := SeesA B) n
    (L.map fun x => ((⟨true, Nested.prog x.1.1⟩, x.1.2), (⟨true, Nested.prog x.2.1⟩, x.2.2)))
    (List.forall_mem_map.2 fun x hx => (h1 x hx).sees) (List.forall_mem_map.2 fun x hx => (h2 x hx).sees)
  simp only [List.flatMap_map, List.map_map, Function.comp_def] at h3 h4
  exact ⟨_, h3, .inl h4⟩

theorem opened_tag (m : Meta) : Opened (SeesA B) [.tag (Nested.cloneMeta m)] (.tag (own m)) := by
  rw [← Nested.own_cloneMeta m]; exact .tag _

theorem variant_tag (m : Meta) : Nested.Variant (SeesA B) [.variantTag (Nested.cloneMeta m)] (.tag (own m)) := by
  rw [← Nested.own_cloneMeta m]; exact .tag _

theorem Whole.tuple (m : Meta) (n : Option Nat) (L : List (Option Tag × Index × List Item × V))
    (h : ∀ x ∈ L, Whole B x.2.2.1 x.2.2.2) :
    let q := (.tok (.tupleBegin m n) :: ((L.flatMap fun x =>
        [.tok (.tupleValueBegin x.1 x.2.1), .val x.2.2.1, .tok (.tupleValueEnd x.1 x.2.1)]) ++ [.tok (.tupleEnd m)]))
    let v : V := .tuple (own m) n (L.map fun x => (x.1, x.2.1, x.2.2.2))
    Whole B q v ∧ Arm B q v := by
  have h1 := fun i => DoesA.tuple (B := B) i m n (L.map fun x => (x.1, x.2.1, x.2.2.1))
  have hL : ∀ x ∈ L.map (fun x => (x.1, x.2.1, (⟨true, Nested.prog x.2.2.1⟩ : Nested.Arg), x.2.2.2)), SeesA B x.2.2.1 x.2.2.2 :=
    List.forall_mem_map.2 fun x hx => (h x hx).sees
  have h2 := Opened.tuple (R := SeesA B) (Nested.cloneMeta m) n _ hL
  have h3 := Nested.Variant.tuple (R := SeesA B) (Nested.cloneMeta m) n _ hL
  rw [Nested.own_cloneMeta] at h2 h3
  simp only [List.flatMap_map, List.map_map, Function.comp_def] at h1 h2 h3
  exact ⟨⟨_, h1 false, .inl h2⟩, ⟨_, h1 true, h3⟩⟩

theorem Whole.record (m : Meta) (n : Option Nat) (L : List (Option Tag × Label × List Item × V))
    (hl : ∀ x ∈ L, x.2.1.backing = .static) (h : ∀ x ∈ L, Whole B x.2.2.1 x.2.2.2) :
    let q := (.tok (.recordBegin m n) :: ((L.flatMap fun x =>
        [.tok (.recordValueBegin x.1 x.2.1), .val x.2.2.1, .tok (.recordValueEnd x.1 x.2.1)]) ++ [.tok (.recordEnd m)]))
    let v : V := .record (own m) n (L.map fun x => (x.1, x.2.1.toOwned, x.2.2.2))
    Whole B q v ∧ Arm B q v := by
  have h1 := fun i => DoesA.record (B := B) i m n (L.map fun x => (x.1, x.2.1, x.2.2.1)) (List.forall_mem_map.2 hl)
  have hL : ∀ x ∈ L.map (fun x => (x.1, x.2.1.toOwned, (⟨true, Nested.prog x.2.2.1⟩ : Nested.Arg), x.2.2.2)),
      SeesA B x.2.2.1 x.2.2.2 := List.forall_mem_map.2 fun x hx => (h x hx).sees
  have h2 := Opened.record (R := SeesA B) (Nested.cloneMeta m) n _ hL
  have h3 := Nested.Variant.record (R := SeesA B) (Nested.cloneMeta m) n _ hL
  rw [Nested.own_cloneMeta] at h2 h3
  simp only [List.flatMap_map, List.map_map, Function.comp_def] at h1 h2 h3
  exact ⟨⟨_, h1 false, .inl h2⟩, ⟨_, h1 true, h3⟩⟩

theorem Whole.recordTuple (m : Meta) (n : Option Nat) (L : List (Option Tag × Label × Index × List Item × V))
    (hl : ∀ x ∈ L, x.2.1.backing = .static) (h : ∀ x ∈ L, Whole B x.2.2.2.1 x.2.2.2.2) :
    let q := (.tok (.recordTupleBegin m n) :: ((L.flatMap fun x =>
        [.tok (.recordTupleValueBegin x.1 x.2.1 x.2.2.1), .val x.2.2.2.1, .tok (.recordTupleValueEnd x.1 x.2.1 x.2.2.1)]) ++
        [.tok (.recordTupleEnd m)]))
    let v : V := .record (own m) n (L.map fun x => (x.1, x.2.1.toOwned, x.2.2.2.2))
    Whole B q v ∧ Arm B q v := by
  have h1 := fun i => DoesA.recordTuple (B := B) i m n (L.map fun x => (x.1, x.2.1, x.2.2.1, x.2.2.2.1))
    (List.forall_mem_map.2 hl)
  have hL : ∀ x ∈ L.map (fun x => (x.1, x.2.1.toOwned, (⟨true, Nested.prog x.2.2.2.1⟩ : Nested.Arg), x.2.2.2.2)),
      SeesA B x.2.2.1 x.2.2.2 := List.forall_mem_map.2 fun x hx => (h x hx).sees
  have h2 := Opened.record (R := SeesA B) (Nested.cloneMeta m) n _ hL
  have h3 := Nested.Variant.record (R := SeesA B) (Nested.cloneMeta m) n _ hL
  rw [Nested.own_cloneMeta] at h2 h3
  simp only [List.flatMap_map, List.map_map, Function.comp_def] at h1 h2 h3
  exact ⟨⟨_, h1 false, .inl h2⟩, ⟨_, h1 true, h3⟩⟩

theorem whole_struct (named : Bool) (at' : Attrs) (m : Meta) (fs : List Field) (L : List (List Item × V))
    (hok : okFields at' fs L.length) (hf : plainFields fs)
    (hk : (Derive.labeled named at' (Derive.rows fs L) || Derive.indexed at' (Derive.rows fs L)) = true)
    (hL : ∀ x ∈ L, Whole B x.1 (seen x.2)) :
    Whole B (Derive.structItems named at' m fs (L.map (·.1))) (seen (Derive.structTree named at' m fs (L.map (·.2)))) ∧
    Arm B (Derive.structItems named at' m fs (L.map (·.1))) (seen (Derive.structTree named at' m fs (L.map (·.2)))) := by
  have hF := Derive.formed_struct named at' m fs L hok
  revert hF hk
  generalize Derive.labeled named at' (Derive.rows fs L) = l, Derive.indexed at' (Derive.rows fs L) = i,
    Derive.structItems named at' m fs (L.map (·.1)) = q, Derive.structTree named at' m fs (L.map (·.2)) = v
  intro hk hF
  have key : ∀ (f : Field) (x : List Item × V), f ∈ fs ∧ f.skip = false ∧ x ∈ L →
      (Derive.valueItems f.dataTag x.1 = [.val x.1] ∧ Derive.data f x.2 = x.2) ∧ (Derive.name f).backing = .static ∧
      Whole B x.1 (seen x.2) := by
    rintro f x ⟨h1, h2, h3⟩
    rcases hf f h1 with h | ⟨h, h'⟩
    · rw [h2] at h; cases h
    · refine ⟨?_, name_static f h', hL x h3⟩
      unfold Derive.valueItems Derive.data
      rw [h]
      exact ⟨rfl, rfl⟩
  cases hF with
  | seq n R h => cases hk
  | tuple n R h =>
    have := Whole.tuple (B := B) m n (R.map fun r => (r.1.1.tag, r.2, r.1.2.1, seen r.1.2.2))
      (List.forall_mem_map.2 fun r hr => (key _ _ (h r hr)).2.2)
    simp only [List.flatMap_map, List.map_map, Function.comp_def] at this
    have e : (R.flatMap fun r => Item.tok (.tupleValueBegin r.1.1.tag r.2) ::
          (Derive.valueItems r.1.1.dataTag r.1.2.1 ++ [.tok (.tupleValueEnd r.1.1.tag r.2)])) =
        R.flatMap fun r => [.tok (.tupleValueBegin r.1.1.tag r.2), .val r.1.2.1, .tok (.tupleValueEnd r.1.1.tag r.2)] :=
      Derive.flatMap_congr' fun r hr => by rw [(key _ _ (h r hr)).1.1]; rfl
    have e2 : (R.map fun r => (r.1.1.tag, r.2, seen (Derive.data r.1.1 r.1.2.2))) =
        R.map fun r => (r.1.1.tag, r.2, seen r.1.2.2) :=
      List.map_congr_left fun r hr => by rw [(key _ _ (h r hr)).1.2]
    rw [e, seen, seenTup_eq, List.map_map]
    simp only [Function.comp_def]
    rw [e2]
    exact this
  | record n R h =>
    have := Whole.record (B := B) m n (R.map fun r => (r.1.tag, Derive.name r.1, r.2.1, seen r.2.2))
      (List.forall_mem_map.2 fun r hr => (key _ _ (h r hr)).2.1)
      (List.forall_mem_map.2 fun r hr => (key _ _ (h r hr)).2.2)
    simp only [List.flatMap_map, List.map_map, Function.comp_def] at this
    have e : (R.flatMap fun r => Item.tok (.recordValueBegin r.1.tag (Derive.name r.1)) ::
          (Derive.valueItems r.1.dataTag r.2.1 ++ [.tok (.recordValueEnd r.1.tag (Derive.name r.1))])) =
        R.flatMap fun r => [.tok (.recordValueBegin r.1.tag (Derive.name r.1)), .val r.2.1,
          .tok (.recordValueEnd r.1.tag (Derive.name r.1))] :=
      Derive.flatMap_congr' fun r hr => by rw [(key _ _ (h r hr)).1.1]; rfl
    have e2 : (R.map fun r => (r.1.tag, (Derive.name r.1).toOwned, seen (Derive.data r.1 r.2.2))) =
        R.map fun r => (r.1.tag, (Derive.name r.1).toOwned, seen r.2.2) :=
      List.map_congr_left fun r hr => by rw [(key _ _ (h r hr)).1.2]
    rw [e, seen, seenRec_eq, List.map_map]
    simp only [Function.comp_def]
    rw [e2]
    exact this
  | recordTuple n R h =>
    have := Whole.recordTuple (B := B) m n (R.map fun r => (r.1.1.tag, Derive.name r.1.1, r.2, r.1.2.1, seen r.1.2.2))
      (List.forall_mem_map.2 fun r hr => (key _ _ (h r hr)).2.1)
      (List.forall_mem_map.2 fun r hr => (key _ _ (h r hr)).2.2)
    simp only [List.flatMap_map, List.map_map, Function.comp_def] at this
    have e : (R.flatMap fun r => Item.tok (.recordTupleValueBegin r.1.1.tag (Derive.name r.1.1) r.2) ::
          (Derive.valueItems r.1.1.dataTag r.1.2.1 ++ [.tok (.recordTupleValueEnd r.1.1.tag (Derive.name r.1.1) r.2)])) =
        R.flatMap fun r => [.tok (.recordTupleValueBegin r.1.1.tag (Derive.name r.1.1) r.2), .val r.1.2.1,
          .tok (.recordTupleValueEnd r.1.1.tag (Derive.name r.1.1) r.2)] :=
      Derive.flatMap_congr' fun r hr => by rw [(key _ _ (h r hr)).1.1]; rfl
    have e2 : (R.map fun r => (r.1.1.tag, (Derive.name r.1.1).toOwned, seen (Derive.data r.1.1 r.1.2.2))) =
        R.map fun r => (r.1.1.tag, (Derive.name r.1.1).toOwned, seen r.1.2.2) :=
      List.map_congr_left fun r hr => by rw [(key _ _ (h r hr)).1.2]
    rw [e, seen, seenRT_eq, List.map_map]
    simp only [Function.comp_def]
    rw [e2]
    exact this

theorem whole_arm (d : EnumDef) (v : Variant) (s : Option Slot) (L : List (List Item × V)) (hok : okVariant v L.length)
    (hv : match v.shape with
      | .unit => True
      | .newtype => d.dyn = false → d.unlabeledVariants = false → staticLabel v.attrs.label
      | .named fs => plainFields fs ∧
        (Derive.labeled true v.attrs (Derive.rows fs L) || Derive.indexed v.attrs (Derive.rows fs L)) = true
      | .unnamed fs => plainFields fs ∧
        (Derive.labeled false v.attrs (Derive.rows fs L) || Derive.indexed v.attrs (Derive.rows fs L)) = true)
    (hL : ∀ x ∈ L, Whole B x.1 (seen x.2)) :
    Whole B (Derive.armItems d v s (L.map (·.1))) (seen (Derive.variantTree d v (s.map Slot.index) (L.map (·.2)))) ∧
    (d.dyn = false →
      Arm B (Derive.armItems d v s (L.map (·.1))) (seen (Derive.variantTree d v (s.map Slot.index) (L.map (·.2))))) := by
  unfold okVariant at hok
  simp only [Derive.armItems, Derive.variantTree, Derive.variantMeta, variantLabel_eq]
  cases hs : v.shape with
  | unit =>
    exact ⟨⟨_, DoesA.tagOf _, .inl (opened_tag _)⟩, fun _ => ⟨_, DoesA.vtag _, variant_tag _⟩⟩
  | newtype =>
    rw [hs] at hok hv
    match L, hok with
    | [x], _ =>
      have hx := hL x (.head _)
      cases hd : d.dyn with
      | true => exact ⟨by simpa using hx.val, fun h => by cases h⟩
      | false =>
        have hm : ∀ l, Derive.variantName d v = some l → l.backing = .static := by
          intro l hl
          unfold Derive.variantName at hl
          cases hu : d.unlabeledVariants with
          | true => simp [hu] at hl
          | false =>
            simp only [hu, hd, Bool.false_and, Bool.or_self, Bool.false_eq_true, if_false, Option.some.injEq] at hl
            rw [← hl]
            exact labelOr_static _ _ (hv hd hu)
        have h1 := Whole.tagged { tag := v.attrs.tag, label := Derive.variantName d v, index := s.map Slot.index } hm hx
        have h2 := Arm.tagged { tag := v.attrs.tag, label := Derive.variantName d v, index := s.map Slot.index } hm hx
        exact ⟨by simpa [seen] using h1, fun _ => by simpa [seen] using h2⟩
  | named fs =>
    rw [hs] at hok hv
    have := whole_struct (B := B) true v.attrs
      { tag := v.attrs.tag, label := Derive.variantName d v, index := s.map Slot.index } fs L hok hv.1 hv.2 hL
    exact ⟨this.1, fun _ => this.2⟩
  | unnamed fs =>
    rw [hs] at hok hv
    have := whole_struct (B := B) false v.attrs
      { tag := v.attrs.tag, label := Derive.variantName d v, index := s.map Slot.index } fs L hok hv.1 hv.2 hL
    exact ⟨this.1, fun _ => this.2⟩

theorem keeps_map {β : Type} (g : RV → β) (named : Bool) (at' : Attrs) (fs : List Field) (vs : List RV) (h : keepsFields named at' fs vs) :
    (Derive.labeled named at' (Derive.rows fs (vs.map g)) || Derive.indexed at' (Derive.rows fs (vs.map g))) = true := by
  rw [Derive.rows_map]
  unfold keepsFields at h
  cases hr : Derive.rows fs vs <;> (rw [hr] at h; exact h)

theorem noLabel (t : Option Tag) : ∀ l, ({ tag := t } : Meta).label = some l → l.backing = .static := fun l h => by cases h

theorem whole (x : RV) (hx : ok x) (hf : free x) : Whole B (items x) (seen (tree x)) := by
  induction x using RV.ind with | h x ih => ?_
  have all : ∀ xs : List RV, (∀ y ∈ xs, y ∈ parts x) → oks xs → frees xs → ∀ y ∈ xs.map (fun x => (items x, seen (tree x))),
      Whole B y.1 y.2 := by
    intro xs h1 h2 h3
    rw [oks_iff] at h2
    rw [frees_iff] at h3
    exact List.forall_mem_map.2 fun x hx => ih x (h1 x hx) (h2 x hx) (h3 x hx)
  cases x with
  | unit => exact ⟨_, DoesA.tagOf _, .inl (.tag _)⟩
  | null => exact ⟨_, DoesA.scalar _ true fun _ _ => rfl, .inl .null⟩
  | bool b => exact ⟨_, DoesA.scalar _ false fun _ _ => rfl, .inl (.bool b)⟩
  | int t v => exact ⟨_, DoesA.scalar _ false fun _ _ => rfl, .inl (.int t v)⟩
  | f32 b => exact ⟨_, DoesA.scalar _ false fun _ _ => rfl, .inl (.f32 b)⟩
  | f64 b => exact ⟨_, DoesA.scalar _ false fun _ _ => rfl, .inl (.f64 b)⟩
  | char c => exact hf.elim
  | display fs => exact hf.elim
  | number fs => exact hf.elim
  | str s =>
    refine ⟨_, DoesA.textOf .any _ _ rfl _ s, .inl ?_⟩
    have := Opened.text (R := SeesA B) true s
    simpa [tree, seen, Frag.content] using this
  | bytes b =>
    refine ⟨_, DoesA.bytesOf .any _ _ rfl _ b, .inl ?_⟩
    have := Opened.binary (R := SeesA B) true b
    simpa [tree, seen, Frag.content] using this
  | byteArray b =>
    refine ⟨_, DoesA.tagged _ (noLabel _) (DoesA.bytesOf _ _ _ rfl _ b), .inl ?_⟩
    have := Opened.tagged (R := SeesA B) (own { tag := Option.some tags.CONSTANT_SIZE }) _ _ (Nested.sees_binary (B := B) b)
    simpa [tree, seen, Frag.content, own] using this
  | none => exact ⟨_, DoesA.tagOf _, .inl (.tag _)⟩
  | some v =>
    exact Whole.tagged _ (fun l h => by cases h; rfl) (ih v (.head _) hx hf)
  | boxed v => exact ih v (.head _) hx hf
  | slice xs =>
    have := Whole.seq (Option.some xs.length) _ (all xs (fun _ h => h) hx hf)
    simpa [items, tree, seen, seenSeq_eq, itemsAll_eq, trees_eq, Function.comp_def, sliceItems, elems_eq, List.flatMap_map] using this
  | array xs =>
    have := Whole.tagged constantSize (noLabel _) (Whole.seq (Option.some xs.length) _ (all xs (fun _ h => h) hx hf))
    simpa [items, tree, seen, seenSeq_eq, itemsAll_eq, trees_eq, Function.comp_def, sliceItems, elems_eq, List.flatMap_map,
      arrayItems, constantSize] using this
  | tuple xs =>
    have h := all xs (fun _ h => h) hx hf
    have := (Whole.tuple (B := B) {} (Option.some xs.length) (xs.zipIdx.map fun x => (Option.none, offset x.2, items x.1, seen (tree x.1)))
      (List.forall_mem_map.2 fun x hx => h _ (List.mem_map_of_mem (List.fst_mem_of_mem_zipIdx hx)))).1
    simpa [items, tree, seen, seenTup_eq, itemsAll_eq, trees_eq, Function.comp_def, tupleItems, tup_eq, List.flatMap_map, offset,
      List.zipIdx_map, own] using this
  | map ks vs =>
    rw [ok] at hx
    obtain ⟨hl, hk, hv⟩ := hx
    have hk := all ks (fun _ h => List.mem_append_left _ h) hk hf.1
    have hv := all vs (fun _ h => List.mem_append_right _ h) hv hf.2
    have := Whole.map (B := B) (Option.some ks.length)
      ((ks.zip vs).map fun x => ((items x.1, seen (tree x.1)), (items x.2, seen (tree x.2))))
      (List.forall_mem_map.2 fun x hx => hk _ (List.mem_map_of_mem (List.of_mem_zip hx).1))
      (List.forall_mem_map.2 fun x hx => hv _ (List.mem_map_of_mem (List.of_mem_zip hx).2))
    have e := entries_eq ((ks.zip vs).map fun x => ((items x.1, tree x.1), (items x.2, tree x.2)))
    have e1 : (ks.zip vs).map (fun x => items x.1) = ks.map items := by
      have := List.map_fst_zip (l₁ := ks) (l₂ := vs) (by omega)
      exact (List.map_map (f := Prod.fst) (g := items)).symm.trans (by rw [this])
    have e2 : (ks.zip vs).map (fun x => items x.2) = vs.map items := by
      have := List.map_snd_zip (l₁ := ks) (l₂ := vs) (by omega)
      exact (List.map_map (f := Prod.snd) (g := items)).symm.trans (by rw [this])
    simp only [List.map_map, Function.comp_def, e1, e2, List.flatMap_map] at e this
    rw [items, tree, itemsAll_eq, itemsAll_eq, trees_eq, trees_eq, List.zip_map, seen, seenMap_eq, List.map_map, mapItems, e]
    simpa [Function.comp_def] using this
  | unitStruct ident at' =>
    rw [items, tree, Derive.unitItems, Derive.structMeta, attrIndex_eq]
    exact ⟨_, DoesA.tagOf _, .inl (opened_tag _)⟩
  | newtype ident at' transparent v =>
    rw [items, tree, Derive.newtypeItems, Derive.structMeta, attrIndex_eq]
    have := ih v (.head _) hx hf.2
    cases transparent with
    | true => exact this.val
    | false => exact Whole.tagged _ (fun l h => by cases h; exact labelOr_static _ _ (hf.1 rfl)) this
  | struct named ident at' fs vs =>
    obtain ⟨hf1, hf2, hf3⟩ := hf
    rw [items, tree, Derive.structMeta, attrIndex_eq]
    have h := all vs (fun _ h => h) hx.2 hf3
    have := whole_struct (B := B) named at'
      { tag := at'.tag, label := Option.some (Derive.labelOr at'.label ident), index := at'.index.map attrIndex } fs
      (vs.map fun x => (items x, tree x)) (by simpa using hx.1) hf1 (keeps_map _ _ _ _ _ hf2)
      (List.forall_mem_map.2 fun x hx => h _ (List.mem_map_of_mem hx))
    simpa [itemsAll_eq, trees_eq, Function.comp_def] using this.1
  | enum d i vs =>
    rw [ok] at hx
    obtain ⟨⟨v, hv, hok⟩, hx⟩ := hx
    obtain ⟨hf1, hf2⟩ := hf
    have h := all vs (fun _ h => h) hx hf1
    have hlt : i < (Derive.variantSlots d {} d.variants).length := by
      rw [variantSlots_length]
      exact (List.getElem?_eq_some_iff.mp hv).1
    have hs : (variantIndexes d d.variants)[i]? =
        Option.some (((Derive.variantSlots d {} d.variants)[i]).map Slot.index) := by
      have := slots_eq d d.variants {}
      rw [variantIndexes, ← this]
      simp [hlt]
    rw [items, tree, Derive.enumItems, hv, List.getElem?_eq_getElem hlt, hs]
    have := whole_arm (B := B) d v (Derive.variantSlots d {} d.variants)[i] (vs.map fun x => (items x, tree x)) (by simpa using hok)
      (by
        have := hf2 v hv
        cases hsh : v.shape <;> rw [hsh] at this
        · trivial
        · exact this
        · exact ⟨this.1, keeps_map _ _ _ _ _ this.2⟩
        · exact ⟨this.1, keeps_map _ _ _ _ _ this.2⟩)
      (List.forall_mem_map.2 fun x hx => h _ (List.mem_map_of_mem hx))
    simp only [List.map_map, Function.comp_def] at this
    simp only [itemsAll_eq, trees_eq, Derive.enumMeta, attrIndex_eq, Option.getD_some]
    cases hd : d.dyn with
    | true => simpa using this.1
    | false =>
      obtain ⟨X, h1, h2⟩ := this.2 hd
      refine ⟨_, DoesA.enum _ h1, .inl ?_⟩
      exact (congrArg _ (congrArg (V.enum · _) (Nested.own_cloneMeta _))).mp (Opened.enum _ X _ h2)

end Free

/-- C71, for values of Rust types that need no copies: with or without an allocator, in every build, a recursive stream sees the
value, all the way down. -/
theorem C71_rust (x : RV) (hx : ok x) (hf : free x) (B : Nested.Build) : SeesA B ⟨true, Nested.prog (items x)⟩ (seen (tree x)) :=
  (Free.whole x hx hf).sees

/-- Not every value can be shown: one that is not borrowed is not copied. -/
theorem C71_fails_char {σ : Type} (C : Nested.Cb → σ → Res Unit σ) (c : Char) (s : σ) :
    Nested.streamA C { alloc := false } false (Nested.prog (items (.char c))) s = .done false s ∧
    Nested.streamA C { alloc := false, debugAssertions := true } false (Nested.prog (items (.char c))) s = .panicked :=
  ⟨rfl, rfl⟩

/-- A struct of an array, an enum, a map, bytes and an optional string. -/
example : let e : EnumDef :=
      { ident := t! "E", variants := [{ ident := t! "A", shape := .unit }, { ident := t! "B", shape := .newtype },
        { ident := t! "C", shape := .named [{ ident := some (t! "x") }] }] }
    let x : RV := .struct true (t! "S") {} [{ ident := some (t! "a") }, { ident := some (t! "b") }, { ident := some (t! "c") },
        { ident := some (t! "d") }]
      [.array [.int .u8 1, .int .u8 2], .enum e 2 [.enum e 1 [.unit]], .map [.str (t! "k")] [.bytes [1, 2]], .some (.str (t! "s"))]
    ok x ∧ free x ∧ seen (tree x) = .record { label := some (.new (t! "S")) } (some 4)
      [(none, .new (t! "a"), .tagged { tag := some tags.CONSTANT_SIZE } (.seq (some 2) [.int .u8 1, .int .u8 2])),
       (none, .new (t! "b"), .enum { label := some (.new (t! "E")) } (.record { label := some (.new (t! "C")), index := some { val := 2, tag := some tags.VALUE_OFFSET } } (some 1)
          [(none, .new (t! "x"), .enum { label := some (.new (t! "E")) }
            (.tagged { label := some (.new (t! "B")), index := some { val := 1, tag := some tags.VALUE_OFFSET } } (.tag (own Serde.unitMeta))))])),
       (none, .new (t! "c"), .map (some 1) [(Nested.text (t! "k"), Nested.binary [1, 2])]),
       (none, .new (t! "d"), .tagged (own Serde.someMeta) (Nested.text (t! "s")))] := by
  intro e x
  refine ⟨?_, ?_, rfl⟩
  · simp [x, e, ok, oks, okFields, okVariant, Derive.accepted, Derive.plans, Derive.optLabelOr]
  · simp [x, e, free, frees, plainFields, keepsFields, staticLabel, Derive.labeled, Derive.indexed, Derive.rows, Derive.nameOf]

end Sval
