import Verif.Props.Nested
import Verif.Props.Serde
import Verif.Rust.Emit

set_option autoImplicit false

/-!
# Properties of the values of Rust types: C38 and C42, and C37 for these
-/

namespace Sval

open Nested (Item Shows seen supported)
open Serde (calls exec_calls serializable serializableVariant serialize serV Accepts SCall nameable variantOk)
open Rust
open Derive (Field Attrs Shape Variant EnumDef IndexVal LabelVal)

/-! ## C38 -/

/-- C38. On any stream, what a value streams is what its tree streams, and the sizes in the tree are right. -/
theorem C38 {σ : Type} (S : Token → σ → σ × Bool) (x : RV) (hx : ok x) (s : σ) :
    Sval.exec S (Nested.prog (items x)) .base s = Sval.exec S (valueOf (tree x)) .base s ∧ sized (tree x) := by
  refine ⟨?_, sized_tree x hx⟩
  rw [exec_toks]
  have := exec_calls S (items x) false s
  rw [(emits x hx).calls false] at this
  exact this

/-- C38. The calls, if the stream accepts them all. -/
theorem C38_calls (x : RV) (hx : ok x) :
    Sval.exec (recorder fun _ _ => true) (Nested.prog (items x)) .base [] = (toks (tree x), true) := by
  rw [(C38 _ x hx []).1, exec_toks]
  have h : ∀ (ts h : List Token), calls (recorder fun _ _ => true) ts h = (h ++ ts, true) := by
    intro ts
    induction ts with
    | nil => simp [calls]
    | cons t ts ih => intro h; simp [calls, recorder, ih]
  simpa using h (toks (tree x)) []

/-- C38. Through `value_computed` nothing is borrowed, and the rest is as before. -/
theorem C38_computed {σ : Type} (S : Token → σ → σ × Bool) (x : RV) (hx : ok x) (s : σ) :
    Sval.exec S (Nested.prog (items x)) (.computed .base) s = calls S ((toks (tree x)).map computedTok) s := by
  have := exec_calls S (items x) true s
  rw [(emits x hx).calls true] at this
  exact this

/-- `[(1u8, "a"), (2u8, "")]` as a map, in a slice with a character and a `[u8; 2]`. -/
example : let x : RV := .slice [.map [.int .u8 1, .int .u8 2] [.boxed (.str (t! "a")), .str []], .char 'é', .array [.int .u8 7, .null]]
    ok x ∧ tree x = .seq (some 3) [
      .map (some 2) [(.int .u8 1, .text (some 1) [.borrowed (t! "a")]), (.int .u8 2, .text (some 0) [.borrowed []])],
      .text (some 2) [.computed (t! "é")],
      .tagged { tag := some tags.CONSTANT_SIZE } (.seq (some 2) [.int .u8 7, .null])] := by
  refine ⟨by simp [ok, oks], rfl⟩

/-! ## C32 for these -/

theorem supportedSeq_iff (xs : List V) : Nested.supportedSeq xs = true ↔ ∀ x ∈ xs, supported x = true := by
  induction xs with
  | nil => simp [Nested.supportedSeq]
  | cons x xs ih => simp [Nested.supportedSeq, ih]
theorem supportedMap_iff (xs : List (V × V)) : Nested.supportedMap xs = true ↔ ∀ x ∈ xs, supported x.1 = true ∧ supported x.2 = true := by
  induction xs with
  | nil => simp [Nested.supportedMap]
  | cons x xs ih => simp [Nested.supportedMap, ih, and_assoc]
theorem supportedRec_iff (xs : List (Option Tag × Label × V)) : Nested.supportedRec xs = true ↔ ∀ x ∈ xs, supported x.2.2 = true := by
  induction xs with
  | nil => simp [Nested.supportedRec]
  | cons x xs ih => simp [Nested.supportedRec, ih]
theorem supportedTup_iff (xs : List (Option Tag × Index × V)) : Nested.supportedTup xs = true ↔ ∀ x ∈ xs, supported x.2.2 = true := by
  induction xs with
  | nil => simp [Nested.supportedTup]
  | cons x xs ih => simp [Nested.supportedTup, ih]
theorem supportedRT_iff (xs : List (Option Tag × Label × Index × V)) :
    Nested.supportedRT xs = true ↔ ∀ x ∈ xs, supported x.2.2.2 = true := by
  induction xs with
  | nil => simp [Nested.supportedRT]
  | cons x xs ih => simp [Nested.supportedRT, ih]

theorem supported_data (f : Field) (v : V) (h : supported v = true) : supported (Derive.data f v) = true := by
  unfold Derive.data
  cases f.dataTag <;> exact h

theorem supported_struct (named : Bool) (at' : Attrs) (m : Meta) (fs : List Field) (vs : List V) (h : ∀ v ∈ vs, supported v = true) :
    supported (Derive.structTree named at' m fs vs) = true ∧ Nested.variant false (Derive.structTree named at' m fs vs) = true := by
  have hr : ∀ r ∈ Derive.rows fs vs, supported r.2 = true := by
    intro r hr
    exact h _ (List.of_mem_zip (List.mem_filter.mp hr).1).2
  have he : ∀ r ∈ Derive.entries (Derive.rows fs vs), supported r.1.2 = true := fun r h => hr _ (List.of_mem_zip h).1
  dsimp only [Derive.structTree]
  cases Derive.labeled named at' (Derive.rows fs vs) <;> cases Derive.indexed at' (Derive.rows fs vs)
  · refine ⟨?_, rfl⟩
    simp only [supported, supportedSeq_iff]
    intro x hx
    obtain ⟨r, h, rfl⟩ := List.mem_map.mp hx
    exact supported_data _ _ (hr r h)
  · refine ⟨?_, rfl⟩
    simp only [supported, supportedTup_iff]
    intro x hx
    obtain ⟨r, h, rfl⟩ := List.mem_map.mp hx
    exact supported_data _ _ (he r h)
  · refine ⟨?_, rfl⟩
    simp only [supported, supportedRec_iff]
    intro x hx
    obtain ⟨r, h, rfl⟩ := List.mem_map.mp hx
    exact supported_data _ _ (hr r h)
  · refine ⟨?_, rfl⟩
    simp only [supported, supportedRT_iff]
    intro x hx
    obtain ⟨r, h, rfl⟩ := List.mem_map.mp hx
    exact supported_data _ _ (he r h)

/-- All of them are supported by recursive streams. -/
theorem supported_tree (x : RV) (hx : ok x) : supported (tree x) = true := by
  induction x using RV.ind with | h x ih => ?_
  have all : ∀ xs : List RV, (∀ x ∈ xs, x ∈ xs → supported (tree x) = true) → ∀ v ∈ trees xs, supported v = true := by
    intro xs h v hv
    rw [trees_eq] at hv
    obtain ⟨x, hx, rfl⟩ := List.mem_map.mp hv
    exact h x hx hx
  cases x with
  | unit | null | bool | int | f32 | f64 | char | str | display | bytes | byteArray | number | none | unitStruct => rfl
  | some v => exact ih v (.head _) hx
  | slice xs =>
    rw [ok, oks_iff] at hx
    simp only [tree, supported, supportedSeq_iff]
    exact all xs fun x h _ => ih x h (hx x h)
  | array xs =>
    rw [ok, oks_iff] at hx
    simp only [tree, supported, supportedSeq_iff]
    exact all xs fun x h _ => ih x h (hx x h)
  | tuple xs =>
    rw [ok, oks_iff] at hx
    simp only [tree, supported, supportedTup_iff]
    intro y hy
    obtain ⟨z, hz, rfl⟩ := List.mem_map.mp hy
    exact all xs (fun x h _ => ih x h (hx x h)) _ (List.fst_mem_of_mem_zipIdx hz)
  | map ks vs =>
    rw [ok, oks_iff, oks_iff] at hx
    simp only [tree, supported, supportedMap_iff]
    intro y hy
    exact ⟨all ks (fun x h _ => ih x (List.mem_append_left _ h) (hx.2.1 x h)) _ (List.of_mem_zip hy).1,
      all vs (fun x h _ => ih x (List.mem_append_right _ h) (hx.2.2 x h)) _ (List.of_mem_zip hy).2⟩
  | boxed v => exact ih v (.head _) hx
  | newtype ident at' transparent v =>
    rw [tree]
    cases transparent <;> exact ih v (.head _) hx
  | struct named ident at' fs vs =>
    rw [ok, oks_iff] at hx
    exact (supported_struct _ _ _ _ _ (all vs fun x h _ => ih x h (hx.2 x h))).1
  | enum d i vs =>
    rw [ok, oks_iff] at hx
    obtain ⟨⟨v, hv, hok⟩, hx⟩ := hx
    have hvs := all vs fun x h _ => ih x h (hx x h)
    have key : ∀ j, supported (Derive.variantTree d v j (trees vs)) = true ∧
        (d.dyn = false → Nested.variant false (Derive.variantTree d v j (trees vs)) = true) := by
      intro j
      dsimp only [Derive.variantTree]
      rw [okVariant] at hok
      cases hs : v.shape with
      | unit => exact ⟨rfl, fun _ => rfl⟩
      | newtype =>
        cases hts : trees vs with
        | nil =>
          rw [hs] at hok
          have := congrArg List.length hts
          rw [trees_eq, List.length_map, hok] at this
          cases this
        | cons y ys =>
          have := hvs y (by rw [hts]; exact .head _)
          cases d.dyn
          · exact ⟨this, fun _ => rfl⟩
          · exact ⟨this, fun h => by cases h⟩
      | named fs => exact ⟨(supported_struct _ _ _ _ _ hvs).1, fun _ => (supported_struct _ _ _ _ _ hvs).2⟩
      | unnamed fs => exact ⟨(supported_struct _ _ _ _ _ hvs).1, fun _ => (supported_struct _ _ _ _ _ hvs).2⟩
    simp only [tree, hv]
    cases hd : d.dyn with
    | true => exact (key _).1
    | false =>
      simp only [Bool.false_eq_true, if_false, supported, Bool.and_eq_true]
      exact ⟨(key _).2 hd, (key _).1⟩

/-- C32 for all values of Rust types without flattened fields: a recursive stream sees the tree. -/
theorem C32_rust (x : RV) (hx : ok x) (borrowed : Bool) : Nested.Sees ⟨borrowed, Nested.prog (items x)⟩ (seen (tree x)) :=
  C32_parts_partial _ _ (emits x hx).shows (by rw [Nested.supported_seen]; exact supported_tree x hx) borrowed

/-! ## C42 -/

/-- C42. `stream_ref` makes the calls of `stream`, on any stream, directly or from within `value_computed`. -/
theorem C42 {σ : Type} (S : Token → σ → σ × Bool) (r : RR) (hr : ok r.value) (computed : Bool) (s : σ) :
    Sval.exec S (Nested.prog (refItems r)) (if computed then .computed .base else .base) s =
      Sval.exec S (Nested.prog (items r.value)) (if computed then .computed .base else .base) s := by
  have h1 := exec_calls S (refItems r) computed s
  have h2 := exec_calls S (items r.value) computed s
  rw [(ref_emits r hr).calls] at h1
  rw [(emits r.value hr).calls] at h2
  exact h1.trans h2.symm

/-- C42. A recursive stream sees the same. -/
theorem C42_nested (r : RR) (hr : ok r.value) (borrowed : Bool) :
    Nested.Sees ⟨borrowed, Nested.prog (refItems r)⟩ (seen (tree r.value)) :=
  C32_parts_partial _ _ (ref_emits r hr).shows (by rw [Nested.supported_seen]; exact supported_tree _ hr) borrowed

example : let r : RR := .slice [.array [.ref (.int .u8 1)], .tuple [.boxed (.ref (.str (t! "a"))), .ref (.slice [])]]
    ok r.value ∧ Nested.flat (refItems r) false = toks (tree r.value) := by
  refine ⟨by simp [ok, oks, RR.value, RR.values], rfl⟩

/-! ## C37 for these -/

/-- Labels of other crates can be of strings that are not static. -/
def staticLabel : Option LabelVal → Prop
  | some (.path l) => l.backing = .static
  | _ => True

def plainFields (fs : List Field) : Prop := ∀ f ∈ fs, f.skip = true ∨ f.dataTag = none ∧ staticLabel f.label

/-- The fields of a variant. -/
def Shape.fields : Shape → List Field
  | .named fs | .unnamed fs => fs
  | _ => []

mutual
/-- Without arrays, numbers as text, and data tags; with labels that are static; and with labels and indexes in 32 bits
on the variants of enums. -/
def plain : RV → Prop
  | .array _ | .byteArray _ | .number _ => False
  | .some v | .boxed v => plain v
  | .slice xs | .tuple xs => plains xs
  | .map ks vs => plains ks ∧ plains vs
  | .unitStruct _ at' => staticLabel at'.label
  | .newtype _ at' _ v => staticLabel at'.label ∧ plain v
  | .struct _ _ at' fs vs => staticLabel at'.label ∧ plainFields fs ∧ plains vs
  | .enum d i vs => staticLabel d.label ∧ d.unlabeledVariants = false ∧ plains vs ∧
      ∀ v, d.variants[i]? = some v → staticLabel v.attrs.label ∧ plainFields (Shape.fields v.shape) ∧
        if d.dyn then v.attrs.unindexed = false
        else ∃ k, (variantIndexes d d.variants)[i]? = some (some k) ∧ 0 ≤ k.val ∧ k.val < 4294967296
  | _ => True

def plains : List RV → Prop
  | [] => True
  | x :: xs => plain x ∧ plains xs
end

theorem plains_iff (xs : List RV) : plains xs ↔ ∀ x ∈ xs, plain x := by
  induction xs with
  | nil => simp [plains]
  | cons x xs ih => simp [plains, ih]

theorem serializables_iff (xs : List V) : Serde.serializables xs = true ↔ ∀ x ∈ xs, serializable x = true := by
  induction xs with
  | nil => simp [Serde.serializables]
  | cons x xs ih => simp [Serde.serializables, ih]
theorem serializableMap_iff (xs : List (V × V)) :
    Serde.serializableMap xs = true ↔ ∀ x ∈ xs, serializable x.1 = true ∧ serializable x.2 = true := by
  induction xs with
  | nil => simp [Serde.serializableMap]
  | cons x xs ih => simp [Serde.serializableMap, ih, and_assoc]
theorem serializableTup_iff (xs : List (Option Tag × Index × V)) :
    Serde.serializableTup xs = true ↔ ∀ x ∈ xs, serializable x.2.2 = true := by
  induction xs with
  | nil => simp [Serde.serializableTup]
  | cons x xs ih => simp [Serde.serializableTup, ih]
theorem serializableRec_of (b : Bool) (xs : List (Option Tag × Label × V))
    (h : ∀ x ∈ xs, x.2.1.backing = .static ∧ serializable x.2.2 = true) : Serde.serializableRec b xs = true := by
  induction xs with
  | nil => rfl
  | cons x xs ih =>
    have := h x (.head _)
    simp [Serde.serializableRec, this, ih fun y hy => h y (.tail _ hy)]
theorem serializableRT_of (b : Bool) (xs : List (Option Tag × Label × Index × V))
    (h : ∀ x ∈ xs, x.2.1.backing = .static ∧ serializable x.2.2.2 = true) : Serde.serializableRT b xs = true := by
  induction xs with
  | nil => rfl
  | cons x xs ih =>
    have := h x (.head _)
    simp [Serde.serializableRT, this, ih fun y hy => h y (.tail _ hy)]

theorem labelOr_static (l : Option LabelVal) (ident : Text) (h : staticLabel l) : (Derive.labelOr l ident).backing = .static := by
  match l, h with
  | none, _ => rfl
  | some (.const s), _ => rfl
  | some (.path l), h => exact h

theorem name_static (f : Field) (h : staticLabel f.label) : (Derive.name f).backing = .static := by
  unfold Derive.name Derive.nameOf
  match hl : f.label with
  | none => cases f.ident <;> rfl
  | some (.const s) => rfl
  | some (.path l) => rw [hl] at h; exact h

theorem serializable_struct (named : Bool) (at' : Attrs) (m : Meta) (fs : List Field) (vs : List V)
    (hf : plainFields fs) (h : ∀ v ∈ vs, serializable v = true) :
    (nameable m.label = true → m.label.isSome = true ∨ at'.unindexed = false →
      serializable (Derive.structTree named at' m fs vs) = true) ∧
    (variantOk m = true → serializableVariant (Derive.structTree named at' m fs vs) = true) := by
  have hfield : ∀ r ∈ Derive.rows fs vs, (Derive.name r.1).backing = .static ∧ serializable (Derive.data r.1 r.2) = true := by
    intro r hr
    have hm := List.mem_filter.mp hr
    have hv := h _ (List.of_mem_zip hm.1).2
    rcases hf r.1 (List.of_mem_zip hm.1).1 with hs | ⟨h1, h2⟩
    · rw [hs] at hm; cases hm.2
    · refine ⟨name_static _ h2, ?_⟩
      unfold Derive.data
      rw [h1]
      exact hv
  have he : ∀ r ∈ Derive.entries (Derive.rows fs vs),
      (Derive.name r.1.1).backing = .static ∧ serializable (Derive.data r.1.1 r.1.2) = true :=
    fun r h => hfield _ (List.of_mem_zip h).1
  dsimp only [Derive.structTree]
  cases hl : Derive.labeled named at' (Derive.rows fs vs) <;> cases hi : Derive.indexed at' (Derive.rows fs vs)
  · have hs : Serde.serializables ((Derive.rows fs vs).map fun r => Derive.data r.1 r.2) = true := by
      rw [serializables_iff]
      intro x hx
      obtain ⟨r, h, rfl⟩ := List.mem_map.mp hx
      exact (hfield r h).2
    refine ⟨fun h1 h2 => ?_, fun h1 => ?_⟩
    · rcases h2 with h2 | h2
      · simp [serializable, h1, h2, hs]
      · simp [Derive.indexed, h2] at hi
    · simp [serializableVariant, serializable, h1, hs]
  · have hs : Serde.serializableTup ((Derive.entries (Derive.rows fs vs)).map fun r =>
        (r.1.1.tag, r.2, Derive.data r.1.1 r.1.2)) = true := by
      rw [serializableTup_iff]
      intro x hx
      obtain ⟨r, h, rfl⟩ := List.mem_map.mp hx
      exact (he r h).2
    exact ⟨fun h1 _ => by simp [serializable, h1, hs], fun h1 => by simp [serializableVariant, h1, hs]⟩
  · have hs : ∀ b, Serde.serializableRec b ((Derive.rows fs vs).map fun r =>
        (r.1.tag, Derive.name r.1, Derive.data r.1 r.2)) = true := by
      intro b
      refine serializableRec_of b _ fun x hx => ?_
      obtain ⟨r, h, rfl⟩ := List.mem_map.mp hx
      exact hfield r h
    exact ⟨fun h1 _ => by simp [serializable, h1, hs], fun h1 => by simp [serializableVariant, h1, hs]⟩
  · have hs : ∀ b, Serde.serializableRT b ((Derive.entries (Derive.rows fs vs)).map fun r =>
        (r.1.1.tag, Derive.name r.1.1, r.2, Derive.data r.1.1 r.1.2)) = true := by
      intro b
      refine serializableRT_of b _ fun x hx => ?_
      obtain ⟨r, h, rfl⟩ := List.mem_map.mp hx
      exact he r h
    exact ⟨fun h1 _ => by simp [serializable, h1, hs], fun h1 => by simp [serializableVariant, h1, hs]⟩

theorem variantOk_of (m : Meta) (l : Label) (k : Index) (h1 : m.label = some l) (h2 : m.index = some k) (h3 : l.backing = .static)
    (h4 : 0 ≤ k.val) (h5 : k.val < 4294967296) : variantOk m = true := by
  simp [variantOk, h1, h2, h3, h4, h5]

theorem serializable_tree (x : RV) (hx : ok x) (hp : plain x) : serializable (tree x) = true := by
  induction x using RV.ind with | h x ih => ?_
  have all : ∀ xs : List RV, (∀ x ∈ xs, x ∈ xs → serializable (tree x) = true) → ∀ v ∈ trees xs, serializable v = true := by
    intro xs h v hv
    rw [trees_eq] at hv
    obtain ⟨x, hx, rfl⟩ := List.mem_map.mp hv
    exact h x hx hx
  cases x with
  | unit | null | bool | int | f32 | f64 | char | str | display | bytes | none => rfl
  | array | byteArray | number => exact absurd hp id
  | some v =>
    have := ih v (.head _) hx hp
    simp [tree, serializable, this, variant]
  | slice xs =>
    rw [ok, oks_iff] at hx
    rw [plain, plains_iff] at hp
    simp only [tree, serializable, serializables_iff]
    exact all xs fun x h _ => ih x h (hx x h) (hp x h)
  | tuple xs =>
    rw [ok, oks_iff] at hx
    rw [plain, plains_iff] at hp
    simp only [tree, serializable, Option.isSome_some, nameable, Bool.and_self, Bool.true_and, serializableTup_iff]
    intro y hy
    obtain ⟨z, hz, rfl⟩ := List.mem_map.mp hy
    exact all xs (fun x h _ => ih x h (hx x h) (hp x h)) _ (List.fst_mem_of_mem_zipIdx hz)
  | map ks vs =>
    rw [ok, oks_iff, oks_iff] at hx
    rw [plain, plains_iff, plains_iff] at hp
    simp only [tree, serializable, serializableMap_iff]
    intro y hy
    exact ⟨all ks (fun x h _ => ih x (List.mem_append_left _ h) (hx.2.1 x h) (hp.1 x h)) _ (List.of_mem_zip hy).1,
      all vs (fun x h _ => ih x (List.mem_append_right _ h) (hx.2.2 x h) (hp.2 x h)) _ (List.of_mem_zip hy).2⟩
  | boxed v => exact ih v (.head _) hx hp
  | unitStruct ident at' =>
    have := labelOr_static at'.label ident hp
    simp [tree, serializable, nameable, this]
  | newtype ident at' transparent v =>
    have h1 := labelOr_static at'.label ident hp.1
    have h2 := ih v (.head _) hx hp.2
    rw [tree]
    cases transparent with
    | true => exact h2
    | false => simp [serializable, nameable, h1, h2]
  | struct named ident at' fs vs =>
    rw [ok, oks_iff] at hx
    rw [plain, plains_iff] at hp
    exact (serializable_struct named at' _ fs _ hp.2.1 (all vs fun x h _ => ih x h (hx.2 x h) (hp.2.2 x h))).1
      (by simp [nameable, labelOr_static at'.label ident hp.1]) (.inl rfl)
  | enum d i vs =>
    rw [ok, oks_iff] at hx
    rw [plain, plains_iff] at hp
    obtain ⟨⟨v, hv, hok⟩, hx⟩ := hx
    obtain ⟨hp1, hp2, hp3, hp4⟩ := hp
    obtain ⟨hl, hf, hp4⟩ := hp4 v hv
    have hlab := labelOr_static v.attrs.label v.ident hl
    have hvs := all vs fun x h _ => ih x h (hx x h) (hp3 x h)
    simp only [tree, hv]
    cases hd : d.dyn with
    | true =>
      rw [hd] at hp4
      simp only [if_true] at hp4 ⊢
      dsimp only [Derive.variantTree]
      rw [okVariant] at hok
      cases hs : v.shape with
      | unit => simp [serializable, nameable, Derive.variantName, Derive.isUnit, hs, hp2, hlab]
      | newtype =>
        cases hts : trees vs with
        | nil => rfl
        | cons y ys => simpa [hd] using hvs y (by rw [hts]; exact .head _)
      | named fs =>
        rw [hs] at hf
        exact (serializable_struct true v.attrs _ fs _ hf hvs).1 (by simp [Derive.variantName, Derive.isUnit, hs, hd, nameable]) (.inr hp4)
      | unnamed fs =>
        rw [hs] at hf
        exact (serializable_struct false v.attrs _ fs _ hf hvs).1 (by simp [Derive.variantName, Derive.isUnit, hs, hd, nameable]) (.inr hp4)
    | false =>
      rw [hd] at hp4
      simp only [Bool.false_eq_true, if_false] at hp4 ⊢
      obtain ⟨k, hk, hk0, hk1⟩ := hp4
      rw [hk]
      have hname : nameable (some (Derive.labelOr d.label d.ident)) = true := by
        simp [nameable, labelOr_static d.label d.ident hp1]
      have hlabel : Derive.variantName d v = some (Derive.labelOr v.attrs.label v.ident) := by
        simp [Derive.variantName, hp2, hd]
      have hvar : variantOk { tag := v.attrs.tag, label := some (Derive.labelOr v.attrs.label v.ident), index := some k } = true :=
        variantOk_of _ _ _ rfl rfl hlab hk0 hk1
      have key : serializableVariant (Derive.variantTree d v (some k) (trees vs)) = true := by
        simp only [Derive.variantTree, hlabel]
        rw [okVariant] at hok
        cases hs : v.shape with
        | unit => exact hvar
        | newtype =>
          rw [hs] at hok
          cases hts : trees vs with
          | nil =>
            have := congrArg List.length hts
            rw [trees_eq, List.length_map, hok] at this
            cases this
          | cons y ys =>
            have := hvs y (by rw [hts]; exact .head _)
            simp [hd, serializableVariant, hvar, this]
        | named fs =>
          rw [hs] at hf
          exact (serializable_struct true v.attrs _ fs _ hf hvs).2 hvar
        | unnamed fs =>
          rw [hs] at hf
          exact (serializable_struct false v.attrs _ fs _ hf hvs).2 hvar
      simp only [serializable, Option.isSome_some, Bool.true_and, hname, Option.getD_some]
      exact key

/-- C37 for the values of Rust types. Missing: arrays, numbers as text, data tags, labels that are not static, variants
without a label or an index of 32 bits, and flattened fields. `C37_rust_fails` is about some. -/
theorem C37_rust_partial {ε τ : Type} (custom : ε) (S : SCall ε τ → τ → Res ε τ) (hS : Accepts S) (x : RV) (hx : ok x) (hp : plain x) :
    ∃ N, ∀ d ≥ N, ∀ s, ∃ s', serialize custom S d (Nested.prog (items x)) s = .ok s' := by
  obtain ⟨N, hN⟩ := Serde.serialize_shows custom S (emits x hx).shows (by rw [Nested.supported_seen]; exact supported_tree x hx)
  refine ⟨N, fun d hd s => ?_⟩
  have := (Serde.always_serV (custom := custom) hS (tree x)).1
  rw [serializable_tree x hx hp] at this
  rw [hN d hd s, (Serde.serV_seen custom S _).1]
  exact this s

/-- A map of text to options, and a tuple. -/
example : let x : RV := .tuple [.map [.str (t! "a"), .str []] [.some (.int .u8 1), .none], .boxed (.slice [.unit, .char 'é'])]
    ok x ∧ plain x := by
  simp [ok, oks, plain, plains]

/-- C37. Arrays, arrays of bytes, arbitrary precision numbers and fields with data tags are not serialized. -/
theorem C37_rust_fails {ε τ : Type} (custom : ε) (S : SCall ε τ → τ → Res ε τ) :
    ∃ N, ∀ d ≥ N, ∀ s,
      serialize custom S d (Nested.prog (items (.array []))) s = .err custom s ∧
      serialize custom S d (Nested.prog (items (.byteArray [1]))) s = .err custom s ∧
      serialize custom S d (Nested.prog (items (.number [t! "1"]))) s = .err custom s := by
  have h : ∀ x : RV, ok x → ∃ N, ∀ d ≥ N, ∀ s, serialize custom S d (Nested.prog (items x)) s = serV custom S (tree x) s := by
    intro x hx
    obtain ⟨N, hN⟩ := Serde.serialize_shows custom S (emits x hx).shows (by rw [Nested.supported_seen]; exact supported_tree x hx)
    exact ⟨N, fun d hd s => by rw [hN d hd s, (Serde.serV_seen custom S _).1]⟩
  obtain ⟨N1, h1⟩ := h (.array []) (by simp [ok, oks])
  obtain ⟨N2, h2⟩ := h (.byteArray [1]) trivial
  obtain ⟨N3, h3⟩ := h (.number [t! "1"]) trivial
  exact ⟨max N1 (max N2 N3), fun d hd s =>
    ⟨(h1 d (by omega) s).trans rfl, (h2 d (by omega) s).trans rfl, (h3 d (by omega) s).trans rfl⟩⟩

end Sval
