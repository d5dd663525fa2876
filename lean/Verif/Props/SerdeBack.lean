import Verif.Serde.Back
import Verif.Props.RustJson

set_option autoImplicit false

/-!
# Properties of values that go to serde, and their JSON: C79

`Serde.svOf v`, in `Serde/Back`, is the serde value that `v` is.
-/

namespace Sval

open Nested (prog)
open Serde (SCall SV serialize ser serV svOf alike serializable toValue)
open Json (J Env Doc parse)

/-! ## The serde value -/

/-- C79. A serializer is given a value through `sval_serde` exactly as it is given the serde value `svOf v`. -/
theorem C79_calls {τ : Type} (S : SCall Unit τ → τ → Res Unit τ) (v : V) (x : SV) (h : svOf v = some x) :
    ∃ N, ∀ d ≥ N, ∀ s, serialize () S d (valueOf v) s = ser S x s := by
  have hs : serializable v = true := by rw [← (Serde.svOf_isSome v).1, h]; rfl
  obtain ⟨N, hN⟩ := C37_calls () S v ((supported_of_serializable v).1 hs)
  exact ⟨N, fun d hd s => by rw [hN d hd s, (Serde.serV_svOf S v).1 x h]⟩

/-- C79. The values that serializers accept, `C37_partial` and `C37_exact`, are those that are some serde value. -/
theorem C79_iff (v : V) : serializable v = true ↔ ∃ x, svOf v = some x := by
  rw [← (Serde.svOf_isSome v).1, Option.isSome_iff_exists]

/-- C79, as far as it holds: a value and the serde value that it is have the same JSON, and so has the serde value's
sval value. Missing: records without a name, `C79_fails_record`; tagged values of `alike`; and what C19 and C67 do not
cover. -/
theorem C79_partial (env : Env) (v : V) (x : SV) (j : J) (hx : svOf v = some x) (ha : alike v = true)
    (hj : Json.value env v = some j) (hs : Json.safe v = true) :
    Serde.doc env .str x = some j ∧
    (∃ t, Json.toString env (valueOf v) = some t ∧ parse t = some j ∧ ∀ j', Doc j' t → j' = j) ∧
    ∃ t, Json.toString env (prog (toValue x)) = some t ∧ parse t = some j ∧ ∀ j', Doc j' t → j' = j := by
  have hd := (Serde.alike_svOf env v).value ha x hx j hj
  exact ⟨hd, C20_round_trip_partial env v j hj hs, C67_partial env x j hd ((Serde.clear_svOf v).1 ha hs x hx)⟩

/-- C79. Where the serde value has no unit structs, its document is the usual one. -/
theorem C79_usual_partial (env : Env) (v : V) (x : SV) (j : J) (hx : svOf v = some x) (ha : alike v = true)
    (hj : Json.value env v = some j) (hu : unitless x = true) : Serde.doc env (fun _ => .null) x = some j := by
  rw [doc_unit env _ .str x hu]
  exact (Serde.alike_svOf env v).value ha x hx j hj

/-! ## Values of Rust types -/

namespace Rust

mutual
/-- Without unit structs tagged as `()`, and without `#[sval(dynamic)]` on enums with fields in the variant. -/
def usual : RV → Bool
  | .some v | .boxed v | .newtype _ _ _ v => usual v
  | .slice xs | .array xs | .tuple xs | .struct _ _ _ _ xs => usuals xs
  | .map ks vs => usuals ks && usuals vs
  | .unitStruct _ at' => at'.tag != some tags.RUST_UNIT
  | .enum d i vs =>
    usuals vs &&
    match d.variants[i]? with
    | none => true
    | some v => !d.dyn || match v.shape with
      | .unit => v.attrs.tag != some tags.RUST_UNIT
      | .newtype => true
      | .named _ | .unnamed _ => false
  | _ => true
def usuals : List RV → Bool
  | [] => true
  | x :: xs => usual x && usuals xs
end

theorem usuals_iff (xs : List RV) : usuals xs = true ↔ ∀ x ∈ xs, usual x = true := by
  induction xs with
  | nil => simp [usuals]
  | cons x xs ih => simp [usuals, ih]

theorem alikes_iff (xs : List V) : Serde.alikes xs = true ↔ ∀ x ∈ xs, alike x = true := by
  induction xs with
  | nil => simp [Serde.alikes]
  | cons x xs ih => simp [Serde.alikes, ih]
theorem alikeMap_iff (xs : List (V × V)) : Serde.alikeMap xs = true ↔ ∀ x ∈ xs, alike x.1 = true ∧ alike x.2 = true := by
  induction xs with
  | nil => simp [Serde.alikeMap]
  | cons x xs ih => simp [Serde.alikeMap, ih, and_assoc]
theorem alikeTup_iff (xs : List (Option Tag × Index × V)) : Serde.alikeTup xs = true ↔ ∀ x ∈ xs, alike x.2.2 = true := by
  induction xs with
  | nil => simp [Serde.alikeTup]
  | cons x xs ih => simp [Serde.alikeTup, ih]
theorem alikeRec_iff (xs : List (Option Tag × Label × V)) : Serde.alikeRec xs = true ↔ ∀ x ∈ xs, alike x.2.2 = true := by
  induction xs with
  | nil => simp [Serde.alikeRec]
  | cons x xs ih => simp [Serde.alikeRec, ih]
theorem alikeRT_iff (xs : List (Option Tag × Label × Index × V)) : Serde.alikeRT xs = true ↔ ∀ x ∈ xs, alike x.2.2.2 = true := by
  induction xs with
  | nil => simp [Serde.alikeRT]
  | cons x xs ih => simp [Serde.alikeRT, ih]

theorem alike_struct (named : Bool) (at' : Derive.Attrs) (m : Meta) (fs : List Derive.Field) (vs : List V)
    (hf : plainFields fs) (ht : Json.isSpecialTag m.tag = false) (h : ∀ v ∈ vs, alike v = true) :
    (m.label.isSome = true → alike (Derive.structTree named at' m fs vs) = true) ∧
    Serde.alikeVariant (Derive.structTree named at' m fs vs) = true := by
  have hfield : ∀ r ∈ Derive.rows fs vs, alike (Derive.data r.1 r.2) = true := by
    intro r hr
    have hm := List.mem_filter.mp hr
    have hv := h _ (List.of_mem_zip hm.1).2
    rcases hf r.1 (List.of_mem_zip hm.1).1 with hs | ⟨h1, h2⟩
    · rw [hs] at hm; cases hm.2
    · unfold Derive.data
      rw [h1]
      exact hv
  have he : ∀ r ∈ Derive.entries (Derive.rows fs vs), alike (Derive.data r.1.1 r.1.2) = true :=
    fun r h => hfield _ (List.of_mem_zip h).1
  have hid : m.label.isSome = true → (Json.idOf m).isSome = true := by
    intro h
    cases hm : m.label with
    | none => rw [hm] at h; cases h
    | some l => simp [Json.idOf, hm]
  dsimp only [Derive.structTree]
  cases hl : Derive.labeled named at' (Derive.rows fs vs) <;> cases hi : Derive.indexed at' (Derive.rows fs vs)
  · have hs : Serde.alikes ((Derive.rows fs vs).map fun r => Derive.data r.1 r.2) = true := by
      rw [alikes_iff]
      intro x hx
      obtain ⟨r, h, rfl⟩ := List.mem_map.mp hx
      exact hfield r h
    exact ⟨fun h1 => by simp [alike, hid h1, ht, hs], by simp [Serde.alikeVariant, alike, ht, hs]⟩
  · have hs : Serde.alikeTup ((Derive.entries (Derive.rows fs vs)).map fun r =>
        (r.1.1.tag, r.2, Derive.data r.1.1 r.1.2)) = true := by
      rw [alikeTup_iff]
      intro x hx
      obtain ⟨r, h, rfl⟩ := List.mem_map.mp hx
      exact he r h
    exact ⟨fun _ => by simp [alike, hs], by simp [Serde.alikeVariant, hs]⟩
  · have hs : Serde.alikeRec ((Derive.rows fs vs).map fun r =>
        (r.1.tag, Derive.name r.1, Derive.data r.1 r.2)) = true := by
      rw [alikeRec_iff]
      intro x hx
      obtain ⟨r, h, rfl⟩ := List.mem_map.mp hx
      exact hfield r h
    exact ⟨fun h1 => by simp [alike, h1, hs], by simp [Serde.alikeVariant, hs]⟩
  · have hs : Serde.alikeRT ((Derive.entries (Derive.rows fs vs)).map fun r =>
        (r.1.1.tag, Derive.name r.1.1, r.2, Derive.data r.1.1 r.1.2)) = true := by
      rw [alikeRT_iff]
      intro x hx
      obtain ⟨r, h, rfl⟩ := List.mem_map.mp hx
      exact he r h
    exact ⟨fun h1 => by simp [alike, h1, hs], by simp [Serde.alikeVariant, hs]⟩

theorem alike_tree (x : RV) (hx : ok x) (hp : plain x) (ht : tidy x = true) (hu : usual x = true) : alike (tree x) = true := by
  induction x using RV.ind with | h x ih => ?_
  have all : ∀ xs : List RV, (∀ x ∈ xs, x ∈ xs → alike (tree x) = true) → ∀ v ∈ trees xs, alike v = true := by
    intro xs h v hv
    rw [trees_eq] at hv
    obtain ⟨x, hx, rfl⟩ := List.mem_map.mp hv
    exact h x hx hx
  cases x with
  | unit | null | bool | int | f32 | f64 | char | str | display | bytes | none => rfl
  | array | byteArray | number => exact absurd hp id
  | some v =>
    rw [tidy] at ht
    rw [usual] at hu
    have := ih v (.head _) hx hp ht hu
    rw [tree, alike, this]
    rfl
  | slice xs =>
    rw [ok, oks_iff] at hx
    rw [plain, plains_iff] at hp
    rw [tidy, tidies_iff] at ht
    rw [usual, usuals_iff] at hu
    rw [tree, alike, alikes_iff]
    exact all xs fun x h _ => ih x h (hx x h) (hp x h) (ht x h) (hu x h)
  | tuple xs =>
    rw [ok, oks_iff] at hx
    rw [plain, plains_iff] at hp
    rw [tidy, tidies_iff] at ht
    rw [usual, usuals_iff] at hu
    rw [tree, alike, alikeTup_iff]
    intro y hy
    obtain ⟨z, hz, rfl⟩ := List.mem_map.mp hy
    exact all xs (fun x h _ => ih x h (hx x h) (hp x h) (ht x h) (hu x h)) _ (List.fst_mem_of_mem_zipIdx hz)
  | map ks vs =>
    rw [ok, oks_iff, oks_iff] at hx
    rw [plain, plains_iff, plains_iff] at hp
    rw [tidy, Bool.and_eq_true, tidies_iff, tidies_iff] at ht
    rw [usual, Bool.and_eq_true, usuals_iff, usuals_iff] at hu
    rw [tree, alike, alikeMap_iff]
    intro y hy
    exact ⟨all ks (fun x h _ => ih x (List.mem_append_left _ h) (hx.2.1 x h) (hp.1 x h) (ht.1 x h) (hu.1 x h)) _ (List.of_mem_zip hy).1,
      all vs (fun x h _ => ih x (List.mem_append_right _ h) (hx.2.2 x h) (hp.2 x h) (ht.2 x h) (hu.2 x h)) _ (List.of_mem_zip hy).2⟩
  | boxed v =>
    rw [tidy] at ht
    rw [usual] at hu
    exact ih v (.head _) hx hp ht hu
  | unitStruct ident at' =>
    rw [usual] at hu
    simp only [tree, alike, hu, Bool.true_or]
  | newtype ident at' transparent v =>
    rw [tidy, Bool.and_eq_true] at ht
    rw [usual] at hu
    have h2 := ih v (.head _) hx hp.2 ht.2 hu
    rw [tree]
    cases transparent with
    | true => exact h2
    | false =>
      simp only [Bool.false_eq_true, if_false, alike, plainTag_special _ ht.1, h2]
      simp [Json.idOf]
  | struct named ident at' fs vs =>
    rw [ok, oks_iff] at hx
    rw [plain, plains_iff] at hp
    rw [tidy, Bool.and_eq_true, Bool.and_eq_true, tidies_iff] at ht
    rw [usual, usuals_iff] at hu
    exact (alike_struct named at' _ fs _ hp.2.1 (plainTag_special _ ht.1.1)
      (all vs fun x h _ => ih x h (hx.2 x h) (hp.2.2 x h) (ht.2 x h) (hu x h))).1 rfl
  | enum d i vs =>
    rw [ok, oks_iff] at hx
    rw [plain, plains_iff] at hp
    obtain ⟨⟨v, hv, hok⟩, hx⟩ := hx
    obtain ⟨hp1, hp2, hp3, hp4⟩ := hp
    obtain ⟨hl, hf, hp4⟩ := hp4 v hv
    rw [tidy, hv] at ht
    simp only [Bool.and_eq_true, tidies_iff, bne_iff_ne] at ht
    obtain ⟨⟨⟨ht1, ht2⟩, _⟩, ht⟩ := ht
    have hspecial := plainTag_special _ ht1
    rw [usual, hv, Bool.and_eq_true, usuals_iff] at hu
    obtain ⟨hu, hu'⟩ := hu
    have hvs := all vs fun x h _ => ih x h (hx x h) (hp3 x h) (ht x h) (hu x h)
    simp only [tree, hv]
    cases hd : d.dyn with
    | true =>
      simp only [if_true]
      dsimp only [Derive.variantTree]
      cases hs : v.shape with
      | unit =>
        simp only [hd, hs, Bool.not_true, Bool.false_or] at hu'
        simp only [alike, hu', Bool.true_or]
      | newtype =>
        cases hts : trees vs with
        | nil => rfl
        | cons y ys => simpa [hd] using hvs y (by rw [hts]; exact .head _)
      | named fs => simp [hd, hs] at hu'
      | unnamed fs => simp [hd, hs] at hu'
    | false =>
      simp only [Bool.false_eq_true, if_false, alike]
      dsimp only [Derive.variantTree]
      rw [okVariant] at hok
      cases hs : v.shape with
      | unit => simpa [Serde.alikeVariant] using ht2
      | newtype =>
        cases hts : trees vs with
        | nil => rfl
        | cons y ys =>
          have := hvs y (by rw [hts]; exact .head _)
          simp [hd, Serde.alikeVariant, hspecial, this]
      | named fs =>
        rw [hs] at hf
        exact (alike_struct true v.attrs _ fs _ hf hspecial hvs).2
      | unnamed fs =>
        rw [hs] at hf
        exact (alike_struct false v.attrs _ fs _ hf hspecial hvs).2

end Rust

open Rust in
/-- C79 for the values of Rust types: each is some serde value, as which serializers get it; and both are written as the
same JSON. Missing: what C37 and C68 do not cover, and enums with `#[sval(dynamic)]`, `C79_fails_dynamic`. -/
theorem C79_rust_partial (env : Env) (x : RV) (j : J) (hx : ok x) (hp : plain x) (hc : clear x = true) (hu : usual x = true)
    (hj : doc env x = some j) : ∃ y : SV,
    (∀ (τ : Type) (S : SCall Unit τ → τ → Res Unit τ), ∃ N, ∀ d ≥ N, ∀ s, serialize () S d (prog (items x)) s = ser S y s) ∧
    Serde.doc env .str y = some j ∧
    (∃ t, Json.toString env (prog (items x)) = some t ∧ parse t = some j ∧ ∀ j', Doc j' t → j' = j) ∧
    ∃ t, Json.toString env (prog (toValue y)) = some t ∧ parse t = some j ∧ ∀ j', Doc j' t → j' = j := by
  obtain ⟨y, hy⟩ := (C79_iff (tree x)).1 (serializable_tree x hx hp)
  obtain ⟨h1, h2⟩ := doc_tree env x hx hc
  obtain ⟨h3, h4, h5⟩ := C79_partial env (tree x) y j hy (alike_tree x hx hp ((clear_iff x).1 hc).1 hu) (h1.trans hj) h2
  refine ⟨y, fun τ S => ?_, h3, by rw [toString_rust env x hx]; exact h4, h5⟩
  obtain ⟨N, hN⟩ := Serde.serialize_shows () S (emits x hx).shows (by rw [Nested.supported_seen]; exact supported_tree x hx)
  exact ⟨N, fun d hd s => by rw [hN d hd s, (Serde.serV_seen () S _).1, (Serde.serV_svOf S _).1 y hy]⟩

/-! ## Where they differ -/

/-- A record without a name, `stream.record_begin(None, None, None, Some(1))`. -/
def namelessV : V := .record {} (some 1) [(none, Label.new (t! "x"), .int .i32 1)]

/-- C79 is false: a record without a name is a tuple to serde. -/
theorem C79_fails_record : svOf namelessV = some (.tuple 1 [.int .i32 1]) ∧
    Json.toString anyEnv (valueOf namelessV) = some (t! "{\"x\":1}") ∧
    Json.toString anyEnv (prog (toValue (.tuple 1 [.int .i32 1]))) = some (t! "[1]") := by
  refine ⟨rfl, by decide +kernel, ?_⟩
  rw [toString_serde]; decide +kernel

/-- `#[sval(dynamic)] enum Any { At { x: i32 } }`. -/
def dynamicD : Derive.EnumDef :=
  { ident := t! "Any", dyn := true, variants := [{ ident := t! "At", shape := .named [{ ident := some (t! "x") }] }] }

open Rust in
/-- C79 is false: the fields of a variant in an enum with `#[sval(dynamic)]` lose their names. -/
theorem C79_fails_dynamic :
    let x : RV := .enum dynamicD 0 [.int .i32 1]
    ok x ∧ plain x ∧ clear x = true ∧ doc anyEnv x = some (.obj [(t! "x", .num 1)]) ∧
    Json.toString anyEnv (prog (items x)) = some (t! "{\"x\":1}") ∧
    (∀ (τ : Type) (S : SCall Unit τ → τ → Res Unit τ), ∃ N, ∀ d ≥ N, ∀ s,
      serialize () S d (prog (items x)) s = ser S (.tuple 1 [.int .i32 1]) s) := by
  have hx : ok (.enum dynamicD 0 [.int .i32 1]) := by
    refine ⟨⟨_, rfl, ?_⟩, trivial, trivial⟩
    refine ⟨rfl, fun f hf => ?_, rfl⟩
    rcases List.mem_singleton.1 hf with rfl
    exact .inr rfl
  have hp : plain (.enum dynamicD 0 [.int .i32 1]) := by
    refine ⟨trivial, rfl, ⟨trivial, trivial⟩, fun v hv => ?_⟩
    cases hv
    refine ⟨trivial, fun f hf => ?_, rfl⟩
    rcases List.mem_singleton.1 hf with rfl
    exact .inr ⟨rfl, trivial⟩
  refine ⟨hx, hp, rfl, rfl, ?_, fun τ S => ?_⟩
  · rw [toString_rust _ _ hx]; decide +kernel
  · obtain ⟨N, hN⟩ := Serde.serialize_shows () S (emits _ hx).shows (by rw [Nested.supported_seen]; exact supported_tree _ hx)
    exact ⟨N, fun d hd s => by rw [hN d hd s, (Serde.serV_seen () S _).1, (Serde.serV_svOf S _).1 (.tuple 1 [.int .i32 1]) rfl]⟩

/-! ## Examples -/

/-- The hypotheses of `C79_partial`, met by a record with most kinds of values in it. -/
def orderV : V :=
  .record { label := some (Label.new (t! "Order")) } (some 4)
    [(none, Label.new (t! "id"), .tagged Serde.someMeta (.int .u64 7)),
     (none, Label.new (t! "lines"), .seq none [.tuple {} (some 2) [(none, ⟨0, none⟩, .text none [.borrowed (t! "tea")]), (none, ⟨1, none⟩, .f64 0)]]),
     (none, Label.new (t! "notes"), .map none [(.bool false, .binary none [.borrowed [1, 255]]), (.int .u8 7, .null)]),
     (none, Label.new (t! "state"), .enum { label := some (Label.new (t! "State")) }
        (.tagged { label := some (Label.new (t! "Paid")), index := some ⟨1, none⟩ } (.int .i32 5)))]

def orderS : SV := .struct (t! "Order") 4
  [(t! "id", .some (.int .u64 7)),
   (t! "lines", .seq none [.tuple 2 [.str (t! "tea"), .f64 0]]),
   (t! "notes", .map none [(.bool false, .bytes [1, 255]), (.int .u8 7, .none)]),
   (t! "state", .newtypeVariant (t! "State") 1 (t! "Paid") (.int .i32 5))]

example : svOf orderV = some orderS ∧ alike orderV = true ∧ Json.safe orderV = true ∧ unitless orderS = true ∧
    (Json.value anyEnv orderV).isSome = true := ⟨rfl, rfl, rfl, rfl, rfl⟩

/-- The hypotheses of `C79_rust_partial`, met by an enum's variant with fields, in an optional box. -/
def boxR : Rust.RV := .some (.boxed (.enum shapeD 2 [.int .u8 1, .some (.int .u8 2), .null]))

open Rust in
example : ok boxR ∧ plain boxR ∧ clear boxR = true ∧ usual boxR = true ∧ (doc anyEnv boxR).isSome = true := by
  refine ⟨?_, ?_, rfl, rfl, rfl⟩
  · refine ⟨⟨_, rfl, ?_⟩, trivial, trivial, trivial, trivial⟩
    refine ⟨rfl, fun f hf => ?_, rfl⟩
    simp only [List.mem_cons, List.not_mem_nil, or_false] at hf
    rcases hf with rfl | rfl | rfl <;> exact .inr rfl
  · refine ⟨trivial, rfl, ⟨trivial, trivial, trivial, trivial⟩, fun v hv => ?_⟩
    cases hv
    refine ⟨trivial, fun f hf => ?_, _, rfl, by decide, by decide⟩
    simp only [Shape.fields, List.mem_cons, List.not_mem_nil, or_false] at hf
    rcases hf with rfl | rfl | rfl <;> exact .inr ⟨rfl, trivial⟩

end Sval
