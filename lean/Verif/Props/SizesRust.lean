import Verif.Props.Sizes
import Verif.Props.Rust

set_option autoImplicit false

/-!
# C38: sizes are given

`C38` says that the sizes which a Rust value gives are right. Here: it gives all of them, so that receivers that
need a length, like serde's for tuples and structs, get one.
-/

namespace Sval

open Rust
open Derive (Field Attrs Shape Variant EnumDef IndexVal LabelVal)

namespace Rust

theorem given_data (f : Field) (v : V) (h : sizes true v) : sizes true (Derive.data f v) := by
  unfold Derive.data
  cases f.dataTag <;> exact h

theorem given_struct (named : Bool) (at' : Attrs) (m : Meta) (fs : List Field) (vs : List V) (h : ∀ v ∈ vs, sizes true v) :
    sizes true (Derive.structTree named at' m fs vs) := by
  have hr : ∀ r ∈ Derive.rows fs vs, sizes true r.2 := by
    intro r hr
    exact h _ (List.of_mem_zip (List.mem_filter.mp hr).1).2
  have hlen : (Derive.entries (Derive.rows fs vs)).length = (Derive.rows fs vs).length := by
    simp [Derive.entries, Derive.indexes_length]
  have he : ∀ r ∈ Derive.entries (Derive.rows fs vs), sizes true r.1.2 := fun r h => hr _ (List.of_mem_zip h).1
  dsimp only [Derive.structTree]
  cases Derive.labeled named at' (Derive.rows fs vs) <;> cases Derive.indexed at' (Derive.rows fs vs)
  · simp only [sizes, fit, sizesSeq_iff true, List.length_map]
    refine ⟨trivial, fun x hx => ?_⟩
    obtain ⟨r, h, rfl⟩ := List.mem_map.mp hx
    exact given_data _ _ (hr r h)
  · simp only [sizes, fit, sizesTup_iff true, List.length_map, hlen]
    refine ⟨trivial, fun x hx => ?_⟩
    obtain ⟨r, h, rfl⟩ := List.mem_map.mp hx
    exact given_data _ _ (he r h)
  · simp only [sizes, fit, sizesRec_iff true, List.length_map]
    refine ⟨trivial, fun x hx => ?_⟩
    obtain ⟨r, h, rfl⟩ := List.mem_map.mp hx
    exact given_data _ _ (hr r h)
  · simp only [sizes, fit, sizesRT_iff true, List.length_map, hlen]
    refine ⟨trivial, fun x hx => ?_⟩
    obtain ⟨r, h, rfl⟩ := List.mem_map.mp hx
    exact given_data _ _ (he r h)

theorem given_tree (x : RV) (hx : ok x) : sizes true (tree x) := by
  induction x using RV.ind with | h x ih => ?_
  have all : ∀ xs : List RV, (∀ x ∈ xs, x ∈ xs → sizes true (tree x)) → ∀ v ∈ trees xs, sizes true v := by
    intro xs h v hv
    rw [trees_eq] at hv
    obtain ⟨x, hx, rfl⟩ := List.mem_map.mp hv
    exact h x hx hx
  cases x with
  | unit => trivial
  | null => trivial
  | bool b => trivial
  | int t v => trivial
  | f32 b => trivial
  | f64 b => trivial
  | char c => simp [tree, sizes, fit, Frag.content]
  | str s => simp [tree, sizes, fit, Frag.content]
  | display fs => simp [tree, sizes, fit]
  | bytes b => simp [tree, sizes, fit, Frag.content]
  | byteArray b => simp [tree, sizes, fit, Frag.content]
  | number fs => simp [tree, sizes, fit]
  | none => trivial
  | some v => exact ih v (.head _) hx
  | slice xs =>
    rw [ok, oks_iff] at hx
    simp only [tree, sizes, fit, sizesSeq_iff true]
    exact ⟨by simp [trees_eq], all xs fun x h _ => ih x h (hx x h)⟩
  | array xs =>
    rw [ok, oks_iff] at hx
    simp only [tree, sizes, fit, sizesSeq_iff true]
    exact ⟨by simp [trees_eq], all xs fun x h _ => ih x h (hx x h)⟩
  | tuple xs =>
    rw [ok, oks_iff] at hx
    simp only [tree, sizes, fit, sizesTup_iff true]
    refine ⟨by simp [trees_eq], fun y hy => ?_⟩
    obtain ⟨z, hz, rfl⟩ := List.mem_map.mp hy
    exact all xs (fun x h _ => ih x h (hx x h)) _ (List.fst_mem_of_mem_zipIdx hz)
  | map ks vs =>
    rw [ok, oks_iff, oks_iff] at hx
    simp only [tree, sizes, fit, sizesMap_iff true]
    refine ⟨by simp [trees_eq, hx.1], fun y hy => ?_⟩
    exact ⟨all ks (fun x h _ => ih x (List.mem_append_left _ h) (hx.2.1 x h)) _ (List.of_mem_zip hy).1,
      all vs (fun x h _ => ih x (List.mem_append_right _ h) (hx.2.2 x h)) _ (List.of_mem_zip hy).2⟩
  | boxed v => exact ih v (.head _) hx
  | unitStruct ident at' => trivial
  | newtype ident at' transparent v =>
    rw [tree]
    cases transparent <;> exact ih v (.head _) hx
  | struct named ident at' fs vs =>
    rw [ok, oks_iff] at hx
    exact given_struct _ _ _ _ _ (all vs fun x h _ => ih x h (hx.2 x h))
  | enum d i vs =>
    rw [ok, oks_iff] at hx
    obtain ⟨⟨v, hv, hok⟩, hx⟩ := hx
    have hvs := all vs fun x h _ => ih x h (hx x h)
    have key : ∀ j, sizes true (Derive.variantTree d v j (trees vs)) := by
      intro j
      unfold Derive.variantTree
      cases v.shape with
      | unit => trivial
      | newtype =>
        cases hts : trees vs with
        | nil => trivial
        | cons y ys =>
          have := hvs y (by rw [hts]; exact .head _)
          cases d.dyn <;> exact this
      | named fs => exact given_struct _ _ _ _ _ hvs
      | unnamed fs => exact given_struct _ _ _ _ _ hvs
    simp only [tree, hv]
    cases d.dyn <;> exact key _

end Rust

/-- C38. Values of Rust types, and of types that derive `Value` without flattened fields, give the sizes of all their containers
and bytes, and those are right. -/
theorem C38_sizes (x : RV) (hx : ok x) : ∃ w, sizes true w ∧
    Sval.exec (recorder fun _ _ => true) (Nested.prog (items x)) .base [] = (toks w, true) :=
  ⟨tree x, given_tree x hx, C38_calls x hx⟩

/-- C38. A serializer gets the lengths of all that it gets from them, and those are right. -/
theorem C38_lengths (x : RV) (hx : ok x) (hp : plain x) : ∃ y, Serde.sizesOf true y ∧
    ∀ (τ : Type) (S : Serde.SCall Unit τ → τ → Res Unit τ), ∃ N, ∀ d ≥ N, ∀ s,
      Serde.serialize () S d (Nested.prog (items x)) s = Serde.ser S y s := by
  obtain ⟨y, hy⟩ := (C79_iff (tree x)).1 (serializable_tree x hx hp)
  refine ⟨y, ?_, fun τ S => ?_⟩
  · rw [← Serde.sizes_tree, (Serde.arrives (tree x)).1 y hy]
    exact (Serde.sizes_after true (tree x) (given_tree x hx)).1
  · obtain ⟨N, hN⟩ := Serde.serialize_shows () S (emits x hx).shows (by rw [Nested.supported_seen]; exact supported_tree x hx)
    exact ⟨N, fun d hd s => by rw [hN d hd s, (Serde.serV_seen () S _).1, (Serde.serV_svOf S _).1 y hy]⟩

/-- A slice of a map and a tuple is such a value, and its sizes are given at each level. -/
example : let x : RV := .slice [.map [.int .u8 1] [.boxed (.str (t! "é"))], .tuple [.null, .slice []]]
    ok x ∧ plain x ∧ sizes true (tree x) ∧ toks (tree x) ≠ [] ∧
      tree x = .seq (some 2) [.map (some 1) [(.int .u8 1, .text (some 2) [.borrowed (t! "é")])],
        .tuple {} (some 2) [(none, offset 0, .null), (none, offset 1, .seq (some 0) [])]] := by
  refine ⟨by simp [ok, oks], by simp [plain, plains], given_tree _ (by simp [ok, oks]), by simp [tree, toks], rfl⟩

end Sval
