import Verif.Nested.Provided
import Verif.Props.Nested

set_option autoImplicit false

/-!
# Properties of the provided methods of recursive streams: C61
-/

namespace Sval

open Nested

/-- C61. Whichever of the provided methods an implementation of a recursive stream has, it sees the tree of a value, with
what it has no method for as what it has a method for (`lower`), all the way down. No other methods than its own are
called, in particular no method is provided in terms of itself. The values are those that recursive streams support: see
C32. -/
theorem C61 (I : Impl) (v : V) (hv : supported v = true) (borrowed : Bool) :
    Gets I ⟨borrowed, valueOf v⟩ (Nested.lower I (seen v)) :=
  gets_lower _ (seen v) (Nat.le_refl _) (by rw [supported_seen]; exact hv) _ ⟨_, valueOf_prog v, shows_toks v⟩

/-- C61. It does not matter if the value hands over parts of itself with `value` and `value_computed`. -/
theorem C61_parts (I : Impl) (q : List Item) (v : V) (h : Shows q v) (hv : supported v = true) (borrowed : Bool) :
    Gets I ⟨borrowed, prog q⟩ (Nested.lower I v) := gets_lower _ v (Nat.le_refl _) hv _ ⟨_, rfl, h⟩

/-- C61. An implementation that has all the methods sees the tree itself. -/
theorem C61_all (v : V) (hv : supported v = true) (borrowed : Bool) : Gets .all ⟨borrowed, valueOf v⟩ (seen v) := by
  have := C61 .all v hv borrowed
  rwa [(lower_all (seen v)).1] at this

theorem wider_range (t u : IntTy) (h : u ∈ wider t) : u.min ≤ t.min ∧ t.max ≤ u.max := by
  cases t <;> cases u <;> first | decide | (exfalso; revert h; decide)

/-- C61. No integer changes: it is given to a method whose integers it is one of, or as text that is its decimal digits. -/
theorem C61_int (I : Impl) (t : IntTy) (n : Int) (h : t.fits n = true) :
    (∃ u : IntTy, Nested.lower I (.int t n) = .int u n ∧ u.fits n = true ∧ I.has (.scalar (.int u n)) = true) ∨
    (∃ s : Text, Nested.lower I (.int t n) = (if I.tagged then .tagged { tag := some tags.NUMBER } (text s) else text s) ∧
      readInt s = some n) := by
  simp only [Nested.lower, intV]
  split
  · rename_i u e
    refine .inl ⟨u, rfl, ?_, ?_⟩
    · have hm := List.mem_of_find?_eq_some e
      have := wider_range t u hm
      simp only [IntTy.fits, Bool.and_eq_true, decide_eq_true_eq] at h ⊢
      omega
    · have := List.find?_some e
      rw [has_int]
      simpa using this
  · split
    · rename_i hf
      exact .inl ⟨.i64, rfl, hf, rfl⟩
    · exact .inr ⟨intDec n, by rw [taggedV], readInt_intDec n⟩

/-- A map from text to a big number, a small one, an option, bytes and an enum. -/
def providedExample : V :=
  .map none [(.text none [.borrowed (t! "a")], .int .u128 (2 ^ 64)),
    (.text none [.computed (t! "b")], .seq (some 1) [.int .u8 1, .f32 0x3F800000]),
    (.tag { tag := some tags.RUST_OPTION_NONE, label := some (.new (t! "None")) }, .tag { label := some (.newComputed (t! "T")) }),
    (.binary none [.borrowed [1], .computed [255]],
      .enum {} (.tagged { label := some (.new (t! "V")) } (.tagged { tag := some ⟨t! "X"⟩ } (.tag {}))))]

example : supported providedExample = true := by decide +kernel

/-- What an implementation with only the required methods sees. -/
example : Nested.lower {} (seen providedExample) =
    .map none [(text (t! "a"), text (t! "18446744073709551616")),
      (text (t! "b"), .seq (some 1) [.int .i64 1, .f64 0x3FF0000000000000]),
      (.null, text (t! "T")),
      (.seq (some 2) [.int .i64 1, .int .i64 255], .enum {} (.tagged { label := some (.new (t! "V")) } .null))] := by
  rfl

/-- What an implementation that also has `u32`, `tagged_computed` and `binary` sees. -/
example : Nested.lower { int := fun t => t == .u32, tagged := true, binary := true } (seen providedExample) =
    .map none [(text (t! "a"), .tagged { tag := some tags.NUMBER } (text (t! "18446744073709551616"))),
      (text (t! "b"), .seq (some 1) [.int .u32 1, .f64 0x3FF0000000000000]),
      (.tagged { tag := some tags.RUST_OPTION_NONE, label := some (.new (t! "None")) } .null,
        .tagged { label := some (.newOwned (t! "T")) } (text (t! "T"))),
      (binary [1, 255], .enum {} (.tagged { label := some (.new (t! "V")) } (.tagged { tag := some ⟨t! "X"⟩ } (.tagged {} .null))))] := by
  rfl

end Sval
