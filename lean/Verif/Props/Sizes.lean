import Verif.Rust.Emit
import Verif.Props.SerdeThrough
import Verif.Flatten.Buffered
import Verif.Props.Stream
import Verif.Props.Buffer
import Verif.Props.NestedFree

set_option autoImplicit false

/-!
# C92: sizes stay right

A stream may use the sizes it is given, to reserve memory or to write them in front of the elements. So
it relies on what is between it and the value not to make right sizes wrong.
-/

namespace Sval

/-! ## Specification -/

/-- A size that is given is right; and it is given, if it `must` be. -/
def fit (must : Bool) : Option Nat → Nat → Prop
  | some k, n => k = n
  | none, _ => must = false

mutual
/-- The sizes of a value are right; if they `must` be given, those of containers and bytes are. -/
def sizes (must : Bool) : V → Prop
  | .text n fs => fit false n (fs.map fun f => utf8Len f.content).sum
  | .binary n fs => fit must n (fs.map fun f => f.content.length).sum
  | .seq n xs => fit must n xs.length ∧ sizesSeq must xs
  | .map n kvs => fit must n kvs.length ∧ sizesMap must kvs
  | .tagged _ v | .enum _ v | .hint _ v => sizes must v
  | .record _ n fs => fit must n fs.length ∧ sizesRec must fs
  | .tuple _ n fs => fit must n fs.length ∧ sizesTup must fs
  | .recordTuple _ n fs => fit must n fs.length ∧ sizesRT must fs
  | _ => True
def sizesSeq (must : Bool) : List V → Prop
  | [] => True
  | x :: xs => sizes must x ∧ sizesSeq must xs
def sizesMap (must : Bool) : List (V × V) → Prop
  | [] => True
  | (k, v) :: xs => sizes must k ∧ sizes must v ∧ sizesMap must xs
def sizesRec (must : Bool) : List (Option Tag × Label × V) → Prop
  | [] => True
  | (_, _, v) :: xs => sizes must v ∧ sizesRec must xs
def sizesTup (must : Bool) : List (Option Tag × Index × V) → Prop
  | [] => True
  | (_, _, v) :: xs => sizes must v ∧ sizesTup must xs
def sizesRT (must : Bool) : List (Option Tag × Label × Index × V) → Prop
  | [] => True
  | (_, _, _, v) :: xs => sizes must v ∧ sizesRT must xs
end

namespace Serde

mutual
/-- The same of the lengths that `Serialize` implementations give. -/
def sizesOf (must : Bool) : SV → Prop
  | .some v | .newtypeStruct _ v | .newtypeVariant _ _ _ v => sizesOf must v
  | .seq len xs => fit must len xs.length ∧ sizesAll must xs
  | .tuple len xs | .tupleStruct _ len xs | .tupleVariant _ _ _ len xs => len = xs.length ∧ sizesAll must xs
  | .map len kvs => fit must len kvs.length ∧ sizesPairs must kvs
  | .struct _ len fs | .structVariant _ _ _ len fs => len = fs.length ∧ sizesFields must fs
  | _ => True
def sizesAll (must : Bool) : List SV → Prop
  | [] => True
  | x :: xs => sizesOf must x ∧ sizesAll must xs
def sizesPairs (must : Bool) : List (SV × SV) → Prop
  | [] => True
  | (k, v) :: xs => sizesOf must k ∧ sizesOf must v ∧ sizesPairs must xs
def sizesFields (must : Bool) : List (Text × SV) → Prop
  | [] => True
  | (_, v) :: xs => sizesOf must v ∧ sizesFields must xs
end

end Serde

/-! ## Lemmas -/

theorem sizesSeq_iff (b : Bool) (xs : List V) : sizesSeq b xs ↔ ∀ x ∈ xs, sizes b x := by
  induction xs with
  | nil => simp [sizesSeq]
  | cons x xs ih => simp [sizesSeq, ih]
theorem sizesMap_iff (b : Bool) (xs : List (V × V)) : sizesMap b xs ↔ ∀ x ∈ xs, sizes b x.1 ∧ sizes b x.2 := by
  induction xs with
  | nil => simp [sizesMap]
  | cons x xs ih => simp [sizesMap, ih, and_assoc]
theorem sizesRec_iff (b : Bool) (xs : List (Option Tag × Label × V)) : sizesRec b xs ↔ ∀ x ∈ xs, sizes b x.2.2 := by
  induction xs with
  | nil => simp [sizesRec]
  | cons x xs ih => simp [sizesRec, ih]
theorem sizesTup_iff (b : Bool) (xs : List (Option Tag × Index × V)) : sizesTup b xs ↔ ∀ x ∈ xs, sizes b x.2.2 := by
  induction xs with
  | nil => simp [sizesTup]
  | cons x xs ih => simp [sizesTup, ih]
theorem sizesRT_iff (b : Bool) (xs : List (Option Tag × Label × Index × V)) :
    sizesRT b xs ↔ ∀ x ∈ xs, sizes b x.2.2.2 := by
  induction xs with
  | nil => simp [sizesRT]
  | cons x xs ih => simp [sizesRT, ih]

theorem fit_false (n : Option Nat) (k : Nat) : fit false n k ↔ ∀ j, n = some j → j = k := by
  cases n <;> simp [fit]

/-- What C38 is about. -/
theorem sizes_sized (v : V) : sizes false v ↔ Rust.sized v := by
  induction v using V.ind with
  | text n fs | binary n fs => simp only [sizes, Rust.sized, fit_false]
  | seq n xs ih =>
    simp only [sizes, Rust.sized, fit_false, sizesSeq_iff, Rust.sizedSeq_iff]
    exact and_congr Iff.rfl (forall₂_congr ih)
  | map n kvs ih =>
    simp only [sizes, Rust.sized, fit_false, sizesMap_iff, Rust.sizedMap_iff]
    exact and_congr Iff.rfl (forall₂_congr fun kv h => and_congr (ih kv h).1 (ih kv h).2)
  | tagged m v ih | enum m v ih | hint t v ih => simpa only [sizes, Rust.sized] using ih
  | record m n fs ih =>
    simp only [sizes, Rust.sized, fit_false, sizesRec_iff, Rust.sizedRec_iff]
    exact and_congr Iff.rfl (forall₂_congr ih)
  | tuple m n fs ih =>
    simp only [sizes, Rust.sized, fit_false, sizesTup_iff, Rust.sizedTup_iff]
    exact and_congr Iff.rfl (forall₂_congr ih)
  | recordTuple m n fs ih =>
    simp only [sizes, Rust.sized, fit_false, sizesRT_iff, Rust.sizedRT_iff]
    exact and_congr Iff.rfl (forall₂_congr ih)
  | _ => simp only [sizes, Rust.sized]

/-! ### Default methods -/

namespace LowV

variable (c : Caps) (b : Bool)

theorem sizes_mkTagged (m : Meta) (v : V) : sizes b (mkTagged c m v) ↔ sizes b v := by
  unfold mkTagged; split <;> simp only [sizes]

theorem sizes_mkEnum (m : Meta) (v : V) : sizes b (mkEnum c m v) ↔ sizes b v := by
  unfold mkEnum; split <;> simp only [sizes, sizes_mkTagged]

theorem sizes_mkTuple (m : Meta) (n : Option Nat) (fs : List (Option Tag × Index × V)) :
    sizes b (mkTuple c m n fs) ↔ fit b n fs.length ∧ sizesTup b fs := by
  unfold mkTuple
  split
  · simp only [sizes]
  · simp only [sizes_mkTagged, sizes, List.length_map, sizesSeq_iff, sizesTup_iff, List.forall_mem_map]

theorem sizes_mkMap (n : Option Nat) (kvs : List (V × V)) :
    sizes b (mkMap c n kvs) ↔ fit b n kvs.length ∧ sizesMap b kvs := by
  unfold mkMap
  split
  · simp only [sizes]
  · simp only [sizes, List.length_map, sizesSeq_iff, sizesMap_iff, List.forall_mem_map, mkPair, sizes_mkTuple, sizesTup, and_true,
      fit, List.length_cons, List.length_nil, true_and, Nat.zero_add, Nat.reduceAdd]

theorem sizes_mkLabel (l : Label) : sizes b (mkLabel c l) := by
  unfold mkLabel
  split
  · simp [sizes, fit, content_mkFrag]; rfl
  · simp [sizes, fit, Frag.content]

theorem sizes_mkRecord (m : Meta) (n : Option Nat) (fs : List (Option Tag × Label × V)) :
    sizes b (mkRecord c m n fs) ↔ fit b n fs.length ∧ sizesRec b fs := by
  unfold mkRecord
  split
  · simp only [sizes]
  · simp only [sizes_mkTagged, sizes_mkMap, List.length_map, sizesMap_iff, sizesRec_iff, List.forall_mem_map, sizes_mkLabel, true_and]

theorem sizes_mkRecordTuple (m : Meta) (n : Option Nat) (fs : List (Option Tag × Label × Index × V)) :
    sizes b (mkRecordTuple c m n fs) ↔ fit b n fs.length ∧ sizesRT b fs := by
  unfold mkRecordTuple
  split
  · simp only [sizes]
  · simp only [sizes_mkRecord, List.length_map, sizesRec_iff, sizesRT_iff, List.forall_mem_map]

theorem sizes_mkNumber (v : Int) : sizes b (mkNumber c v) := by
  simp only [mkNumber, sizes_mkTagged, sizes, fit]

theorem sizes_mkInt (t : IntTy) (v : Int) : sizes b (mkInt c t v) := by
  have h1 : sizes b (mkU128 c v) := by
    unfold mkU128; split <;> [exact trivial; split <;> [exact trivial; exact sizes_mkNumber c b v]]
  have h2 : sizes b (mkI128 c v) := by
    unfold mkI128; split <;> [exact trivial; split <;> [exact trivial; exact sizes_mkNumber c b v]]
  cases t <;> simp only [mkInt, mkU8, mkU16, mkU32, mkU64, mkI8, mkI16, mkI32] <;> (repeat' split) <;>
    first | exact h1 | exact h2 | exact trivial

theorem sizes_mkBinary (n : Option Nat) (fs : List (Frag Bytes)) (h : fit b n (fs.map fun f => f.content.length).sum) :
    sizes b (mkBinary c n fs) := by
  unfold mkBinary
  split
  · simpa only [sizes, List.map_map, Function.comp_def, content_mkBinFrag] using h
  · refine ⟨?_, ?_⟩
    · have e : (fragsBytes fs).length = (fs.map fun f => f.content.length).sum := by
        simp [fragsBytes, List.length_flatten, Function.comp_def]
      rwa [List.length_map, e]
    · rw [sizesSeq_iff, List.forall_mem_map]
      exact fun x _ => sizes_mkInt c b .u8 _

theorem sizes_mkTag (m : Meta) : sizes b (mkTag c m) := by
  unfold mkTag
  split
  · exact trivial
  · rw [sizes_mkTagged]
    split
    · exact trivial
    · split
      · exact sizes_mkLabel c b _
      · exact trivial

end LowV

theorem lowVs_eq (c : Caps) (xs : List V) : lowVs c xs = xs.map (lowV c) := by
  induction xs <;> simp_all [lowVs]
theorem lowKVs_eq (c : Caps) (xs : List (V × V)) : lowKVs c xs = xs.map fun x => (lowV c x.1, lowV c x.2) := by
  induction xs <;> simp_all [lowKVs]
theorem lowRec_eq (c : Caps) (xs : List (Option Tag × Label × V)) : lowRec c xs = xs.map fun x => (x.1, x.2.1, lowV c x.2.2) := by
  induction xs <;> simp_all [lowRec]
theorem lowTup_eq (c : Caps) (xs : List (Option Tag × Index × V)) : lowTup c xs = xs.map fun x => (x.1, x.2.1, lowV c x.2.2) := by
  induction xs <;> simp_all [lowTup]
theorem lowRT_eq (c : Caps) (xs : List (Option Tag × Label × Index × V)) :
    lowRT c xs = xs.map fun x => (x.1, x.2.1, x.2.2.1, lowV c x.2.2.2) := by
  induction xs <;> simp_all [lowRT]

open LowV in
theorem sizes_lowV (c : Caps) (b : Bool) (v : V) (h : sizes b v) : sizes b (lowV c v) := by
  induction v using V.ind with
  | null | bool _ | f64 _ => exact trivial
  | f32 _ => simp only [lowV]; split <;> exact trivial
  | int t v => exact sizes_mkInt c b t v
  | text n fs => simpa only [lowV, sizes, List.map_map, Function.comp_def, content_mkFrag] using h
  | binary n fs => exact sizes_mkBinary c b n fs h
  | seq n xs ih =>
    rw [sizes, sizesSeq_iff] at h
    rw [lowV, sizes, lowVs_eq, List.length_map, sizesSeq_iff, List.forall_mem_map]
    exact ⟨h.1, fun x hx => ih x hx (h.2 x hx)⟩
  | map n kvs ih =>
    rw [sizes, sizesMap_iff] at h
    rw [lowV, sizes_mkMap, lowKVs_eq, List.length_map, sizesMap_iff, List.forall_mem_map]
    exact ⟨h.1, fun x hx => ⟨(ih x hx).1 (h.2 x hx).1, (ih x hx).2 (h.2 x hx).2⟩⟩
  | tag m => exact sizes_mkTag c b m
  | tagged m v ih => exact (sizes_mkTagged c b _ _).2 (ih h)
  | enum m v ih => exact (sizes_mkEnum c b _ _).2 (ih h)
  | record m n fs ih =>
    rw [sizes, sizesRec_iff] at h
    rw [lowV, sizes_mkRecord, lowRec_eq, List.length_map, sizesRec_iff, List.forall_mem_map]
    exact ⟨h.1, fun x hx => ih x hx (h.2 x hx)⟩
  | tuple m n fs ih =>
    rw [sizes, sizesTup_iff] at h
    rw [lowV, sizes_mkTuple, lowTup_eq, List.length_map, sizesTup_iff, List.forall_mem_map]
    exact ⟨h.1, fun x hx => ih x hx (h.2 x hx)⟩
  | recordTuple m n fs ih =>
    rw [sizes, sizesRT_iff] at h
    rw [lowV, sizes_mkRecordTuple, lowRT_eq, List.length_map, sizesRT_iff, List.forall_mem_map]
    exact ⟨h.1, fun x hx => ih x hx (h.2 x hx)⟩
  | hint t v ih =>
    simp only [lowV, mkHint]
    split <;> exact ih h

/-! ### Buffers and recursive streams -/

namespace Buf

theorem utf8Len_flatten (xs : List Text) : utf8Len xs.flatten = (xs.map utf8Len).sum := by
  induction xs with
  | nil => rfl
  | cons x xs ih => rw [List.flatten_cons, Json.utf8Len_append, ih, List.map_cons, List.sum_cons]

theorem sizes_norm (b : Bool) (v : V) (h : sizes b v) : sizes b (norm v) := by
  induction v using V.ind with
  | null | bool _ | f32 _ | f64 _ | int _ _ | tag _ => exact trivial
  | text n fs => simp [norm, sizes, fit, mergedFrag_content, fragsText]
  | binary n fs => simp [norm, sizes, fit, mergedFrag_content, fragsBytes]
  | seq n xs ih =>
    rw [sizes, sizesSeq_iff] at h
    rw [norm, sizes, Flatten.normSeq_eq, List.length_map, sizesSeq_iff, List.forall_mem_map]
    exact ⟨h.1, fun x hx => ih x hx (h.2 x hx)⟩
  | map n kvs ih =>
    rw [sizes, sizesMap_iff] at h
    rw [norm, sizes, Flatten.normMap_eq, List.length_map, sizesMap_iff, List.forall_mem_map]
    exact ⟨h.1, fun x hx => ⟨(ih x hx).1 (h.2 x hx).1, (ih x hx).2 (h.2 x hx).2⟩⟩
  | tagged m v ih | enum m v ih | hint t v ih => exact ih h
  | record m n fs ih =>
    rw [sizes, sizesRec_iff] at h
    rw [norm, sizes, Flatten.normRec_eq, List.length_map, sizesRec_iff, List.forall_mem_map]
    exact ⟨h.1, fun x hx => ih x hx (h.2 x hx)⟩
  | tuple m n fs ih =>
    rw [sizes, sizesTup_iff] at h
    rw [norm, sizes, Flatten.normTup_eq, List.length_map, sizesTup_iff, List.forall_mem_map]
    exact ⟨h.1, fun x hx => ih x hx (h.2 x hx)⟩
  | recordTuple m n fs ih =>
    rw [sizes, sizesRT_iff] at h
    rw [norm, sizes, Flatten.normRT_eq, List.length_map, sizesRT_iff, List.forall_mem_map]
    exact ⟨h.1, fun x hx => ih x hx (h.2 x hx)⟩

theorem sizes_comp (b : Bool) (v : V) (h : sizes b v) : sizes b (comp v) := by
  induction v using V.ind with
  | null | bool _ | f32 _ | f64 _ | int _ _ | tag _ => exact trivial
  | text n fs => simp only [comp, sizes, List.map_map]; exact h
  | binary n fs => simp only [comp, sizes, List.map_map]; exact h
  | seq n xs ih =>
    rw [sizes, sizesSeq_iff] at h
    rw [comp, sizes, Flatten.compSeq_eq, List.length_map, sizesSeq_iff, List.forall_mem_map]
    exact ⟨h.1, fun x hx => ih x hx (h.2 x hx)⟩
  | map n kvs ih =>
    rw [sizes, sizesMap_iff] at h
    rw [comp, sizes, Flatten.compMap_eq, List.length_map, sizesMap_iff, List.forall_mem_map]
    exact ⟨h.1, fun x hx => ⟨(ih x hx).1 (h.2 x hx).1, (ih x hx).2 (h.2 x hx).2⟩⟩
  | tagged m v ih | enum m v ih | hint t v ih => exact ih h
  | record m n fs ih =>
    rw [sizes, sizesRec_iff] at h
    rw [comp, sizes, Flatten.compRec_eq, List.length_map, sizesRec_iff, List.forall_mem_map]
    exact ⟨h.1, fun x hx => ih x hx (h.2 x hx)⟩
  | tuple m n fs ih =>
    rw [sizes, sizesTup_iff] at h
    rw [comp, sizes, Flatten.compTup_eq, List.length_map, sizesTup_iff, List.forall_mem_map]
    exact ⟨h.1, fun x hx => ih x hx (h.2 x hx)⟩
  | recordTuple m n fs ih =>
    rw [sizes, sizesRT_iff] at h
    rw [comp, sizes, Flatten.compRT_eq, List.length_map, sizesRT_iff, List.forall_mem_map]
    exact ⟨h.1, fun x hx => ih x hx (h.2 x hx)⟩


end Buf

theorem sizes_seen (v : V) (h : sizes false v) : sizes false (Nested.seen v) := by
  induction v using V.ind with
  | null | bool _ | f32 _ | f64 _ | int _ _ | tag _ => exact trivial
  | text n fs => simp [Nested.seen, Nested.text, sizes, fit]
  | binary n fs => simp [Nested.seen, Nested.binary, sizes, fit]
  | seq n xs ih =>
    rw [sizes, sizesSeq_iff] at h
    rw [Nested.seen, sizes, Free.seenSeq_eq, List.length_map, sizesSeq_iff, List.forall_mem_map]
    exact ⟨h.1, fun x hx => ih x hx (h.2 x hx)⟩
  | map n kvs ih =>
    rw [sizes, sizesMap_iff] at h
    rw [Nested.seen, sizes, Free.seenMap_eq, List.length_map, sizesMap_iff, List.forall_mem_map]
    exact ⟨h.1, fun x hx => ⟨(ih x hx).1 (h.2 x hx).1, (ih x hx).2 (h.2 x hx).2⟩⟩
  | tagged m v ih | enum m v ih | hint t v ih => exact ih h
  | record m n fs ih =>
    rw [sizes, sizesRec_iff] at h
    rw [Nested.seen, sizes, Free.seenRec_eq, List.length_map, sizesRec_iff, List.forall_mem_map]
    exact ⟨h.1, fun x hx => ih x hx (h.2 x hx)⟩
  | tuple m n fs ih =>
    rw [sizes, sizesTup_iff] at h
    rw [Nested.seen, sizes, Free.seenTup_eq, List.length_map, sizesTup_iff, List.forall_mem_map]
    exact ⟨h.1, fun x hx => ih x hx (h.2 x hx)⟩
  | recordTuple m n fs ih =>
    rw [sizes, sizesRT_iff] at h
    rw [Nested.seen, sizes, Free.seenRT_eq, List.length_map, sizesRec_iff, List.forall_mem_map]
    exact ⟨h.1, fun x hx => ih x hx (h.2 x hx)⟩


/-! ### serde -/

namespace Serde

theorem sizesAll_iff (b : Bool) (xs : List SV) : sizesAll b xs ↔ ∀ x ∈ xs, sizesOf b x := by
  induction xs with
  | nil => simp [sizesAll]
  | cons x xs ih => simp [sizesAll, ih]
theorem sizesPairs_iff (b : Bool) (xs : List (SV × SV)) : sizesPairs b xs ↔ ∀ x ∈ xs, sizesOf b x.1 ∧ sizesOf b x.2 := by
  induction xs with
  | nil => simp [sizesPairs]
  | cons x xs ih => simp [sizesPairs, ih, and_assoc]
theorem sizesFields_iff (b : Bool) (xs : List (Text × SV)) : sizesFields b xs ↔ ∀ x ∈ xs, sizesOf b x.2 := by
  induction xs with
  | nil => simp [sizesFields]
  | cons x xs ih => simp [sizesFields, ih]

theorem sizes_trees (b : Bool) (xs : List SV) (h : ∀ x ∈ xs, (sizes b (tree x) ↔ sizesOf b x)) :
    (trees xs).length = xs.length ∧ (sizesSeq b (trees xs) ↔ sizesAll b xs) := by
  induction xs with
  | nil => exact ⟨rfl, Iff.rfl⟩
  | cons x xs ih =>
    obtain ⟨h1, h2⟩ := ih fun y hy => h y (.tail _ hy)
    exact ⟨congrArg (· + 1) h1, and_congr (h x (.head _)) h2⟩
theorem sizes_treeTup (b : Bool) (xs : List SV) (h : ∀ x ∈ xs, (sizes b (tree x) ↔ sizesOf b x)) (i : Nat) :
    (treeTup i xs).length = xs.length ∧ (sizesTup b (treeTup i xs) ↔ sizesAll b xs) := by
  induction xs generalizing i with
  | nil => exact ⟨rfl, Iff.rfl⟩
  | cons x xs ih =>
    obtain ⟨h1, h2⟩ := ih (fun y hy => h y (.tail _ hy)) (i + 1)
    exact ⟨congrArg (· + 1) h1, and_congr (h x (.head _)) h2⟩
theorem sizes_treeMap (b : Bool) (xs : List (SV × SV))
    (h : ∀ x ∈ xs, (sizes b (tree x.1) ↔ sizesOf b x.1) ∧ (sizes b (tree x.2) ↔ sizesOf b x.2)) :
    (treeMap xs).length = xs.length ∧ (sizesMap b (treeMap xs) ↔ sizesPairs b xs) := by
  induction xs with
  | nil => exact ⟨rfl, Iff.rfl⟩
  | cons x xs ih =>
    obtain ⟨h1, h2⟩ := ih fun y hy => h y (.tail _ hy)
    exact ⟨congrArg (· + 1) h1, and_congr (h x (.head _)).1 (and_congr (h x (.head _)).2 h2)⟩
theorem sizes_treeRec (b : Bool) (xs : List (Text × SV)) (h : ∀ x ∈ xs, (sizes b (tree x.2) ↔ sizesOf b x.2)) :
    (treeRec xs).length = xs.length ∧ (sizesRec b (treeRec xs) ↔ sizesFields b xs) := by
  induction xs with
  | nil => exact ⟨rfl, Iff.rfl⟩
  | cons x xs ih =>
    obtain ⟨h1, h2⟩ := ih fun y hy => h y (.tail _ hy)
    exact ⟨congrArg (· + 1) h1, and_congr (h x (.head _)) h2⟩

theorem sizes_tree (b : Bool) (x : SV) : sizes b (tree x) ↔ sizesOf b x := by
  induction x using SV.ind with
  | h x ih =>
  cases x with
  | bool _ | int _ _ | f32 _ | f64 _ | none | unit | unitStruct _ | unitVariant _ _ _ => exact Iff.rfl
  | char c => simp [tree, sizes, sizesOf, fit, Frag.content]
  | str s => simp [tree, sizes, sizesOf, fit, Frag.content]
  | collectStr s => simp [tree, sizes, sizesOf, fit]
  | bytes s => simp [tree, sizes, sizesOf, fit, Frag.content]
  | some v | newtypeStruct _ v | newtypeVariant _ _ _ v => exact ih v (by simp [parts])
  | seq n xs =>
    obtain ⟨h1, h2⟩ := sizes_trees b xs ih
    rw [tree, sizes, h1, h2, sizesOf]
  | tuple n xs | tupleStruct _ n xs | tupleVariant _ _ _ n xs =>
    obtain ⟨h1, h2⟩ := sizes_treeTup b xs ih 0
    simp only [tree, sizes, h1, h2, sizesOf, fit]
  | map n xs =>
    obtain ⟨h1, h2⟩ := sizes_treeMap b xs fun x hx =>
      ⟨ih _ (List.mem_flatMap.2 ⟨x, hx, by simp⟩), ih _ (List.mem_flatMap.2 ⟨x, hx, by simp⟩)⟩
    rw [tree, sizes, h1, h2, sizesOf]
  | struct _ n xs | structVariant _ _ _ n xs =>
    obtain ⟨h1, h2⟩ := sizes_treeRec b xs fun x hx => ih _ (List.mem_map.2 ⟨x, hx, rfl⟩)
    simp only [tree, sizes, h1, h2, sizesOf, fit]

theorem sizes_renumber (b : Bool) (i : Nat) (vs : List V) :
    (renumber i vs).length = vs.length ∧ (sizesTup b (renumber i vs) ↔ ∀ v ∈ vs, sizes b v) := by
  induction vs generalizing i with
  | nil => exact ⟨rfl, by simp [renumber, sizesTup]⟩
  | cons v vs ih => simp [renumber, sizesTup, ih]

theorem afters_eq (xs : List V) : afters xs = xs.map after := by
  induction xs <;> simp_all [afters]
theorem afterMap_eq (xs : List (V × V)) : afterMap xs = xs.map fun x => (after x.1, after x.2) := by
  induction xs <;> simp_all [afterMap]
theorem afterTup_eq (xs : List (Option Tag × Index × V)) : afterTup xs = xs.map fun x => after x.2.2 := by
  induction xs <;> simp_all [afterTup]
theorem afterRec_eq (xs : List (Option Tag × Label × V)) : afterRec xs = xs.map fun x => (none, .new x.2.1.text, after x.2.2) := by
  induction xs <;> simp_all [afterRec]
theorem afterRT_eq (xs : List (Option Tag × Label × Index × V)) :
    afterRT xs = xs.map fun x => (none, .new x.2.1.text, after x.2.2.2) := by
  induction xs <;> simp_all [afterRT]

theorem sizes_after (b : Bool) (v : V) : sizes b v → sizes b (after v) ∧ sizes b (afterVariant v) := by
  induction v using V.ind with
  | null | bool _ | f32 _ | f64 _ | int _ _ => exact fun _ => ⟨trivial, trivial⟩
  | text n fs => intro h; exact ⟨by simp [after, sizes, fit, Frag.content], h⟩
  | binary n fs => intro h; exact ⟨by simp [after, sizes, fit, Frag.content], h⟩
  | tag m =>
    intro _
    refine ⟨?_, trivial⟩
    simp only [after]
    split
    · exact trivial
    · split <;> exact trivial
  | tagged m v ih => exact fun h => ⟨(ih h).1, (ih h).1⟩
  | enum m v ih => exact fun h => ⟨(ih h).2, h⟩
  | hint t v ih => exact fun h => ih h
  | seq n xs ih =>
    intro h
    refine ⟨?_, h⟩
    rw [sizes, sizesSeq_iff] at h
    rw [after, sizes, afters_eq, List.length_map, sizesSeq_iff, List.forall_mem_map]
    exact ⟨h.1, fun x hx => (ih x hx (h.2 x hx)).1⟩
  | map n kvs ih =>
    intro h
    refine ⟨?_, h⟩
    rw [sizes, sizesMap_iff] at h
    rw [after, sizes, afterMap_eq, List.length_map, sizesMap_iff, List.forall_mem_map]
    exact ⟨h.1, fun x hx => ⟨((ih x hx).1 (h.2 x hx).1).1, ((ih x hx).2 (h.2 x hx).2).1⟩⟩
  | tuple m n fs ih =>
    intro h
    rw [sizes, sizesTup_iff] at h
    have key : ∀ m, sizes b (.tuple m n (renumber 0 (afterTup fs))) := by
      intro m
      rw [sizes, (sizes_renumber b 0 _).1, (sizes_renumber b 0 _).2, afterTup_eq, List.length_map, List.forall_mem_map]
      exact ⟨h.1, fun x hx => (ih x hx (h.2 x hx)).1⟩
    exact ⟨key _, key _⟩
  | record m n fs ih =>
    intro h
    rw [sizes, sizesRec_iff] at h
    have key : ∀ m, sizes b (.record m n (afterRec fs)) := by
      intro m
      rw [sizes, afterRec_eq, List.length_map, sizesRec_iff, List.forall_mem_map]
      exact ⟨h.1, fun x hx => (ih x hx (h.2 x hx)).1⟩
    refine ⟨?_, key _⟩
    simp only [after]
    split
    · rw [sizes, (sizes_renumber b 0 _).1, (sizes_renumber b 0 _).2, afterRec_eq, List.map_map, List.length_map, List.forall_mem_map]
      exact ⟨h.1, fun x hx => (ih x hx (h.2 x hx)).1⟩
    · exact key _
  | recordTuple m n fs ih =>
    intro h
    rw [sizes, sizesRT_iff] at h
    have key : ∀ m, sizes b (.record m n (afterRT fs)) := by
      intro m
      rw [sizes, afterRT_eq, List.length_map, sizesRec_iff, List.forall_mem_map]
      exact ⟨h.1, fun x hx => (ih x hx (h.2 x hx)).1⟩
    refine ⟨?_, key _⟩
    simp only [after]
    split
    · rw [sizes, (sizes_renumber b 0 _).1, (sizes_renumber b 0 _).2, afterRT_eq, List.map_map, List.length_map, List.forall_mem_map]
      exact ⟨h.1, fun x hx => (ih x hx (h.2 x hx)).1⟩
    · exact key _

end Serde

/-! ## C92 -/

/-- **C92 for default methods**: the sizes a stream gets are right, whichever methods it overrides. -/
theorem C92_default (must : Bool) (c : Caps) (v v' : V) (h : lower c (toks v) = toks v') (hv : sizes must v) : sizes must v' := by
  rw [lower_toks] at h
  rw [← toks_inj h]
  exact sizes_lowV c must v hv

/-- **C92 for `value_computed`.** -/
theorem C92_computed (must : Bool) {σ : Type} (S : Token → σ → σ × Bool) (v : V) (hv : sizes must v) :
    ∃ w, sizes must w ∧ ∀ s, exec S (valueOf v) (.computed .base) s = exec S (valueOf w) .base s :=
  ⟨Buf.comp v, Buf.sizes_comp must v hv, fun s => by
    have h : ∀ (ts : List Token) (s : σ), exec S (Prog.ofToks ts) (.computed .base) s = exec S (Prog.ofToks (ts.map computedTok)) .base s := by
      intro ts
      induction ts with
      | nil => exact fun s => rfl
      | cons t ts ih =>
        intro s
        simp only [List.map_cons, Prog.ofToks, exec, Wrapper.tok]
        split
        · exact ih _
        · rfl
    rw [valueOf, valueOf, Buf.toks_comp]
    exact h _ s⟩

/-- **C92 for buffers**: collected and replayed. -/
theorem C92_buffer (must owned : Bool) (v : V) (hv : sizes must v) :
    ∃ s w, Buf.collect true owned (valueOf v) = .ok s ∧ Buf.replay s.parts = ⟨toks w, false⟩ ∧ sizes must w := by
  cases owned with
  | false =>
    obtain ⟨s, h1, h2⟩ := (C15_collect v).1
    exact ⟨s, _, h1, h2, Buf.sizes_norm must v hv⟩
  | true =>
    obtain ⟨s, h1, h2⟩ := (C15_collect v).2
    exact ⟨s, _, h1, h2, Buf.sizes_norm must _ (Buf.sizes_comp must v hv)⟩

/-- **C92 for recursive streams.** -/
theorem C92_recursive (v : V) (hs : Nested.supported v = true) (hv : sizes false v) (borrowed : Bool) :
    ∃ w, Nested.Sees ⟨borrowed, valueOf v⟩ w ∧ sizes false w :=
  ⟨_, C32_partial v hs borrowed, sizes_seen v hv⟩

/-- **C92 from serde**: the sizes of a value are right just if the lengths of the serde value are. -/
theorem C92_from_serde (must : Bool) (x : Serde.SV) : ∃ w, (sizes must w ↔ Serde.sizesOf must x) ∧
    ∀ (σ : Type) (S : Token → σ → σ × Bool) (computed : Bool) (s : σ),
      exec S (Nested.prog (Serde.toValue x)) (if computed then .computed .base else .base) s = exec S (valueOf w) .base s :=
  ⟨_, Serde.sizes_tree must x, fun _ S computed s => C35 S x computed s⟩

/-- **C92 to serde**: the lengths a serializer gets are right. -/
theorem C92_to_serde (must : Bool) (v : V) (hs : Serde.serializable v = true) (hv : sizes must v) :
    ∃ x, Serde.sizesOf must x ∧ ∀ (τ : Type) (S : Serde.SCall Unit τ → τ → Res Unit τ), ∃ N, ∀ d ≥ N, ∀ s,
      Serde.serialize () S d (valueOf v) s = Serde.ser S x s := by
  obtain ⟨x, hx⟩ := (C79_iff v).1 hs
  refine ⟨x, ?_, fun τ S => C79_calls S v x hx⟩
  rw [← Serde.sizes_tree, (Serde.arrives v).1 x hx]
  exact (Serde.sizes_after must v hv).1

/-! ## Examples -/

/-- A record with a map, bytes in two pieces and a text without a size. -/
def sizesV : V := .record { label := some { text := t! "R" } } (some 3) [
  (none, { text := t! "m" }, .map (some 1) [(.int .u8 1, .seq (some 0) [])]),
  (none, { text := t! "b" }, .binary (some 3) [.borrowed [1, 2], .computed [3]]),
  (none, { text := t! "t" }, .text none [.borrowed (t! "é"), .computed (t! "!")])]

example : sizes true sizesV ∧ Nested.supported sizesV = true ∧ Serde.serializable sizesV = true := by
  refine ⟨?_, by decide +kernel, by decide +kernel⟩
  simp [sizesV, sizes, sizesRec, sizesMap, sizesSeq, fit, Frag.content]

/-- For a stream that overrides nothing it is a sequence of pairs. -/
example : ∃ v', lower Caps.minimal (toks sizesV) = toks v' ∧ sizes true v' :=
  ⟨_, lower_toks _ _, C92_default true _ _ _ (lower_toks _ _) (by simp [sizesV, sizes, sizesRec, sizesMap, sizesSeq, fit, Frag.content])⟩

example : lower Caps.minimal [.binaryBegin (some 2), .binaryFragment [7, 8], .binaryEnd] =
    [.seqBegin (some 2), .seqValueBegin, .int .i64 7, .seqValueEnd, .seqValueBegin, .int .i64 8, .seqValueEnd, .seqEnd] := by
  decide +kernel

/-- Not every value has right sizes: this one says that it has two elements. -/
example : ¬ sizes false (.seq (some 2) [.null]) := by simp [sizes, fit]

/-- The lengths that serde's derive macro gives. -/
example : Serde.sizesOf true (.struct (t! "R") 2 [(t! "a", .seq (some 1) [.unit]), (t! "b", .tuple 0 [])]) := by
  simp [Serde.sizesOf, Serde.sizesFields, Serde.sizesAll, fit]

end Sval
