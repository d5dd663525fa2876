import Verif.Props.Distinct
import Verif.Props.Derive
import Verif.Props.Buffer
import Verif.Props.Stream
import Verif.Props.Rust

set_option autoImplicit false

/-!
# C105. Different values of a type make different calls

A value of a Rust type can be told from the calls it makes to a stream, if the type is known, also if it is streamed
with `value_computed`, and after it has been in a buffer. JSON, C104, can tell less.
-/

namespace Sval

open Nested (prog seen Sees)
open Rust
open Derive (Field Attrs Shape Variant EnumDef)
open Buf (norm comp own collect replay)
open Serde (calls exec_calls)

/-! ## What is looked at -/

/-- Values that are not made of others. -/
inductive Leaf where
  | null
  | bool (b : Bool)
  | int (v : Int)
  | f32 (b : UInt32)
  | f64 (b : UInt64)
  | text (s : Text)
  | bytes (b : Bytes)

inductive Kind where
  | seq | map | tag | tagged | enum | record | tuple
deriving DecidableEq

/-- A tag, the text of a label, and an index. -/
structure Look where
  tag : Option Tag := none
  label : Option Text := none
  index : Option Index := none

def Look.of (m : Meta) : Look := ⟨m.tag, m.label.map Label.text, m.index⟩

/-- What is left of a value without sizes, fragments, what is borrowed or computed, and the names and indexes of fields. -/
inductive Sk where
  | leaf (l : Leaf)
  | node (k : Kind) (m : Look) (kids : List Sk)

mutual
def skel : V → Sk
  | .null => .leaf .null
  | .bool b => .leaf (.bool b)
  | .int _ v => .leaf (.int v)
  | .f32 b => .leaf (.f32 b)
  | .f64 b => .leaf (.f64 b)
  | .text _ fs => .leaf (.text (fragsText fs))
  | .binary _ fs => .leaf (.bytes (fragsBytes fs))
  | .seq _ xs => .node .seq {} (skelSeq xs)
  | .map _ kvs => .node .map {} (skelMap kvs)
  | .tag m => .node .tag (.of m) []
  | .tagged m v => .node .tagged (.of m) [skel v]
  | .enum m v => .node .enum (.of m) [skel v]
  | .record m _ fs => .node .record (.of m) (skelRec fs)
  | .tuple m _ fs => .node .tuple (.of m) (skelTup fs)
  | .recordTuple m _ fs => .node .record (.of m) (skelRT fs)
  | .hint _ v => skel v
def skelSeq : List V → List Sk
  | [] => []
  | x :: xs => skel x :: skelSeq xs
def skelMap : List (V × V) → List Sk
  | [] => []
  | (k, v) :: r => .node .seq {} [skel k, skel v] :: skelMap r
def skelRec : List (Option Tag × Label × V) → List Sk
  | [] => []
  | (_, _, v) :: r => skel v :: skelRec r
def skelTup : List (Option Tag × Index × V) → List Sk
  | [] => []
  | (_, _, v) :: r => skel v :: skelTup r
def skelRT : List (Option Tag × Label × Index × V) → List Sk
  | [] => []
  | (_, _, _, v) :: r => skel v :: skelRT r
end

theorem skelSeq_eq (xs : List V) : skelSeq xs = xs.map skel := by
  induction xs with
  | nil => rfl
  | cons x xs ih => simp [skelSeq, ih]

theorem skelMap_eq (xs : List (V × V)) : skelMap xs = xs.map fun x => .node .seq {} [skel x.1, skel x.2] := by
  induction xs with
  | nil => rfl
  | cons x xs ih => obtain ⟨k, v⟩ := x; simp [skelMap, ih]

theorem skelRec_eq (xs : List (Option Tag × Label × V)) : skelRec xs = xs.map fun x => skel x.2.2 := by
  induction xs with
  | nil => rfl
  | cons x xs ih => obtain ⟨t, l, v⟩ := x; simp [skelRec, ih]

theorem skelTup_eq (xs : List (Option Tag × Index × V)) : skelTup xs = xs.map fun x => skel x.2.2 := by
  induction xs with
  | nil => rfl
  | cons x xs ih => obtain ⟨t, l, v⟩ := x; simp [skelTup, ih]

theorem skelRT_eq (xs : List (Option Tag × Label × Index × V)) : skelRT xs = xs.map fun x => skel x.2.2.2 := by
  induction xs with
  | nil => rfl
  | cons x xs ih => obtain ⟨t, l, i, v⟩ := x; simp [skelRT, ih]

/-! ## Buffers and `value_computed` keep it -/

theorem look_own (m : Meta) : Look.of (own m) = Look.of m := by
  obtain ⟨t, l, i⟩ := m
  cases l with
  | none => rfl
  | some l => cases l with | mk text backing tag => cases backing <;> rfl

theorem skel_norm (v : V) : skel (norm v) = skel v := by
  induction v using V.ind with
  | text n fs => simp [norm, skel, Buf.fragsText_merged]
  | binary n fs => simp [norm, skel, Buf.fragsBytes_merged]
  | seq n xs ih =>
    have : skelSeq (Buf.normSeq xs) = skelSeq xs := by
      induction xs with
      | nil => rfl
      | cons x xs ihx => simp [Buf.normSeq, skelSeq, ih x (by simp), ihx fun y hy => ih y (by simp [hy])]
    simp [norm, skel, this]
  | map n kvs ih =>
    have : skelMap (Buf.normMap kvs) = skelMap kvs := by
      induction kvs with
      | nil => rfl
      | cons x xs ihx =>
        obtain ⟨k, v⟩ := x
        have h := ih (k, v) (by simp)
        simp [Buf.normMap, skelMap, h.1, h.2, ihx fun y hy => ih y (by simp [hy])]
    simp [norm, skel, this]
  | record m n fs ih =>
    have : skelRec (Buf.normRec fs) = skelRec fs := by
      induction fs with
      | nil => rfl
      | cons x xs ihx =>
        obtain ⟨t, l, v⟩ := x
        have h := ih (t, l, v) (by simp)
        simp [Buf.normRec, skelRec, h, ihx fun y hy => ih y (by simp [hy])]
    simp [norm, skel, this, look_own]
  | tuple m n fs ih =>
    have : skelTup (Buf.normTup fs) = skelTup fs := by
      induction fs with
      | nil => rfl
      | cons x xs ihx =>
        obtain ⟨t, l, v⟩ := x
        have h := ih (t, l, v) (by simp)
        simp [Buf.normTup, skelTup, h, ihx fun y hy => ih y (by simp [hy])]
    simp [norm, skel, this, look_own]
  | recordTuple m n fs ih =>
    have : skelRT (Buf.normRT fs) = skelRT fs := by
      induction fs with
      | nil => rfl
      | cons x xs ihx =>
        obtain ⟨t, l, i, v⟩ := x
        have h := ih (t, l, i, v) (by simp)
        simp [Buf.normRT, skelRT, h, ihx fun y hy => ih y (by simp [hy])]
    simp [norm, skel, this, look_own]
  | tag m => simp [norm, skel, look_own]
  | tagged m v ih => simp [norm, skel, look_own, ih]
  | enum m v ih => simp [norm, skel, look_own, ih]
  | hint t v ih => simp [norm, skel, ih]
  | _ => rfl

theorem skel_comp (v : V) : skel (comp v) = skel v := by
  have hf : ∀ {α : Type} (fs : List (Frag (List α))), (fs.map Buf.fragComp).map Frag.content = fs.map Frag.content := by
    intro α fs
    induction fs with
    | nil => rfl
    | cons f fs ih => cases f <;> simp [Buf.fragComp, Frag.content, ih]
  induction v using V.ind with
  | text n fs => simp only [comp, skel, fragsText, hf]
  | binary n fs => simp only [comp, skel, fragsBytes, hf]
  | seq n xs ih =>
    have : skelSeq (Buf.compSeq xs) = skelSeq xs := by
      induction xs with
      | nil => rfl
      | cons x xs ihx => simp [Buf.compSeq, skelSeq, ih x (by simp), ihx fun y hy => ih y (by simp [hy])]
    simp [comp, skel, this]
  | map n kvs ih =>
    have : skelMap (Buf.compMap kvs) = skelMap kvs := by
      induction kvs with
      | nil => rfl
      | cons x xs ihx =>
        obtain ⟨k, v⟩ := x
        have h := ih (k, v) (by simp)
        simp [Buf.compMap, skelMap, h.1, h.2, ihx fun y hy => ih y (by simp [hy])]
    simp [comp, skel, this]
  | record m n fs ih =>
    have : skelRec (Buf.compRec fs) = skelRec fs := by
      induction fs with
      | nil => rfl
      | cons x xs ihx =>
        obtain ⟨t, l, v⟩ := x
        have h := ih (t, l, v) (by simp)
        simp [Buf.compRec, skelRec, h, ihx fun y hy => ih y (by simp [hy])]
    simp [comp, skel, this]
  | tuple m n fs ih =>
    have : skelTup (Buf.compTup fs) = skelTup fs := by
      induction fs with
      | nil => rfl
      | cons x xs ihx =>
        obtain ⟨t, l, v⟩ := x
        have h := ih (t, l, v) (by simp)
        simp [Buf.compTup, skelTup, h, ihx fun y hy => ih y (by simp [hy])]
    simp [comp, skel, this]
  | recordTuple m n fs ih =>
    have : skelRT (Buf.compRT fs) = skelRT fs := by
      induction fs with
      | nil => rfl
      | cons x xs ihx =>
        obtain ⟨t, l, i, v⟩ := x
        have h := ih (t, l, i, v) (by simp)
        simp [Buf.compRT, skelRT, h, ihx fun y hy => ih y (by simp [hy])]
    simp [comp, skel, this]
  | tagged m v ih => simp [comp, skel, ih]
  | enum m v ih => simp [comp, skel, ih]
  | hint t v ih => simp [comp, skel, ih]
  | _ => rfl

theorem look_given (m : Meta) : Look.of (Nested.own m) = Look.of m := by
  obtain ⟨t, l, i⟩ := m
  cases l with
  | none => rfl
  | some l => cases l with | mk text backing tag => cases backing <;> rfl

theorem skel_seen (v : V) : skel (seen v) = skel v := by
  induction v using V.ind with
  | text n fs => simp [seen, skel, Nested.text, fragsText, Frag.content]
  | binary n fs => simp [seen, skel, Nested.binary, fragsBytes, Frag.content]
  | seq n xs ih =>
    have : skelSeq (Nested.seenSeq xs) = skelSeq xs := by
      induction xs with
      | nil => rfl
      | cons x xs ihx => simp [Nested.seenSeq, skelSeq, ih x (by simp), ihx fun y hy => ih y (by simp [hy])]
    simp [seen, skel, this, look_given]
  | map n kvs ih =>
    have : skelMap (Nested.seenMap kvs) = skelMap kvs := by
      induction kvs with
      | nil => rfl
      | cons x xs ihx =>
        obtain ⟨k, v⟩ := x
        have h := ih (k, v) (by simp)
        simp [Nested.seenMap, skelMap, h.1, h.2, ihx fun y hy => ih y (by simp [hy])]
    simp [seen, skel, this, look_given]
  | record m n fs ih =>
    have : skelRec (Nested.seenRec fs) = skelRec fs := by
      induction fs with
      | nil => rfl
      | cons x xs ihx =>
        obtain ⟨t, l, v⟩ := x
        have h := ih (t, l, v) (by simp)
        simp [Nested.seenRec, skelRec, h, ihx fun y hy => ih y (by simp [hy])]
    simp [seen, skel, this, look_given]
  | tuple m n fs ih =>
    have : skelTup (Nested.seenTup fs) = skelTup fs := by
      induction fs with
      | nil => rfl
      | cons x xs ihx =>
        obtain ⟨t, l, v⟩ := x
        have h := ih (t, l, v) (by simp)
        simp [Nested.seenTup, skelTup, h, ihx fun y hy => ih y (by simp [hy])]
    simp [seen, skel, this, look_given]
  | recordTuple m n fs ih =>
    have : skelRec (Nested.seenRT fs) = skelRT fs := by
      induction fs with
      | nil => rfl
      | cons x xs ihx =>
        obtain ⟨t, l, i, v⟩ := x
        have h := ih (t, l, i, v) (by simp)
        simp [Nested.seenRT, skelRec, skelRT, h, ihx fun y hy => ih y (by simp [hy])]
    simp [seen, skel, this, look_given]
  | tagged m v ih => simp [seen, skel, ih, look_given]
  | enum m v ih => simp [seen, skel, ih, look_given]
  | hint t v ih => simp [seen, skel, ih, look_given]
  | tag m => simp [seen, skel, look_given]
  | _ => rfl

/-! ## Types -/

namespace Ty

/-- What is looked at of a variant. -/
def look (d : EnumDef) (i : Nat) (v : Variant) : Look := ⟨v.attrs.tag, (Derive.variantName d v).map Label.text, indexOf d i⟩

/-- No field is skipped, and variants differ in tag, label or index. -/
def kept : Ty → Prop
  | .option t | .boxed t | .newtype _ _ _ t | .slice t | .array t => t.kept
  | .tuple _ ts => ∀ i, (ts i).kept
  | .map k t => k.kept ∧ t.kept
  | .struct _ _ _ fs ts => (∀ f ∈ fs, f.skip = false) ∧ ∀ i, (ts i).kept
  | .enum d ts => d.dyn = false ∧ (∀ v ∈ d.variants, ∀ f ∈ fieldsOf v.shape, f.skip = false) ∧
      (∀ i i' v v', d.variants[i]? = some v → d.variants[i']? = some v' → (∃ n, okVariant v n) → (∃ n, okVariant v' n) →
        look d i v = look d i' v' → i = i') ∧
      ∀ i k, (ts i k).kept
  | _ => True

end Ty

/-! ## Structs -/

theorem skel_data {f : Field} {v w : V} (h : skel (Derive.data f v) = skel (Derive.data f w)) : skel v = skel w := by
  cases hf : f.dataTag with
  | none => simpa only [Derive.data, hf] using h
  | some t =>
    simp only [Derive.data, hf, skel, Sk.node.injEq, List.cons.injEq, and_true, true_and] at h
    exact h

/-- What is in the fields. -/
def Sk.fields : Sk → List Sk
  | .node .tagged _ [.node _ _ ks] => ks
  | .node _ _ ks => ks
  | .leaf _ => []

def Sk.look : Sk → Look
  | .node _ m _ => m
  | .leaf _ => {}

theorem struct_fields (named : Bool) (at' : Attrs) (m : Meta) (fs : List Field) (vs : List V) :
    (skel (Derive.structTree named at' m fs vs)).fields = (Derive.rows fs vs).map fun r => skel (Derive.data r.1 r.2) := by
  have he : ∀ {β : Type} (g : Field × V → β), (Derive.entries (Derive.rows fs vs)).map (fun r => g r.1) = (Derive.rows fs vs).map g := by
    intro β g
    have : (Derive.entries (Derive.rows fs vs)).map Prod.fst = Derive.rows fs vs := by
      rw [Derive.entries, List.map_fst_zip]
      rw [Derive.indexes_length, List.length_map]; exact Nat.le_refl _
    conv => rhs; rw [← this]
    rw [List.map_map]; rfl
  simp only [Derive.structTree]
  split
  · simp only [skel, Sk.fields, skelRT_eq, List.map_map, Function.comp_def]
    exact he fun r => skel (Derive.data r.1 r.2)
  · simp only [skel, Sk.fields, skelTup_eq, List.map_map, Function.comp_def]
    exact he fun r => skel (Derive.data r.1 r.2)
  · simp only [skel, Sk.fields, skelRec_eq, List.map_map, Function.comp_def]
  · simp only [skel, Sk.fields, skelSeq_eq, List.map_map, Function.comp_def]

theorem struct_look (named : Bool) (at' : Attrs) (m : Meta) (fs : List Field) (vs : List V) :
    (skel (Derive.structTree named at' m fs vs)).look = .of m := by
  simp only [Derive.structTree]
  split <;> rfl

theorem struct_seen {named : Bool} {at' : Attrs} {m m' : Meta} {fs : List Field} {vs ws : List V} (hs : ∀ f ∈ fs, f.skip = false)
    (hv : fs.length = vs.length) (hw : fs.length = ws.length)
    (h : skel (Derive.structTree named at' m fs vs) = skel (Derive.structTree named at' m' fs ws)) : vs.map skel = ws.map skel := by
  replace h := congrArg Sk.fields h
  rw [struct_fields, struct_fields] at h
  have hr : ∀ us : List V, Derive.rows fs us = fs.zip us := by
    intro us
    rw [Derive.rows, List.filter_eq_self]
    intro r hr
    rw [hs r.1 (List.of_mem_zip hr).1]; rfl
  rw [hr, hr] at h
  clear hr hs
  induction fs generalizing vs ws with
  | nil =>
    cases vs with
    | nil => cases ws with
      | nil => rfl
      | cons _ _ => cases hw
    | cons _ _ => cases hv
  | cons f fs ih =>
    cases vs with
    | nil => cases hv
    | cons v vs =>
      cases ws with
      | nil => cases hw
      | cons w ws =>
        simp only [List.zip_cons_cons, List.map_cons, List.cons.injEq] at h ⊢
        exact ⟨skel_data h.1, ih (by simpa using hv) (by simpa using hw) h.2⟩

/-! ## Variants -/

theorem variant_look {d : EnumDef} {v : Variant} {i : Option Index} {vs : List V} (hd : d.dyn = false) (ho : okVariant v vs.length) :
    (skel (Derive.variantTree d v i vs)).look = ⟨v.attrs.tag, (Derive.variantName d v).map Label.text, i⟩ := by
  simp only [Derive.variantTree]
  cases hs : v.shape with
  | unit => rfl
  | newtype =>
    simp only [okVariant, hs] at ho
    obtain ⟨x, rfl⟩ := List.length_eq_one_iff.mp ho
    simp only [hd, Bool.false_eq_true, if_false]
    rfl
  | named fs => exact struct_look _ _ _ _ _
  | unnamed fs => exact struct_look _ _ _ _ _

theorem variant_seen {d : EnumDef} {v : Variant} {i : Option Index} {vs ws : List V} (hd : d.dyn = false)
    (hs : ∀ f ∈ fieldsOf v.shape, f.skip = false) (ho : okVariant v vs.length) (ho' : okVariant v ws.length)
    (h : skel (Derive.variantTree d v i vs) = skel (Derive.variantTree d v i ws)) : vs.map skel = ws.map skel := by
  simp only [Derive.variantTree] at h
  cases hsh : v.shape with
  | unit =>
    simp only [okVariant, hsh] at ho ho'
    rw [List.length_eq_zero_iff.1 ho, List.length_eq_zero_iff.1 ho']
  | newtype =>
    simp only [okVariant, hsh] at ho ho'
    obtain ⟨x, rfl⟩ := List.length_eq_one_iff.mp ho
    obtain ⟨y, rfl⟩ := List.length_eq_one_iff.mp ho'
    simp only [hsh, hd, Bool.false_eq_true, if_false, skel, Sk.node.injEq, List.cons.injEq, and_true, true_and] at h
    simp [h]
  | named fs =>
    simp only [okVariant, hsh] at ho ho'
    simp only [hsh] at h
    rw [hsh] at hs
    exact struct_seen hs ho.2.2 ho'.2.2 h
  | unnamed fs =>
    simp only [okVariant, hsh] at ho ho'
    simp only [hsh] at h
    rw [hsh] at hs
    exact struct_seen hs ho.2.2 ho'.2.2 h

/-! ## Values -/

namespace Ty

/-- Different values look different. -/
theorem skel_inj (ty : Ty) (hk : ty.kept) (x y : RV) (hx : ty.has x) (hy : ty.has y) (h : skel (tree x) = skel (tree y)) : x = y := by
  have list : ∀ (xs ys : List RV), (trees xs).map skel = (trees ys).map skel →
      (∀ (i : Nat) x y, xs[i]? = some x → ys[i]? = some y → skel (tree x) = skel (tree y) → x = y) → xs = ys := by
    intro xs ys h hi
    rw [trees_eq, trees_eq, List.map_map, List.map_map] at h
    exact map_inj_at h fun i x y hx hy e => hi i x y hx hy e
  induction ty generalizing x y with
  | unit =>
    cases x <;> first | exact (show False from hx).elim | skip
    cases y <;> first | exact (show False from hy).elim | skip
    rfl
  | bool | f32 | f64 =>
    cases x <;> first | exact (show False from hx).elim | skip
    cases y <;> first | exact (show False from hy).elim | skip
    cases h; rfl
  | int t =>
    cases x <;> first | exact (show False from hx).elim | skip
    cases y <;> first | exact (show False from hy).elim | skip
    cases h
    rw [show _ = t from hx, show _ = t from hy]
  | char =>
    cases x <;> first | exact (show False from hx).elim | skip
    cases y <;> first | exact (show False from hy).elim | skip
    cases h; rfl
  | str =>
    cases x <;> first | exact (show False from hx).elim | skip
    cases y <;> first | exact (show False from hy).elim | skip
    simp only [tree, skel, fragsText, Frag.content, List.map_cons, List.map_nil, List.flatten_cons, List.flatten_nil, List.append_nil,
      Sk.leaf.injEq, Leaf.text.injEq] at h
    rw [h]
  | bytes =>
    cases x <;> first | exact (show False from hx).elim | skip
    cases y <;> first | exact (show False from hy).elim | skip
    simp only [tree, skel, fragsBytes, Frag.content, List.map_cons, List.map_nil, List.flatten_cons, List.flatten_nil, List.append_nil,
      Sk.leaf.injEq, Leaf.bytes.injEq] at h
    rw [h]
  | byteArray =>
    cases x <;> first | exact (show False from hx).elim | skip
    cases y <;> first | exact (show False from hy).elim | skip
    simp only [tree, skel, fragsBytes, Frag.content, List.map_cons, List.map_nil, List.flatten_cons, List.flatten_nil, List.append_nil,
      Sk.node.injEq, List.cons.injEq, and_true, true_and, Sk.leaf.injEq, Leaf.bytes.injEq] at h
    rw [h]
  | option t ih =>
    cases x <;> first | exact (show False from hx).elim | skip
    · cases y <;> first | exact (show False from hy).elim | skip
      · rfl
      · cases h
    · cases y <;> first | exact (show False from hy).elim | skip
      · cases h
      · rename_i v w
        simp only [tree, skel, Sk.node.injEq, List.cons.injEq, and_true, true_and] at h
        rw [ih hk v w hx hy h]
  | boxed t ih =>
    cases x <;> first | exact (show False from hx).elim | skip
    cases y <;> first | exact (show False from hy).elim | skip
    rename_i v w
    rw [ih hk v w hx hy h]
  | slice t ih =>
    cases x <;> first | exact (show False from hx).elim | skip
    cases y <;> first | exact (show False from hy).elim | skip
    simp only [tree, skel, skelSeq_eq, Sk.node.injEq, true_and] at h
    rw [list _ _ h fun i x y e1 e2 => ih hk x y (hx x (List.mem_of_getElem? e1)) (hy y (List.mem_of_getElem? e2))]
  | array t ih =>
    cases x <;> first | exact (show False from hx).elim | skip
    cases y <;> first | exact (show False from hy).elim | skip
    simp only [tree, skel, skelSeq_eq, Sk.node.injEq, List.cons.injEq, and_true, true_and] at h
    rw [list _ _ h fun i x y e1 e2 => ih hk x y (hx x (List.mem_of_getElem? e1)) (hy y (List.mem_of_getElem? e2))]
  | tuple n ts ih =>
    cases x <;> first | exact (show False from hx).elim | skip
    cases y <;> first | exact (show False from hy).elim | skip
    have hz : ∀ us : List V, (us.zipIdx.map fun x => skel x.1) = us.map skel := by
      intro us
      have : us.zipIdx.map Prod.fst = us := List.zipIdx_map_fst 0 us
      conv => rhs; rw [← this]
      rw [List.map_map]; rfl
    simp only [tree, skel, skelTup_eq, List.map_map, Function.comp_def, hz, Sk.node.injEq, true_and] at h
    rw [list _ _ h fun i x y e1 e2 => ih i (hk i) x y (hx.2 i x e1) (hy.2 i y e2)]
  | map k t ihk ih =>
    cases x <;> first | exact (show False from hx).elim | skip
    cases y <;> first | exact (show False from hy).elim | skip
    rename_i ks vs ks' vs'
    obtain ⟨hl, hxk, hxv⟩ := hx
    obtain ⟨hl', hyk, hyv⟩ := hy
    simp only [tree, skel, skelMap_eq, Sk.node.injEq, true_and] at h
    have h1 : (trees ks).map skel = (trees ks').map skel ∧ (trees vs).map skel = (trees vs').map skel := by
      clear hxk hxv hyk hyv
      induction ks generalizing vs ks' vs' with
      | nil =>
        cases vs with
        | cons _ _ => cases hl
        | nil => cases ks' with
          | nil => cases vs' with
            | nil => exact ⟨rfl, rfl⟩
            | cons _ _ => cases hl'
          | cons _ _ => cases vs' with
            | nil => cases hl'
            | cons _ _ => cases h
      | cons a ks ih1 =>
        cases vs with
        | nil => cases hl
        | cons b vs => cases ks' with
          | nil => cases h
          | cons a' ks' => cases vs' with
            | nil => cases hl'
            | cons b' vs' =>
              simp only [trees, List.zip_cons_cons, List.map_cons, List.cons.injEq, Sk.node.injEq, and_true, true_and] at h ⊢
              obtain ⟨h1, h2⟩ := ih1 vs ks' vs' (by simpa using hl) (by simpa using hl') h.2
              exact ⟨⟨h.1.1, h1⟩, h.1.2, h2⟩
    rw [list ks ks' h1.1 fun i x y e1 e2 => ihk hk.1 x y (hxk x (List.mem_of_getElem? e1)) (hyk y (List.mem_of_getElem? e2)),
      list vs vs' h1.2 fun i x y e1 e2 => ih hk.2 x y (hxv x (List.mem_of_getElem? e1)) (hyv y (List.mem_of_getElem? e2))]
  | unitStruct n a =>
    cases x <;> first | exact (show False from hx).elim | skip
    cases y <;> first | exact (show False from hy).elim | skip
    rw [hx.1, hx.2, hy.1, hy.2]
  | newtype n a b t ih =>
    cases x <;> first | exact (show False from hx).elim | skip
    cases y <;> first | exact (show False from hy).elim | skip
    rename_i v _ _ _ w
    obtain ⟨rfl, rfl, rfl, hx⟩ := hx
    obtain ⟨rfl, rfl, rfl, hy⟩ := hy
    rw [ih hk v w hx hy ?_]
    simp only [tree] at h
    split at h
    · exact h
    · simp only [skel, Sk.node.injEq, List.cons.injEq, and_true, true_and] at h
      exact h
  | struct b n a fs ts ih =>
    cases x <;> first | exact (show False from hx).elim | skip
    cases y <;> first | exact (show False from hy).elim | skip
    obtain ⟨rfl, rfl, rfl, rfl, ho, hx⟩ := hx
    obtain ⟨rfl, rfl, rfl, rfl, ho', hy⟩ := hy
    rw [list _ _ (struct_seen hk.1 (by rw [trees_eq, List.length_map]; exact ho.2.2) (by rw [trees_eq, List.length_map]; exact ho'.2.2) h)
      fun i x y e1 e2 => ih i (hk.2 i) x y (hx i x e1) (hy i y e2)]
  | enum d ts ih =>
    cases x <;> first | exact (show False from hx).elim | skip
    cases y <;> first | exact (show False from hy).elim | skip
    rename_i i xs _ i' ys
    obtain ⟨rfl, ⟨v, hv, ho⟩, hx⟩ := hx
    obtain ⟨rfl, ⟨v', hv', ho'⟩, hy⟩ := hy
    obtain ⟨hd, hs, hu, ht⟩ := hk
    have hlx : okVariant v (trees xs).length := by rw [trees_eq, List.length_map]; exact ho
    have hly : okVariant v' (trees ys).length := by rw [trees_eq, List.length_map]; exact ho'
    simp only [tree, hv, hv', hd, Bool.false_eq_true, if_false, skel, Sk.node.injEq, List.cons.injEq, and_true, true_and] at h
    have hi : i = i' := by
      refine hu i i' v v' hv hv' ⟨_, ho⟩ ⟨_, ho'⟩ ?_
      have := congrArg Sk.look h
      rw [variant_look hd hlx, variant_look hd hly] at this
      exact this
    subst hi
    rw [hv] at hv'
    cases hv'
    rw [list _ _ (variant_seen hd (hs v (List.mem_of_getElem? hv)) hlx hly h)
      fun n x y e1 e2 => ih i n (ht i n) x y (hx n x e1) (hy n y e2)]

end Ty

/-! ## C105 -/

/-- C105, as far as it holds: values that make the same calls are the same. Missing: skipped fields, `C105_fails_skip`; enums whose
variants are not told apart, `C105_fails_dynamic` and `C105_fails_variants`. -/
theorem C105_partial (ty : Ty) (hk : ty.kept) (x y : RV) (hx : ty.has x) (hy : ty.has y)
    (h : exec (recorder fun _ _ => true) (prog (items x)) .base [] = exec (recorder fun _ _ => true) (prog (items y)) .base []) : x = y := by
  rw [C38_calls x (ty.has_ok x hx), C38_calls y (ty.has_ok y hy)] at h
  exact ty.skel_inj hk x y hx hy (by rw [toks_inj (congrArg Prod.fst h)])

/-- Code that makes these calls, with `value_computed`. -/
theorem exec_toks_computed {σ : Type} (S : Token → σ → σ × Bool) (v : V) (s : σ) :
    exec S (valueOf v) (.computed .base) s = calls S ((toks v).map computedTok) s := by
  have h : ∀ ts : List Token, Nested.flat (ts.map .tok) true = ts.map computedTok := by
    intro ts
    induction ts with
    | nil => rfl
    | cons t ts ih => simp [Nested.flat, Nested.Item.flat, ih]
  have := exec_calls S ((toks v).map .tok) true s
  rwa [h, ← valueOf_prog] at this

/-- C105. The same with `value_computed`, where everything is reported as computed. -/
theorem C105_computed_partial (ty : Ty) (hk : ty.kept) (x y : RV) (hx : ty.has x) (hy : ty.has y)
    (h : exec (recorder fun _ _ => true) (prog (items x)) (.computed .base) [] =
      exec (recorder fun _ _ => true) (prog (items y)) (.computed .base) []) : x = y := by
  have hr : ∀ (ts h : List Token), calls (recorder fun _ _ => true) ts h = (h ++ ts, true) := by
    intro ts
    induction ts with
    | nil => simp [calls]
    | cons t ts ih => intro h; simp [calls, recorder, ih]
  rw [C38_computed _ x (ty.has_ok x hx), C38_computed _ y (ty.has_ok y hy), hr, hr, List.nil_append, List.nil_append, ← Buf.toks_comp,
    ← Buf.toks_comp] at h
  have := congrArg skel (toks_inj (congrArg Prod.fst h))
  rw [skel_comp, skel_comp] at this
  exact ty.skel_inj hk x y hx hy this

/-- C105. Values whose buffers replay the same are the same, so a buffer has all of the value in it. -/
theorem C105_buffer_partial (ty : Ty) (hk : ty.kept) (x y : RV) (hx : ty.has x) (hy : ty.has y) (computed : Bool) :
    ∃ s s', collect true computed (prog (items x)) = .ok s ∧ collect true computed (prog (items y)) = .ok s' ∧
      (replay s.parts = replay s'.parts → x = y) := by
  have hc : ∀ x, ok x → collect true computed (prog (items x)) = collect true computed (valueOf (tree x)) := by
    intro x hx
    cases computed with
    | false => simp only [collect, Bool.false_eq_true, if_false, (C38 _ x hx _).1]
    | true => simp only [collect, if_true, C38_computed _ x hx, exec_toks_computed]
  rw [hc x (ty.has_ok x hx), hc y (ty.has_ok y hy)]
  cases computed with
  | false =>
    obtain ⟨s, h1, h2⟩ := (C15_collect (tree x)).1
    obtain ⟨s', h3, h4⟩ := (C15_collect (tree y)).1
    refine ⟨s, s', h1, h3, fun h => ?_⟩
    rw [h2, h4] at h
    have := congrArg skel (toks_inj (congrArg (fun r => r.toks) h))
    rw [skel_norm, skel_norm] at this
    exact ty.skel_inj hk x y hx hy this
  | true =>
    obtain ⟨s, h1, h2⟩ := (C15_collect (tree x)).2
    obtain ⟨s', h3, h4⟩ := (C15_collect (tree y)).2
    refine ⟨s, s', h1, h3, fun h => ?_⟩
    rw [h2, h4] at h
    have := congrArg skel (toks_inj (congrArg (fun r => r.toks) h))
    rw [skel_norm, skel_norm, skel_comp, skel_comp] at this
    exact ty.skel_inj hk x y hx hy this

/-- C105. Values that a recursive stream sees as the same, all the way down, are the same. -/
theorem C105_nested_partial (ty : Ty) (hk : ty.kept) (x y : RV) (hx : ty.has x) (hy : ty.has y) (borrowed : Bool) :
    ∃ v w, Sees ⟨borrowed, prog (items x)⟩ v ∧ Sees ⟨borrowed, prog (items y)⟩ w ∧ (v = w → x = y) := by
  refine ⟨_, _, C32_rust x (ty.has_ok x hx) borrowed, C32_rust y (ty.has_ok y hy) borrowed, fun h => ?_⟩
  have := congrArg skel h
  rw [skel_seen, skel_seen] at this
  exact ty.skel_inj hk x y hx hy this

/-- C105. The same for whatever tree a recursive stream sees. -/
theorem C105_sees_partial (ty : Ty) (hk : ty.kept) (x y : RV) (hx : ty.has x) (hy : ty.has y) (b b' : Bool) (v : V)
    (h : Sees ⟨b, prog (items x)⟩ v) (h' : Sees ⟨b', prog (items y)⟩ v) : x = y := by
  obtain rfl := C32_unique _ _ _ h (C32_rust x (ty.has_ok x hx) b)
  have := congrArg skel (C32_unique _ _ _ h' (C32_rust y (ty.has_ok y hy) b'))
  rw [skel_seen, skel_seen] at this
  exact ty.skel_inj hk x y hx hy this

/-- C105. Enums without attributes that change it are told apart by their discriminants, which the compiler makes sure are distinct. -/
theorem C105_enum (d : EnumDef) (ts : Nat → Nat → Ty) (hd : d.dyn = false) (hu : d.unindexedVariants = false)
    (hv : ∀ v ∈ d.variants, v.attrs.index = none ∧ (v.discr = none ∨ ∃ k, v.discr = some (.lit k)))
    (hr : (rustDiscriminants 0 d.variants).Nodup) (hs : ∀ v ∈ d.variants, ∀ f ∈ fieldsOf v.shape, f.skip = false)
    (ht : ∀ i k, (ts i k).kept) : (Ty.enum d ts).kept := by
  refine ⟨hd, hs, fun i i' v v' h h' ⟨n, ho⟩ ⟨n', ho'⟩ e => ?_, ht⟩
  have hu' : ∀ n, oks (List.replicate n RV.unit) := fun n => (oks_iff _).2 fun x hx => by rw [List.eq_of_mem_replicate hx]; trivial
  have hx : ok (.enum d i (List.replicate n .unit)) := ⟨⟨v, h, by rwa [List.length_replicate]⟩, hu' n⟩
  have hy : ok (.enum d i' (List.replicate n' .unit)) := ⟨⟨v', h', by rwa [List.length_replicate]⟩, hu' n'⟩
  apply Classical.byContradiction
  intro hne
  refine C39_distinct_partial d hd hu hv hr i i' _ _ hx hy hne ?_
  rw [variantIndex_tree d hd i _ hx, variantIndex_tree d hd i' _ hy]
  exact congrArg Look.index e

/-- `struct Order`, as for C104, is such a type; so is `HashMap<Option<Option<()>>, f64>`, where C104 is false. -/
example : orderT.kept ∧ (Ty.map (.option (.option .unit)) .f64).kept ∧
    (Ty.map (.option (.option .unit)) .f64).has (.map [.some .none, .none, .some (.some .unit)] [.f64 0, .f64 0x7ff0000000000000, .f64 1]) := by
  refine ⟨⟨?_, ?_⟩, ⟨trivial, trivial⟩, ⟨rfl, ?_, ?_⟩⟩
  · intro f hf
    simp only [List.mem_cons, List.not_mem_nil, or_false] at hf; rcases hf with rfl | rfl <;> rfl
  · intro i
    match i with
    | 0 =>
      refine C105_enum kindD _ rfl rfl ?_ (by decide) ?_ fun _ _ => trivial
      · intro v hv
        simp only [kindD, List.mem_cons, List.not_mem_nil, or_false] at hv
        rcases hv with rfl | rfl <;> exact ⟨rfl, .inl rfl⟩
      · intro v hv f hf
        simp only [kindD, List.mem_cons, List.not_mem_nil, or_false] at hv
        rcases hv with rfl | rfl <;> exact nomatch hf
    | i + 1 => exact ⟨trivial, trivial⟩
  · intro x hx
    simp only [List.mem_cons, List.not_mem_nil, or_false] at hx
    rcases hx with rfl | rfl | rfl <;> trivial
  · intro x hx
    simp only [List.mem_cons, List.not_mem_nil, or_false] at hx
    rcases hx with rfl | rfl | rfl <;> trivial

/-- C105 is false if fields are skipped. -/
theorem C105_fails_skip :
    let x (b : Bool) : RV := .struct true (t! "P") {} [{ ident := some (t! "x"), skip := true }] [.bool b]
    (∀ b, ok (x b)) ∧ x true ≠ x false ∧
      exec (recorder fun _ _ => true) (prog (items (x true))) .base [] = exec (recorder fun _ _ => true) (prog (items (x false))) .base [] := by
  intro x
  have hx : ∀ b, ok (x b) := by
    intro b
    refine ⟨⟨rfl, fun f hf => ?_, rfl⟩, trivial, trivial⟩
    rcases List.mem_singleton.1 hf with rfl
    exact .inr rfl
  refine ⟨hx, nofun, ?_⟩
  rw [C38_calls _ (hx _), C38_calls _ (hx _)]
  rfl

/-- C105 is false of dynamic enums: `A(1)` and `B(1)` are both `1`. -/
theorem C105_fails_dynamic :
    let d : EnumDef := { ident := t! "E", dyn := true, variants := [{ ident := t! "A", shape := .newtype }, { ident := t! "B", shape := .newtype }] }
    let x (i : Nat) : RV := .enum d i [.int .u8 1]
    ok (x 0) ∧ ok (x 1) ∧ x 0 ≠ x 1 ∧
      exec (recorder fun _ _ => true) (prog (items (x 0))) .base [] = exec (recorder fun _ _ => true) (prog (items (x 1))) .base [] := by
  intro d x
  have h0 : ok (x 0) := ⟨⟨_, rfl, rfl⟩, trivial, trivial⟩
  have h1 : ok (x 1) := ⟨⟨_, rfl, rfl⟩, trivial, trivial⟩
  refine ⟨h0, h1, nofun, ?_⟩
  rw [C38_calls _ h0, C38_calls _ h1]
  rfl

/-- C105 is false if variants have the same label and no index, or the same index and no label, both of which the derive macro accepts. -/
theorem C105_fails_variants :
    let d : EnumDef := { ident := t! "E", unindexedVariants := true, variants := [{ ident := t! "A", shape := .unit, attrs := { label := some (.const (t! "X")) } }, { ident := t! "B", shape := .unit, attrs := { label := some (.const (t! "X")) } }] }
    let d' : EnumDef := { ident := t! "E", unlabeledVariants := true, variants := [{ ident := t! "A", shape := .unit, attrs := { index := some (.const 1) } }, { ident := t! "B", shape := .unit, attrs := { index := some (.const 1) } }] }
    ∀ e, e = d ∨ e = d' → ok (.enum e 0 []) ∧ ok (.enum e 1 []) ∧ RV.enum e 0 [] ≠ .enum e 1 [] ∧
      exec (recorder fun _ _ => true) (prog (items (.enum e 0 []))) .base [] =
        exec (recorder fun _ _ => true) (prog (items (.enum e 1 []))) .base [] := by
  intro d d' e he
  have h0 : ok (.enum e 0 []) := by rcases he with rfl | rfl <;> exact ⟨⟨_, rfl, rfl⟩, trivial⟩
  have h1 : ok (.enum e 1 []) := by rcases he with rfl | rfl <;> exact ⟨⟨_, rfl, rfl⟩, trivial⟩
  refine ⟨h0, h1, nofun, ?_⟩
  rw [C38_calls _ h0, C38_calls _ h1]
  rcases he with rfl | rfl <;> rfl

end Sval
