import Verif.Derive.Struct

set_option autoImplicit false

/-! # Values of Rust types stream what they are meant to -/

namespace Sval.Rust

open Nested (Item)

open Derive (Field Attrs Shape Variant EnumDef IndexVal Slot Alloc)

/-! ## Induction -/

def parts : RV → List RV
  | .some v | .boxed v | .newtype _ _ _ v => [v]
  | .slice xs | .array xs | .tuple xs | .struct _ _ _ _ xs | .enum _ _ xs => xs
  | .map ks vs => ks ++ vs
  | _ => []

theorem sizeOf_parts (v : RV) : ∀ w ∈ parts v, sizeOf w < sizeOf v := by
  intro w hw
  cases v <;> simp only [parts, List.mem_cons, List.not_mem_nil, or_false, List.mem_append] at hw
  case some v => subst hw; simp
  case boxed v => subst hw; simp
  case newtype v => subst hw; simp
  case slice xs => have := List.sizeOf_lt_of_mem hw; simp; omega
  case array xs => have := List.sizeOf_lt_of_mem hw; simp; omega
  case tuple xs => have := List.sizeOf_lt_of_mem hw; simp; omega
  case struct xs => have := List.sizeOf_lt_of_mem hw; simp; omega
  case enum xs => have := List.sizeOf_lt_of_mem hw; simp; omega
  case map ks vs => rcases hw with hw | hw <;> · have := List.sizeOf_lt_of_mem hw; simp; omega

theorem RV.ind {P : RV → Prop} (h : ∀ v, (∀ w ∈ parts v, P w) → P v) (v : RV) : P v := by
  suffices ∀ n v, sizeOf v ≤ n → P v from this _ v (Nat.le_refl _)
  intro n
  induction n with
  | zero => intro v hv; cases v <;> simp at hv
  | succ n ih =>
    intro v hv
    refine h v fun w hw => ih w ?_
    have := sizeOf_parts v w hw
    omega

theorem itemsAll_eq (xs : List RV) : itemsAll xs = xs.map items := by
  induction xs with
  | nil => rfl
  | cons x xs ih => rw [itemsAll, ih]; rfl

theorem trees_eq (xs : List RV) : trees xs = xs.map tree := by
  induction xs with
  | nil => rfl
  | cons x xs ih => rw [trees, ih]; rfl

theorem oks_iff (xs : List RV) : oks xs ↔ ∀ x ∈ xs, ok x := by
  induction xs with
  | nil => simp [oks]
  | cons x xs ih => simp [oks, ih]

/-! ## Variants -/

theorem attrIndex_eq (i : Option IndexVal) : (i.map fun i => (Derive.constIndexOf i).index) = i.map attrIndex := by
  cases i with
  | none => rfl
  | some i => cases i <;> rfl

theorem slots_eq (d : EnumDef) (vs : List Variant) (a : Alloc) :
    (Derive.variantSlots d a vs).map (·.map Slot.index) =
      variantIndexes.go (if d.dyn || d.unindexedVariants then [] else
        Derive.indexes a.next a.explicit ((vs.filter fun v => v.attrs.index.isNone).map Derive.discrIndex)) vs := by
  induction vs generalizing a with
  | nil => rfl
  | cons v vs ih =>
    rw [List.filter_cons]
    cases hi : v.attrs.index with
    | some i =>
      simp only [Derive.variantSlots, Derive.variantSlot, hi, List.map_cons, ih, variantIndexes.go]
      cases i <;> rfl
    | none =>
      cases hu : d.dyn || d.unindexedVariants with
      | true =>
        have := ih a
        rw [hu] at this
        simp [Derive.variantSlots, Derive.variantSlot, hi, hu, this, variantIndexes.go]
      | false =>
        have := ih (a.nextConst (Derive.discrIndex v)).2
        rw [hu] at this
        simp only [Bool.false_eq_true, if_false] at this
        simp only [Derive.variantSlots, Derive.variantSlot, hi, hu, variantIndexes.go, Option.isNone_none, if_true,
          List.map_cons, Bool.false_eq_true, if_false]
        simp only [Derive.discrIndex] at this
        rw [this]
        cases hx : v.discr.bind Derive.Discr.toIndex with
        | none =>
          simp only [Derive.Alloc.nextConst, Derive.discrIndex, hx, Derive.indexes, List.head?_cons, List.tail_cons]
          cases a.explicit <;> rfl
        | some x => cases x <;> simp [Derive.Alloc.nextConst, Derive.discrIndex, hx, Derive.indexes, Derive.constIndexOf, Slot.index]

theorem variantSlots_length (d : EnumDef) (vs : List Variant) (a : Alloc) : (Derive.variantSlots d a vs).length = vs.length := by
  induction vs generalizing a with
  | nil => rfl
  | cons v vs ih => simp [Derive.variantSlots, ih]

theorem variantLabel_eq (d : EnumDef) (v : Variant) : Derive.variantLabel d v = Derive.variantName d v := by
  unfold Derive.variantLabel Derive.variantName
  cases v.shape <;> cases d.dyn <;> cases d.unlabeledVariants <;> rfl

theorem emits_arm (d : EnumDef) (v : Variant) (s : Option Slot) (L : List (List Item × V)) (hok : okVariant v L.length)
    (hL : ∀ x ∈ L, Emits x.1 x.2) :
    Emits (Derive.armItems d v s (L.map (·.1))) (Derive.variantTree d v (s.map Slot.index) (L.map (·.2))) := by
  unfold okVariant at hok
  simp only [Derive.armItems, Derive.variantTree, Derive.variantMeta, variantLabel_eq]
  cases hs : v.shape with
  | unit => exact Emits.tag _
  | newtype =>
    rw [hs] at hok
    match L, hok with
    | [x], _ =>
      have hx := (hL x (.head _)).val
      cases hd : d.dyn with
      | true => simpa using hx
      | false => simpa using Emits.tagged _ hx
  | named fs =>
    rw [hs] at hok
    exact Derive.emits_struct true v.attrs _ fs L hok hL
  | unnamed fs =>
    rw [hs] at hok
    exact Derive.emits_struct false v.attrs _ fs L hok hL

/-! ## Collections -/

theorem elems_eq (qs : List (List Item)) :
    elemsItems qs = qs.flatMap fun q => .tok .seqValueBegin :: ([.val q] ++ [.tok .seqValueEnd]) := by
  induction qs with
  | nil => rfl
  | cons q qs ih => rw [elemsItems, ih]; rfl

theorem emits_slice (L : List (List Item × V)) (hL : ∀ x ∈ L, Emits x.1 x.2) :
    Emits (sliceItems (L.map (·.1))) (.seq (Option.some L.length) (L.map (·.2))) := by
  have := Emits.seq (Option.some L.length) (L.map fun x => ([.val x.1], x.2))
    (fun y hy => by obtain ⟨x, hx, rfl⟩ := List.mem_map.mp hy; exact (hL x hx).val)
  simpa [sliceItems, elems_eq, List.flatMap_map, Function.comp_def] using this

theorem tup_eq (qs : List (List Item)) (i : Nat) :
    tupItems i qs = (qs.zipIdx i).flatMap fun x =>
      .tok (.tupleValueBegin Option.none (offset x.2)) :: ([.val x.1] ++ [.tok (.tupleValueEnd Option.none (offset x.2))]) := by
  induction qs generalizing i with
  | nil => rfl
  | cons q qs ih =>
    rw [tupItems, ih, List.zipIdx_cons, List.flatMap_cons]
    rfl

theorem emits_tuple (L : List (List Item × V)) (hL : ∀ x ∈ L, Emits x.1 x.2) :
    Emits (tupleItems (L.map (·.1)))
      (.tuple {} (Option.some L.length) ((L.map (·.2)).zipIdx.map fun x => (Option.none, offset x.2, x.1))) := by
  have := Emits.tuple {} (Option.some L.length) (L.zipIdx.map fun x => (Option.none, offset x.2, [.val x.1.1], x.1.2))
    (fun y hy => by
      obtain ⟨x, hx, rfl⟩ := List.mem_map.mp hy
      exact (hL _ (List.fst_mem_of_mem_zipIdx hx)).val)
  simpa [tupleItems, tup_eq, List.zipIdx_map, List.flatMap_map, Function.comp_def] using this

theorem entries_eq (L : List ((List Item × V) × (List Item × V))) :
    entriesItems (L.map (·.1.1)) (L.map (·.2.1)) = L.flatMap fun x =>
      .tok .mapKeyBegin :: ([.val x.1.1] ++ [.tok .mapKeyEnd]) ++
      .tok .mapValueBegin :: ([.val x.2.1] ++ [.tok .mapValueEnd]) := by
  induction L with
  | nil => rfl
  | cons x L ih => rw [List.map_cons, List.map_cons, entriesItems, ih]; rfl

theorem emits_map (L : List ((List Item × V) × (List Item × V))) (h1 : ∀ x ∈ L, Emits x.1.1 x.1.2)
    (h2 : ∀ x ∈ L, Emits x.2.1 x.2.2) :
    Emits (mapItems (L.map (·.1.1)) (L.map (·.2.1))) (.map (Option.some L.length) (L.map fun x => (x.1.2, x.2.2))) := by
  have := Emits.map (Option.some L.length) (L.map fun x => (([.val x.1.1], x.1.2), ([.val x.2.1], x.2.2)))
    (fun y hy => by obtain ⟨x, hx, rfl⟩ := List.mem_map.mp hy; exact (h1 x hx).val)
    (fun y hy => by obtain ⟨x, hx, rfl⟩ := List.mem_map.mp hy; exact (h2 x hx).val)
  simpa [mapItems, entries_eq, List.flatMap_map, Function.comp_def] using this

theorem emits_display (fs : List Text) : Emits (displayItems fs) (.text Option.none (fs.map .computed)) := by
  have := Emits.text Option.none (fs.map Frag.computed)
  simpa [displayItems, Function.comp_def, textFragTok] using this

theorem emits_bytes (b : Bytes) : Emits (bytesItems b) (.binary (Option.some b.length) [.borrowed b]) :=
  Emits.binary (Option.some b.length) [.borrowed b]

/-- What `stream` does is to stream the value. -/
theorem emits (x : RV) (hx : ok x) : Emits (items x) (tree x) := by
  induction x using RV.ind with | h x ih => ?_
  cases x with
  | unit => exact Emits.tag _
  | null => exact Emits.null
  | bool b => exact Emits.bool b
  | int t v => exact Emits.int t v
  | f32 b => exact Emits.f32 b
  | f64 b => exact Emits.f64 b
  | char c => exact Emits.text _ [.computed [c]]
  | str s => exact Emits.text _ [.borrowed s]
  | display fs => exact emits_display fs
  | bytes b => exact emits_bytes b
  | byteArray b => exact Emits.tagged _ (emits_bytes b)
  | number fs =>
    refine Emits.tagged _ (q := [.comp (displayItems fs)]) ((emits_display fs).comp ?_)
    simp [toks, Function.comp_def, textFragTok, computedTok]
  | none => exact Emits.tag _
  | some v => exact Emits.tagged _ (q := [.val _]) (ih v (.head _) hx).val
  | slice xs =>
    rw [ok, oks_iff] at hx
    have := emits_slice (xs.map fun x => (items x, tree x))
      (fun y hy => by obtain ⟨x, h, rfl⟩ := List.mem_map.mp hy; exact ih x h (hx x h))
    simpa [items, tree, itemsAll_eq, trees_eq, Function.comp_def] using this
  | array xs =>
    rw [ok, oks_iff] at hx
    have := emits_slice (xs.map fun x => (items x, tree x))
      (fun y hy => by obtain ⟨x, h, rfl⟩ := List.mem_map.mp hy; exact ih x h (hx x h))
    have := Emits.tagged constantSize this.val
    simpa [items, tree, itemsAll_eq, trees_eq, Function.comp_def, arrayItems, constantSize] using this
  | tuple xs =>
    rw [ok, oks_iff] at hx
    have := emits_tuple (xs.map fun x => (items x, tree x))
      (fun y hy => by obtain ⟨x, h, rfl⟩ := List.mem_map.mp hy; exact ih x h (hx x h))
    simpa [items, tree, itemsAll_eq, trees_eq, Function.comp_def, offset] using this
  | map ks vs =>
    rw [ok, oks_iff, oks_iff] at hx
    obtain ⟨hl, hk, hv⟩ := hx
    have := emits_map ((ks.zip vs).map fun x => ((items x.1, tree x.1), (items x.2, tree x.2)))
      (fun y hy => by
        obtain ⟨x, h, rfl⟩ := List.mem_map.mp hy
        exact ih x.1 (List.mem_append_left _ (List.of_mem_zip h).1) (hk _ (List.of_mem_zip h).1))
      (fun y hy => by
        obtain ⟨x, h, rfl⟩ := List.mem_map.mp hy
        exact ih x.2 (List.mem_append_right _ (List.of_mem_zip h).2) (hv _ (List.of_mem_zip h).2))
    have e1 : (ks.zip vs).map (fun x => items x.1) = ks.map items := by
      have := List.map_fst_zip (l₁ := ks) (l₂ := vs) (by omega)
      exact (List.map_map (f := Prod.fst) (g := items)).symm.trans (by rw [this])
    have e2 : (ks.zip vs).map (fun x => items x.2) = vs.map items := by
      have := List.map_snd_zip (l₁ := ks) (l₂ := vs) (by omega)
      exact (List.map_map (f := Prod.snd) (g := items)).symm.trans (by rw [this])
    simp only [List.map_map, Function.comp_def, e1, e2, List.length_map, List.length_zip, ← hl, Nat.min_self] at this
    rw [items, tree, itemsAll_eq, itemsAll_eq, trees_eq, trees_eq, List.zip_map]
    exact this
  | boxed v => exact ih v (.head _) hx
  | unitStruct ident at' =>
    rw [items, tree, Derive.unitItems, Derive.structMeta, attrIndex_eq]
    exact Emits.tag _
  | newtype ident at' transparent v =>
    rw [items, tree, Derive.newtypeItems, Derive.structMeta, attrIndex_eq]
    have := (ih v (.head _) hx).val
    cases transparent with
    | true => exact this
    | false => exact Emits.tagged _ this
  | struct named ident at' fs vs =>
    rw [ok, oks_iff] at hx
    rw [items, tree, Derive.structMeta, attrIndex_eq]
    have := Derive.emits_struct named at'
      { tag := at'.tag, label := Option.some (Derive.labelOr at'.label ident), index := at'.index.map attrIndex } fs
      (vs.map fun x => (items x, tree x)) (by simpa using hx.1)
      (fun y hy => by obtain ⟨x, h, rfl⟩ := List.mem_map.mp hy; exact ih x h (hx.2 x h))
    simpa [itemsAll_eq, trees_eq, Function.comp_def] using this
  | enum d i vs =>
    rw [ok, oks_iff] at hx
    obtain ⟨⟨v, hv, hok⟩, hx⟩ := hx
    have hlt : i < (Derive.variantSlots d {} d.variants).length := by
      rw [variantSlots_length]
      exact (List.getElem?_eq_some_iff.mp hv).1
    have hs : (variantIndexes d d.variants)[i]? =
        Option.some (((Derive.variantSlots d {} d.variants)[i]).map Slot.index) := by
      have := slots_eq d d.variants {}
      rw [variantIndexes, ← this]
      simp [hlt]
    rw [items, tree, Derive.enumItems, hv, List.getElem?_eq_getElem hlt, hs]
    have := emits_arm d v (Derive.variantSlots d {} d.variants)[i] (vs.map fun x => (items x, tree x)) (by simpa using hok)
      (fun y hy => by obtain ⟨x, h, rfl⟩ := List.mem_map.mp hy; exact ih x h (hx x h))
    simp only [List.map_map, Function.comp_def] at this
    simp only [itemsAll_eq, trees_eq, Derive.enumMeta, attrIndex_eq, Option.getD_some]
    cases d.dyn with
    | true => simpa using this
    | false => simpa using Emits.enum _ this

/-! ## References -/

theorem refElems_eq (qs : List (List Item)) :
    refElems qs = qs.flatMap fun q => .tok .seqValueBegin :: (q ++ [.tok .seqValueEnd]) := by
  induction qs with
  | nil => rfl
  | cons q qs ih => rw [refElems, ih]; simp

theorem refTup_eq (qs : List (List Item)) (i : Nat) :
    refTup i qs = (qs.zipIdx i).flatMap fun x =>
      .tok (.tupleValueBegin Option.none (offset x.2)) :: (x.1 ++ [.tok (.tupleValueEnd Option.none (offset x.2))]) := by
  induction qs generalizing i with
  | nil => rfl
  | cons q qs ih =>
    rw [refTup, ih, List.zipIdx_cons, List.flatMap_cons]
    simp

def RR.parts : RR → List RR
  | .boxed r => [r]
  | .slice rs | .array rs | .tuple rs => rs
  | _ => []

theorem RR.sizeOf_parts (v : RR) : ∀ w ∈ v.parts, sizeOf w < sizeOf v := by
  intro w hw
  cases v <;> simp only [RR.parts, List.mem_cons, List.not_mem_nil, or_false] at hw
  case boxed v => subst hw; simp
  case slice xs => have := List.sizeOf_lt_of_mem hw; simp; omega
  case array xs => have := List.sizeOf_lt_of_mem hw; simp; omega
  case tuple xs => have := List.sizeOf_lt_of_mem hw; simp; omega

theorem RR.ind {P : RR → Prop} (h : ∀ v, (∀ w ∈ v.parts, P w) → P v) (v : RR) : P v := by
  suffices ∀ n v, sizeOf v ≤ n → P v from this _ v (Nat.le_refl _)
  intro n
  induction n with
  | zero => intro v hv; cases v <;> simp at hv
  | succ n ih =>
    intro v hv
    refine h v fun w hw => ih w ?_
    have := RR.sizeOf_parts v w hw
    omega

theorem refItemsAll_eq (rs : List RR) : refItemsAll rs = rs.map refItems := by
  induction rs with
  | nil => rfl
  | cons r rs ih => rw [refItemsAll, ih]; rfl

theorem values_eq (rs : List RR) : RR.values rs = rs.map RR.value := by
  induction rs with
  | nil => rfl
  | cons r rs ih => rw [RR.values, ih]; rfl

/-- What `stream_ref` does is to stream the value. -/
theorem ref_emits (r : RR) (hr : ok r.value) : Emits (refItems r) (tree r.value) := by
  induction r using RR.ind with | h r ih => ?_
  cases r with
  | ref v => exact emits v hr
  | boxed r => exact ih r (.head _) hr
  | slice rs =>
    rw [RR.value, ok, oks_iff, values_eq] at hr
    have := Emits.seq (Option.some rs.length) (rs.map fun r => (refItems r, tree r.value))
      (fun y hy => by obtain ⟨x, h, rfl⟩ := List.mem_map.mp hy; exact ih x h (hr _ (List.mem_map_of_mem h)))
    simpa [refItems, RR.value, tree, refElems_eq, refItemsAll_eq, trees_eq, values_eq, List.flatMap_map, Function.comp_def] using this
  | array rs =>
    rw [RR.value, ok, oks_iff, values_eq] at hr
    have := Emits.seq (Option.some rs.length) (rs.map fun r => (refItems r, tree r.value))
      (fun y hy => by obtain ⟨x, h, rfl⟩ := List.mem_map.mp hy; exact ih x h (hr _ (List.mem_map_of_mem h)))
    have := Emits.tagged constantSize this
    simpa [refItems, RR.value, tree, refElems_eq, refItemsAll_eq, trees_eq, values_eq, List.flatMap_map, Function.comp_def, constantSize] using this
  | tuple rs =>
    rw [RR.value, ok, oks_iff, values_eq] at hr
    have := Emits.tuple {} (Option.some rs.length) (rs.zipIdx.map fun x => (Option.none, offset x.2, refItems x.1, tree x.1.value))
      (fun y hy => by
        obtain ⟨x, h, rfl⟩ := List.mem_map.mp hy
        exact ih x.1 (List.fst_mem_of_mem_zipIdx h) (hr _ (List.mem_map_of_mem (List.fst_mem_of_mem_zipIdx h))))
    simpa [refItems, RR.value, tree, refTup_eq, refItemsAll_eq, trees_eq, values_eq, List.zipIdx_map, List.flatMap_map,
      Function.comp_def, offset] using this

/-! ## Sizes -/

theorem sizedSeq_iff (xs : List V) : sizedSeq xs ↔ ∀ x ∈ xs, sized x := by
  induction xs with
  | nil => simp [sizedSeq]
  | cons x xs ih => simp [sizedSeq, ih]
theorem sizedMap_iff (xs : List (V × V)) : sizedMap xs ↔ ∀ x ∈ xs, sized x.1 ∧ sized x.2 := by
  induction xs with
  | nil => simp [sizedMap]
  | cons x xs ih => simp [sizedMap, ih, and_assoc]
theorem sizedRec_iff (xs : List (Option Tag × Label × V)) : sizedRec xs ↔ ∀ x ∈ xs, sized x.2.2 := by
  induction xs with
  | nil => simp [sizedRec]
  | cons x xs ih => simp [sizedRec, ih]
theorem sizedTup_iff (xs : List (Option Tag × Index × V)) : sizedTup xs ↔ ∀ x ∈ xs, sized x.2.2 := by
  induction xs with
  | nil => simp [sizedTup]
  | cons x xs ih => simp [sizedTup, ih]
theorem sizedRT_iff (xs : List (Option Tag × Label × Index × V)) : sizedRT xs ↔ ∀ x ∈ xs, sized x.2.2.2 := by
  induction xs with
  | nil => simp [sizedRT]
  | cons x xs ih => simp [sizedRT, ih]

theorem sized_data (f : Field) (v : V) (h : sized v) : sized (Derive.data f v) := by
  unfold Derive.data
  cases f.dataTag <;> exact h

theorem sized_struct (named : Bool) (at' : Attrs) (m : Meta) (fs : List Field) (vs : List V) (h : ∀ v ∈ vs, sized v) :
    sized (Derive.structTree named at' m fs vs) := by
  have hr : ∀ r ∈ Derive.rows fs vs, sized r.2 := by
    intro r hr
    exact h _ (List.of_mem_zip (List.mem_filter.mp hr).1).2
  have hlen : (Derive.entries (Derive.rows fs vs)).length = (Derive.rows fs vs).length := by
    simp [Derive.entries, Derive.indexes_length]
  have he : ∀ r ∈ Derive.entries (Derive.rows fs vs), sized r.1.2 := fun r h => hr _ (List.of_mem_zip h).1
  dsimp only [Derive.structTree]
  cases Derive.labeled named at' (Derive.rows fs vs) <;> cases Derive.indexed at' (Derive.rows fs vs)
  · simp only [sized, sizedSeq_iff, List.length_map]
    refine ⟨fun k hk => by cases hk; rfl, fun x hx => ?_⟩
    obtain ⟨r, h, rfl⟩ := List.mem_map.mp hx
    exact sized_data _ _ (hr r h)
  · simp only [sized, sizedTup_iff, List.length_map, hlen]
    refine ⟨fun k hk => by cases hk; rfl, fun x hx => ?_⟩
    obtain ⟨r, h, rfl⟩ := List.mem_map.mp hx
    exact sized_data _ _ (he r h)
  · simp only [sized, sizedRec_iff, List.length_map]
    refine ⟨fun k hk => by cases hk; rfl, fun x hx => ?_⟩
    obtain ⟨r, h, rfl⟩ := List.mem_map.mp hx
    exact sized_data _ _ (hr r h)
  · simp only [sized, sizedRT_iff, List.length_map, hlen]
    refine ⟨fun k hk => by cases hk; rfl, fun x hx => ?_⟩
    obtain ⟨r, h, rfl⟩ := List.mem_map.mp hx
    exact sized_data _ _ (he r h)

theorem sized_tree (x : RV) (hx : ok x) : sized (tree x) := by
  induction x using RV.ind with | h x ih => ?_
  have all : ∀ xs : List RV, (∀ x ∈ xs, x ∈ xs → sized (tree x)) → ∀ v ∈ trees xs, sized v := by
    intro xs h v hv
    rw [trees_eq] at hv
    obtain ⟨x, hx, rfl⟩ := List.mem_map.mp hv
    exact h x hx hx
  cases x with
  | unit => trivial
  | null => trivial
  | bool b => trivial
  | int t v => trivial
  | f32 b => trivial
  | f64 b => trivial
  | char c => simp [tree, sized, Frag.content]
  | str s => simp [tree, sized, Frag.content]
  | display fs => simp [tree, sized]
  | bytes b => simp [tree, sized, Frag.content]
  | byteArray b => simp [tree, sized, Frag.content]
  | number fs => simp [tree, sized]
  | none => trivial
  | some v => exact ih v (.head _) hx
  | slice xs =>
    rw [ok, oks_iff] at hx
    simp only [tree, sized, sizedSeq_iff]
    exact ⟨fun k hk => by cases hk; simp [trees_eq], all xs fun x h _ => ih x h (hx x h)⟩
  | array xs =>
    rw [ok, oks_iff] at hx
    simp only [tree, sized, sizedSeq_iff]
    exact ⟨fun k hk => by cases hk; simp [trees_eq], all xs fun x h _ => ih x h (hx x h)⟩
  | tuple xs =>
    rw [ok, oks_iff] at hx
    simp only [tree, sized, sizedTup_iff]
    refine ⟨fun k hk => by cases hk; simp [trees_eq], fun y hy => ?_⟩
    obtain ⟨z, hz, rfl⟩ := List.mem_map.mp hy
    exact all xs (fun x h _ => ih x h (hx x h)) _ (List.fst_mem_of_mem_zipIdx hz)
  | map ks vs =>
    rw [ok, oks_iff, oks_iff] at hx
    simp only [tree, sized, sizedMap_iff]
    refine ⟨fun k hk => by cases hk; simp [trees_eq, hx.1], fun y hy => ?_⟩
    exact ⟨all ks (fun x h _ => ih x (List.mem_append_left _ h) (hx.2.1 x h)) _ (List.of_mem_zip hy).1,
      all vs (fun x h _ => ih x (List.mem_append_right _ h) (hx.2.2 x h)) _ (List.of_mem_zip hy).2⟩
  | boxed v => exact ih v (.head _) hx
  | unitStruct ident at' => trivial
  | newtype ident at' transparent v =>
    rw [tree]
    cases transparent <;> exact ih v (.head _) hx
  | struct named ident at' fs vs =>
    rw [ok, oks_iff] at hx
    exact sized_struct _ _ _ _ _ (all vs fun x h _ => ih x h (hx.2 x h))
  | enum d i vs =>
    rw [ok, oks_iff] at hx
    obtain ⟨⟨v, hv, hok⟩, hx⟩ := hx
    have hvs := all vs fun x h _ => ih x h (hx x h)
    have key : ∀ j, sized (Derive.variantTree d v j (trees vs)) := by
      intro j
      unfold Derive.variantTree
      cases v.shape with
      | unit => trivial
      | newtype =>
        cases hts : trees vs with
        | nil => trivial
        | cons y ys =>
          have := hvs y (by rw [hts]; exact .head _)
          cases d.dyn <;> exact this
      | named fs => exact sized_struct _ _ _ _ _ hvs
      | unnamed fs => exact sized_struct _ _ _ _ _ hvs
    simp only [tree, hv]
    cases d.dyn <;> exact key _

end Sval.Rust
