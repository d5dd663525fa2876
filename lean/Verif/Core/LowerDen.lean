import Verif.Core.LowerLemmas

set_option autoImplicit false

namespace Sval

/-! ## Only implemented methods are reached -/

local macro "nat1" : tactic => `(tactic| (rename_i h; simp [Caps.native, h]))

section Native
variable (c : Caps)

theorem native_textFragment (s : Text) : ∀ u ∈ Low.textFragment c s, c.native u = true := by
  unfold Low.textFragment; split <;> nat1
theorem native_labelValue (l : Label) : ∀ u ∈ Low.labelValue c l, c.native u = true := by
  have := native_textFragment c l.text
  unfold Low.labelValue; split
  · simp only [Low.textValue, List.mem_append, List.mem_singleton]
    rintro u ((rfl | h) | rfl)
    · rfl
    · exact this u h
    · rfl
  · simp [Low.textValueComputed, Caps.native]
theorem native_taggedBegin (m : Meta) : ∀ u ∈ Low.taggedBegin c m, c.native u = true := by
  unfold Low.taggedBegin; split <;> nat1
theorem native_taggedEnd (m : Meta) : ∀ u ∈ Low.taggedEnd c m, c.native u = true := by
  unfold Low.taggedEnd; split <;> nat1
theorem native_number (v : Int) : ∀ u ∈ Low.number c v, c.native u = true := by
  have h1 := native_taggedBegin c { tag := some tags.NUMBER }
  have h2 := native_taggedEnd c { tag := some tags.NUMBER }
  simp only [Low.number, List.mem_append, List.mem_singleton, List.mem_map]
  rintro u ((h | ((rfl | ⟨a, _, rfl⟩) | rfl)) | h)
  · exact h1 u h
  · rfl
  · rfl
  · rfl
  · exact h2 u h
theorem native_u128 (v : Int) : ∀ u ∈ Low.u128 c v, c.native u = true := by
  unfold Low.u128; split
  · nat1
  · split
    · simp [Caps.native]
    · exact native_number c v
theorem native_u64 (v : Int) : ∀ u ∈ Low.u64 c v, c.native u = true := by
  unfold Low.u64; split
  · nat1
  · exact native_u128 c v
theorem native_u32 (v : Int) : ∀ u ∈ Low.u32 c v, c.native u = true := by
  unfold Low.u32; split
  · nat1
  · exact native_u64 c v
theorem native_u16 (v : Int) : ∀ u ∈ Low.u16 c v, c.native u = true := by
  unfold Low.u16; split
  · nat1
  · exact native_u32 c v
theorem native_u8 (v : Int) : ∀ u ∈ Low.u8 c v, c.native u = true := by
  unfold Low.u8; split
  · nat1
  · exact native_u16 c v
theorem native_i32 (v : Int) : ∀ u ∈ Low.i32 c v, c.native u = true := by
  unfold Low.i32; split
  · nat1
  · simp [Low.i64, Caps.native]
theorem native_i16 (v : Int) : ∀ u ∈ Low.i16 c v, c.native u = true := by
  unfold Low.i16; split
  · nat1
  · exact native_i32 c v
theorem native_i8 (v : Int) : ∀ u ∈ Low.i8 c v, c.native u = true := by
  unfold Low.i8; split
  · nat1
  · exact native_i16 c v
theorem native_i128 (v : Int) : ∀ u ∈ Low.i128 c v, c.native u = true := by
  unfold Low.i128; split
  · nat1
  · split
    · simp [Caps.native]
    · exact native_number c v
theorem native_int (t : IntTy) (v : Int) : ∀ u ∈ Low.int c t v, c.native u = true := by
  cases t
  · exact native_u8 c v
  · exact native_u16 c v
  · exact native_u32 c v
  · exact native_u64 c v
  · exact native_u128 c v
  · exact native_i8 c v
  · exact native_i16 c v
  · exact native_i32 c v
  · simp [Low.int, Low.i64, Caps.native]
  · exact native_i128 c v

theorem native_tok (t : Token) : ∀ u ∈ Low.tok c t, c.native u = true := by
  have hN : ∀ m, ∀ u ∈ Low.taggedBegin c m, c.native u = true := native_taggedBegin c
  have hE : ∀ m, ∀ u ∈ Low.taggedEnd c m, c.native u = true := native_taggedEnd c
  have hL : ∀ l, ∀ u ∈ Low.labelValue c l, c.native u = true := native_labelValue c
  have tB : ∀ m n, ∀ u ∈ Low.tupleBegin c m n, c.native u = true := by
    intro m n; unfold Low.tupleBegin; split
    · nat1
    · intro u hu
      rcases List.mem_append.1 hu with h | h
      · exact hN m u h
      · rw [List.mem_singleton.1 h]; rfl
  have tVB : ∀ t i, ∀ u ∈ Low.tupleValueBegin c t i, c.native u = true := by
    intro m n; unfold Low.tupleValueBegin; split <;> nat1
  have tVE : ∀ t i, ∀ u ∈ Low.tupleValueEnd c t i, c.native u = true := by
    intro m n; unfold Low.tupleValueEnd; split <;> nat1
  have tE : ∀ m, ∀ u ∈ Low.tupleEnd c m, c.native u = true := by
    intro m; unfold Low.tupleEnd; split
    · nat1
    · intro u hu
      rcases List.mem_append.1 hu with h | h
      · rw [List.mem_singleton.1 h]; rfl
      · exact hE m u h
  have mB : ∀ n, ∀ u ∈ Low.mapBegin c n, c.native u = true := by
    intro n; unfold Low.mapBegin; split <;> nat1
  have mKB : ∀ u ∈ Low.mapKeyBegin c, c.native u = true := by
    unfold Low.mapKeyBegin; split
    · nat1
    · simp only [List.mem_append, List.mem_singleton]
      rintro u ((rfl | h) | h)
      · rfl
      · exact tB _ _ u h
      · exact tVB _ _ u h
  have mKE : ∀ u ∈ Low.mapKeyEnd c, c.native u = true := by
    unfold Low.mapKeyEnd; split
    · nat1
    · exact tVE _ _
  have mVB : ∀ u ∈ Low.mapValueBegin c, c.native u = true := by
    unfold Low.mapValueBegin; split
    · nat1
    · exact tVB _ _
  have mVE : ∀ u ∈ Low.mapValueEnd c, c.native u = true := by
    unfold Low.mapValueEnd; split
    · nat1
    · simp only [List.mem_append, List.mem_singleton]
      rintro u ((h | h) | rfl)
      · exact tVE _ _ u h
      · exact tE _ u h
      · rfl
  have mE : ∀ u ∈ Low.mapEnd c, c.native u = true := by
    unfold Low.mapEnd; split <;> nat1
  have rB : ∀ m n, ∀ u ∈ Low.recordBegin c m n, c.native u = true := by
    intro m n; unfold Low.recordBegin; split
    · nat1
    · intro u hu
      rcases List.mem_append.1 hu with h | h
      · exact hN m u h
      · exact mB n u h
  have rVB : ∀ t l, ∀ u ∈ Low.recordValueBegin c t l, c.native u = true := by
    intro t l; unfold Low.recordValueBegin; split
    · nat1
    · simp only [List.mem_append]
      rintro u (((h | h) | h) | h)
      · exact mKB u h
      · exact hL l u h
      · exact mKE u h
      · exact mVB u h
  have rVE : ∀ t l, ∀ u ∈ Low.recordValueEnd c t l, c.native u = true := by
    intro t l; unfold Low.recordValueEnd; split
    · nat1
    · exact mVE
  have rE : ∀ m, ∀ u ∈ Low.recordEnd c m, c.native u = true := by
    intro m; unfold Low.recordEnd; split
    · nat1
    · intro u hu
      rcases List.mem_append.1 hu with h | h
      · exact mE u h
      · exact hE m u h
  have bFC : ∀ s, ∀ u ∈ Low.binaryFragmentComputed c s, c.native u = true := by
    intro s; unfold Low.binaryFragmentComputed; split
    · nat1
    · simp only [List.mem_flatMap, List.mem_append, List.mem_singleton]
      rintro u ⟨b, _, (rfl | h) | rfl⟩
      · rfl
      · exact native_u8 c _ u h
      · rfl
  cases t with
  | int t v => exact native_int c t v
  | f32 b => simp only [Low.tok, Low.f32]; split <;> nat1
  | textFragment s => exact native_textFragment c s
  | binaryBegin n => simp only [Low.tok, Low.binaryBegin]; split <;> nat1
  | binaryFragment s =>
    simp only [Low.tok, Low.binaryFragment]; split
    · nat1
    · exact bFC s
  | binaryFragmentComputed s => exact bFC s
  | binaryEnd => simp only [Low.tok, Low.binaryEnd]; split <;> nat1
  | mapBegin n => exact mB n
  | mapKeyBegin => exact mKB
  | mapKeyEnd => exact mKE
  | mapValueBegin => exact mVB
  | mapValueEnd => exact mVE
  | mapEnd => exact mE
  | enumBegin m =>
    simp only [Low.tok, Low.enumBegin]; split
    · nat1
    · exact hN m
  | enumEnd m =>
    simp only [Low.tok, Low.enumEnd]; split
    · nat1
    · exact hE m
  | taggedBegin m => exact hN m
  | taggedEnd m => exact hE m
  | tag m =>
    simp only [Low.tok, Low.tag]; split
    · nat1
    · simp only [List.mem_append]
      rintro u ((h | h) | h)
      · exact hN m u h
      · split at h
        · rw [List.mem_singleton.1 h]; rfl
        · split at h
          · exact hL _ u h
          · rw [List.mem_singleton.1 h]; rfl
      · exact hE m u h
  | tagHint t => simp only [Low.tok, Low.tagHint]; split <;> nat1
  | recordBegin m n => exact rB m n
  | recordValueBegin t l => exact rVB t l
  | recordValueEnd t l => exact rVE t l
  | recordEnd m => exact rE m
  | tupleBegin m n => exact tB m n
  | tupleValueBegin t l => exact tVB t l
  | tupleValueEnd t l => exact tVE t l
  | tupleEnd m => exact tE m
  | recordTupleBegin m n =>
    simp only [Low.tok, Low.recordTupleBegin]; split
    · nat1
    · exact rB m n
  | recordTupleValueBegin t l i =>
    simp only [Low.tok, Low.recordTupleValueBegin]; split
    · nat1
    · exact rVB t l
  | recordTupleValueEnd t l i =>
    simp only [Low.tok, Low.recordTupleValueEnd]; split
    · nat1
    · exact rVE t l
  | recordTupleEnd m =>
    simp only [Low.tok, Low.recordTupleEnd]; split
    · nat1
    · exact rE m
  | _ => simp [Low.tok, Caps.native]

theorem native_lower (ts : List Token) : ∀ u ∈ lower c ts, c.native u = true := by
  simp only [lower, List.mem_flatMap]
  rintro u ⟨t, _, h⟩
  exact native_tok c t u h

end Native

/-! ## The data is preserved -/

namespace LowV
variable (c : Caps)

theorem den_mkTagged (m : Meta) (v : V) : den (mkTagged c m v) = den v := by
  unfold mkTagged; split <;> simp [den]
theorem den_mkEnum (m : Meta) (v : V) : den (mkEnum c m v) = den v := by
  unfold mkEnum; split <;> simp [den, den_mkTagged]

theorem denSeq_map {α : Type} (f : α → V) (l : List α) :
    denSeq (l.map f) = l.map fun a => den (f a) := by
  induction l with
  | nil => simp [denSeq]
  | cons a l ih => simp [denSeq, ih]
theorem denTup_eq (fs : List (Option Tag × Index × V)) : denTup fs = fs.map fun f => den f.2.2 := by
  induction fs with
  | nil => simp [denTup]
  | cons f fs ih => obtain ⟨t, i, v⟩ := f; simp [denTup, ih]
theorem denMap_eq (fs : List (V × V)) : denMap fs = fs.map fun f => .seq [den f.1, den f.2] := by
  induction fs with
  | nil => simp [denMap]
  | cons f fs ih => obtain ⟨k, v⟩ := f; simp [denMap, ih]
theorem denRec_eq (fs : List (Option Tag × Label × V)) :
    denRec fs = fs.map fun f => .seq [.text f.2.1.text, den f.2.2] := by
  induction fs with
  | nil => simp [denRec]
  | cons f fs ih => obtain ⟨t, l, v⟩ := f; simp [denRec, ih]
theorem denRT_eq (fs : List (Option Tag × Label × Index × V)) :
    denRT fs = fs.map fun f => .seq [.text f.2.1.text, den f.2.2.2] := by
  induction fs with
  | nil => simp [denRT]
  | cons f fs ih => obtain ⟨t, l, i, v⟩ := f; simp [denRT, ih]

theorem den_mkTuple (m : Meta) (n : Option Nat) (fs : List (Option Tag × Index × V)) :
    den (mkTuple c m n fs) = .seq (denTup fs) := by
  unfold mkTuple; split
  · simp [den]
  · simp [den_mkTagged, den, denSeq_map, denTup_eq]
theorem den_mkPair (k v : V) : den (mkPair c k v) = .seq [den k, den v] := by
  simp [mkPair, den_mkTuple, denTup]
theorem den_mkMap (n : Option Nat) (kvs : List (V × V)) :
    den (mkMap c n kvs) = .seq (denMap kvs) := by
  unfold mkMap; split
  · simp [den]
  · simp [den, denSeq_map, denMap_eq, den_mkPair]
theorem content_mkFrag (f : Frag Text) : (mkFrag c f).content = f.content := by
  cases f <;> simp only [mkFrag] <;> try split
  all_goals rfl
theorem content_mkBinFrag (f : Frag Bytes) : (mkBinFrag c f).content = f.content := by
  cases f <;> simp only [mkBinFrag] <;> try split
  all_goals rfl
theorem den_mkLabel (l : Label) : den (mkLabel c l) = .text l.text := by
  have := content_mkFrag c (.borrowed l.text)
  unfold mkLabel; split <;> simp [den, fragsText, this]
  · rfl
  · rfl
theorem den_mkRecord (m : Meta) (n : Option Nat) (fs : List (Option Tag × Label × V)) :
    den (mkRecord c m n fs) = .seq (denRec fs) := by
  unfold mkRecord; split
  · simp [den]
  · simp [den_mkTagged, den_mkMap, denMap_eq, denRec_eq, den_mkLabel]
theorem den_mkRecordTuple (m : Meta) (n : Option Nat) (fs : List (Option Tag × Label × Index × V)) :
    den (mkRecordTuple c m n fs) = .seq (denRT fs) := by
  unfold mkRecordTuple; split
  · simp [den]
  · simp [den_mkRecord, denRec_eq, denRT_eq]
theorem intDecFrags_flatten (v : Int) : (intDecFrags v).flatten = intDec v := by
  unfold intDecFrags intDec; split <;> simp
theorem den_mkNumber (v : Int) : den (mkNumber c v) = .text (intDec v) := by
  rw [mkNumber, den_mkTagged]
  simp only [den, fragsText, List.map_map]
  congr 1
  have : (Frag.content ∘ Frag.computed : Text → Text) = id := rfl
  rw [this, List.map_id, intDecFrags_flatten]

/-- Data of an integer, whatever width it arrives at. -/
def intDen (v : Int) : D := if IntTy.i64.fits v then .num v else .text (intDec v)

theorem den_mkU128 (v : Int) : den (mkU128 c v) = intDen v := by
  unfold mkU128 intDen; split
  · simp [den]
  · split
    · next h => simp [den, h]
    · exact den_mkNumber c v
theorem den_mkU64 (v : Int) : den (mkU64 c v) = intDen v := by
  unfold mkU64; split
  · simp [den, intDen]
  · exact den_mkU128 c v
theorem den_mkU32 (v : Int) : den (mkU32 c v) = intDen v := by
  unfold mkU32; split
  · simp [den, intDen]
  · exact den_mkU64 c v
theorem den_mkU16 (v : Int) : den (mkU16 c v) = intDen v := by
  unfold mkU16; split
  · simp [den, intDen]
  · exact den_mkU32 c v
theorem den_mkU8 (v : Int) : den (mkU8 c v) = intDen v := by
  unfold mkU8; split
  · simp [den, intDen]
  · exact den_mkU16 c v
theorem den_mkI32 (v : Int) : den (mkI32 c v) = intDen v := by
  unfold mkI32; split <;> simp [den, intDen]
theorem den_mkI16 (v : Int) : den (mkI16 c v) = intDen v := by
  unfold mkI16; split
  · simp [den, intDen]
  · exact den_mkI32 c v
theorem den_mkI8 (v : Int) : den (mkI8 c v) = intDen v := by
  unfold mkI8; split
  · simp [den, intDen]
  · exact den_mkI16 c v
theorem den_mkI128 (v : Int) : den (mkI128 c v) = intDen v := by
  unfold mkI128; split
  · simp [den, intDen]
  · split
    · next h => simp [den, h, intDen]
    · next h => rw [den_mkNumber]; simp [intDen, h]
theorem den_mkInt (t : IntTy) (v : Int) : den (mkInt c t v) = intDen v := by
  cases t
  · exact den_mkU8 c v
  · exact den_mkU16 c v
  · exact den_mkU32 c v
  · exact den_mkU64 c v
  · exact den_mkU128 c v
  · exact den_mkI8 c v
  · exact den_mkI16 c v
  · exact den_mkI32 c v
  · simp [mkInt, den, intDen]
  · exact den_mkI128 c v

theorem intDen_byte (b : UInt8) : intDen (b.toNat : Int) = .num b.toNat := by
  have := b.toNat_lt
  unfold intDen
  rw [if_pos]
  rw [IntTy.fits_iff]
  simp only [IntTy.min, IntTy.max]
  omega

theorem den_mkBinary (n : Option Nat) (fs : List (Frag Bytes)) :
    den (mkBinary c n fs) = .seq ((fragsBytes fs).map fun b => .num b.toNat) := by
  unfold mkBinary; split
  · have : (Frag.content ∘ mkBinFrag c) = Frag.content := funext (content_mkBinFrag c)
    simp only [den, fragsBytes, List.map_map, this]
  · simp only [den, denSeq_map, den_mkU8, intDen_byte]
theorem den_mkTag (m : Meta) : den (mkTag c m) = den (.tag m) := by
  unfold mkTag; split
  · rfl
  · rw [den_mkTagged]
    simp only [den]
    split
    · simp [den]
    · cases m.label with
      | some l => exact den_mkLabel c l
      | none => simp [den]

end LowV

open LowV in
theorem den_lowV (c : Caps) (v : V) : den (lowV c v) = den v := by
  induction v using V.ind with
  | null => rfl
  | bool b => rfl
  | int t v => simp [lowV, den, den_mkInt, intDen]
  | f32 b => simp only [lowV]; split <;> simp [den]
  | f64 b => rfl
  | text n fs =>
    have : (Frag.content ∘ mkFrag c) = Frag.content := funext (content_mkFrag c)
    simp only [lowV, den, fragsText, List.map_map, this]
  | binary n fs => simp [lowV, den, den_mkBinary]
  | seq n xs ih =>
    have key : ∀ ys : List V, (∀ y ∈ ys, den (lowV c y) = den y) → denSeq (lowVs c ys) = denSeq ys := by
      intro ys
      induction ys with
      | nil => intro _; simp [lowVs]
      | cons y ys ih2 =>
        intro h
        simp [denSeq, lowVs, h y (by simp), ih2 (fun z hz => h z (by simp [hz]))]
    simp [lowV, den, key xs ih]
  | map n kvs ih =>
    have key : ∀ ys : List (V × V), (∀ y ∈ ys, den (lowV c y.1) = den y.1 ∧ den (lowV c y.2) = den y.2) →
        denMap (lowKVs c ys) = denMap ys := by
      intro ys
      induction ys with
      | nil => intro _; simp [lowKVs]
      | cons y ys ih2 =>
        intro h
        obtain ⟨k, v⟩ := y
        have h1 := h (k, v) (by simp)
        simp [denMap, lowKVs, h1.1, h1.2, ih2 (fun z hz => h z (by simp [hz]))]
    simp [lowV, den, den_mkMap, key kvs ih]
  | tag m => exact den_mkTag c m
  | tagged m v ih => simp [lowV, den, den_mkTagged, ih]
  | enum m v ih => simp [lowV, den, den_mkEnum, ih]
  | record m n fs ih =>
    have key : ∀ ys : List (Option Tag × Label × V), (∀ y ∈ ys, den (lowV c y.2.2) = den y.2.2) →
        denRec (lowRec c ys) = denRec ys := by
      intro ys
      induction ys with
      | nil => intro _; simp [lowRec]
      | cons y ys ih2 =>
        intro h
        obtain ⟨t, l, v⟩ := y
        have h1 := h (t, l, v) (by simp)
        simp [denRec, lowRec, h1, ih2 (fun z hz => h z (by simp [hz]))]
    simp [lowV, den, den_mkRecord, key fs ih]
  | tuple m n fs ih =>
    have key : ∀ ys : List (Option Tag × Index × V), (∀ y ∈ ys, den (lowV c y.2.2) = den y.2.2) →
        denTup (lowTup c ys) = denTup ys := by
      intro ys
      induction ys with
      | nil => intro _; simp [lowTup]
      | cons y ys ih2 =>
        intro h
        obtain ⟨t, l, v⟩ := y
        have h1 := h (t, l, v) (by simp)
        simp [denTup, lowTup, h1, ih2 (fun z hz => h z (by simp [hz]))]
    simp [lowV, den, den_mkTuple, key fs ih]
  | recordTuple m n fs ih =>
    have key : ∀ ys : List (Option Tag × Label × Index × V), (∀ y ∈ ys, den (lowV c y.2.2.2) = den y.2.2.2) →
        denRT (lowRT c ys) = denRT ys := by
      intro ys
      induction ys with
      | nil => intro _; simp [lowRT]
      | cons y ys ih2 =>
        intro h
        obtain ⟨t, l, i, v⟩ := y
        have h1 := h (t, l, i, v) (by simp)
        simp [denRT, lowRT, h1, ih2 (fun z hz => h z (by simp [hz]))]
    simp [lowV, den, den_mkRecordTuple, key fs ih]
  | hint t v ih => simp only [lowV, mkHint]; split <;> simp [den, ih]

end Sval
