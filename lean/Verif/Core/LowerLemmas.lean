import Verif.Core.Lower

set_option autoImplicit false

/-!
# Lemmas about lowering

`lowV caps` lowers whole trees; the calls of the lowered tree are the lowered calls.
-/

namespace Sval

@[simp] theorem lower_nil (c : Caps) : lower c [] = [] := rfl
@[simp] theorem lower_cons (c : Caps) (t : Token) (ts : List Token) :
    lower c (t :: ts) = Low.tok c t ++ lower c ts := by simp [lower]
@[simp] theorem lower_append (c : Caps) (xs ys : List Token) :
    lower c (xs ++ ys) = lower c xs ++ lower c ys := by simp [lower]

namespace LowV
variable (c : Caps)

def mkTagged (m : Meta) (v : V) : V := if c.tagged then .tagged m v else v
def mkEnum (m : Meta) (v : V) : V := if c.enum then .enum m v else mkTagged c m v
def mkTuple (m : Meta) (n : Option Nat) (fs : List (Option Tag × Index × V)) : V :=
  if c.tuple then .tuple m n fs else mkTagged c m (.seq n (fs.map (·.2.2)))
def mkPair (k v : V) : V := mkTuple c {} (some 2) [(none, ⟨0, none⟩, k), (none, ⟨1, none⟩, v)]
def mkMap (n : Option Nat) (kvs : List (V × V)) : V :=
  if c.map then .map n kvs else .seq n (kvs.map fun kv => mkPair c kv.1 kv.2)
def mkFrag (f : Frag Text) : Frag Text :=
  match f with
  | .borrowed s => if c.textFragment then .borrowed s else .computed s
  | .computed s => .computed s
def mkBinFrag (f : Frag Bytes) : Frag Bytes :=
  match f with
  | .borrowed s => if c.binaryFragment then .borrowed s else .computed s
  | .computed s => .computed s
def mkLabel (l : Label) : V :=
  match l.backing with
  | .static => .text (some (utf8Len l.text)) [mkFrag c (.borrowed l.text)]
  | _ => .text (some (utf8Len l.text)) [.computed l.text]
def mkRecord (m : Meta) (n : Option Nat) (fs : List (Option Tag × Label × V)) : V :=
  if c.record then .record m n fs
  else mkTagged c m (mkMap c n (fs.map fun f => (mkLabel c f.2.1, f.2.2)))
def mkRecordTuple (m : Meta) (n : Option Nat) (fs : List (Option Tag × Label × Index × V)) : V :=
  if c.recordTuple then .recordTuple m n fs
  else mkRecord c m n (fs.map fun f => (f.1, f.2.1, f.2.2.2))
def mkNumber (v : Int) : V :=
  mkTagged c { tag := some tags.NUMBER } (.text none ((intDecFrags v).map .computed))
def mkU128 (v : Int) : V :=
  if c.u128 then .int .u128 v else if IntTy.i64.fits v then .int .i64 v else mkNumber c v
def mkU64 (v : Int) : V := if c.u64 then .int .u64 v else mkU128 c v
def mkU32 (v : Int) : V := if c.u32 then .int .u32 v else mkU64 c v
def mkU16 (v : Int) : V := if c.u16 then .int .u16 v else mkU32 c v
def mkU8 (v : Int) : V := if c.u8 then .int .u8 v else mkU16 c v
def mkI32 (v : Int) : V := if c.i32 then .int .i32 v else .int .i64 v
def mkI16 (v : Int) : V := if c.i16 then .int .i16 v else mkI32 c v
def mkI8 (v : Int) : V := if c.i8 then .int .i8 v else mkI16 c v
def mkI128 (v : Int) : V :=
  if c.i128 then .int .i128 v else if IntTy.i64.fits v then .int .i64 v else mkNumber c v
def mkInt : IntTy → Int → V
  | .u8 => mkU8 c | .u16 => mkU16 c | .u32 => mkU32 c | .u64 => mkU64 c | .u128 => mkU128 c
  | .i8 => mkI8 c | .i16 => mkI16 c | .i32 => mkI32 c | .i64 => V.int .i64 | .i128 => mkI128 c
def mkBinary (n : Option Nat) (fs : List (Frag Bytes)) : V :=
  if c.binary then .binary n (fs.map (mkBinFrag c))
  else .seq n ((fragsBytes fs).map fun b => mkU8 c b.toNat)
def mkTag (m : Meta) : V :=
  if c.tag then .tag m
  else mkTagged c m
    (if m.tag = some tags.RUST_OPTION_NONE then .null
     else match m.label with
      | some l => mkLabel c l
      | none => .null)
def mkHint (t : Tag) (v : V) : V := if c.tagHint then .hint t v else v

end LowV

open LowV in
mutual
def lowV (c : Caps) : V → V
  | .null => .null
  | .bool b => .bool b
  | .int t v => mkInt c t v
  | .f32 b => if c.f32 then .f32 b else .f64 (widen b)
  | .f64 b => .f64 b
  | .text n fs => .text n (fs.map (mkFrag c))
  | .binary n fs => mkBinary c n fs
  | .seq n xs => .seq n (lowVs c xs)
  | .map n kvs => mkMap c n (lowKVs c kvs)
  | .tag m => mkTag c m
  | .tagged m v => mkTagged c m (lowV c v)
  | .enum m v => mkEnum c m (lowV c v)
  | .record m n fs => mkRecord c m n (lowRec c fs)
  | .tuple m n fs => mkTuple c m n (lowTup c fs)
  | .recordTuple m n fs => mkRecordTuple c m n (lowRT c fs)
  | .hint t v => mkHint c t (lowV c v)
def lowVs (c : Caps) : List V → List V
  | [] => []
  | x :: xs => lowV c x :: lowVs c xs
def lowKVs (c : Caps) : List (V × V) → List (V × V)
  | [] => []
  | (k, v) :: r => (lowV c k, lowV c v) :: lowKVs c r
def lowRec (c : Caps) : List (Option Tag × Label × V) → List (Option Tag × Label × V)
  | [] => []
  | (t, l, v) :: r => (t, l, lowV c v) :: lowRec c r
def lowTup (c : Caps) : List (Option Tag × Index × V) → List (Option Tag × Index × V)
  | [] => []
  | (t, i, v) :: r => (t, i, lowV c v) :: lowTup c r
def lowRT (c : Caps) : List (Option Tag × Label × Index × V) → List (Option Tag × Label × Index × V)
  | [] => []
  | (t, l, i, v) :: r => (t, l, i, lowV c v) :: lowRT c r
end

/-! ### Calls of the constructors used by `lowV` -/

namespace LowV
variable (c : Caps)

theorem toks_mkTagged (m : Meta) (v : V) :
    toks (mkTagged c m v) = Low.taggedBegin c m ++ toks v ++ Low.taggedEnd c m := by
  unfold mkTagged Low.taggedBegin Low.taggedEnd
  split <;> simp [toks]

theorem toks_mkEnum (m : Meta) (v : V) :
    toks (mkEnum c m v) = Low.enumBegin c m ++ toks v ++ Low.enumEnd c m := by
  unfold mkEnum Low.enumBegin Low.enumEnd
  split <;> simp [toks, toks_mkTagged]

/-- Calls of tuple fields as a lowered stream sees them. -/
def tupToks (fs : List (Option Tag × Index × V)) : List Token :=
  fs.flatMap fun f => Low.tupleValueBegin c f.1 f.2.1 ++ toks f.2.2 ++ Low.tupleValueEnd c f.1 f.2.1

theorem toks_mkTuple (m : Meta) (n : Option Nat) (fs : List (Option Tag × Index × V)) :
    toks (mkTuple c m n fs) = Low.tupleBegin c m n ++ tupToks c fs ++ Low.tupleEnd c m := by
  unfold mkTuple Low.tupleBegin Low.tupleEnd tupToks Low.tupleValueBegin Low.tupleValueEnd
  split
  · simp only [toks, List.cons_append, List.nil_append]
    congr 2
    induction fs with
    | nil => simp [toksTup]
    | cons f fs ih => obtain ⟨t, i, v⟩ := f; simp [toksTup, ih]
  · rw [toks_mkTagged]
    simp only [toks, List.cons_append, List.nil_append, List.append_assoc]
    congr 2
    have : toksSeq (fs.map (·.2.2)) = fs.flatMap fun f => Token.seqValueBegin :: (toks f.2.2 ++ [.seqValueEnd]) := by
      induction fs with
      | nil => simp [toksSeq]
      | cons f fs ih => simp [toksSeq, ih]
    rw [this]

theorem toks_mkPair (k v : V) :
    [Token.seqValueBegin] ++ toks (mkPair c k v) ++ [Token.seqValueEnd] =
      ([.seqValueBegin] ++ Low.tupleBegin c {} (some 2) ++ Low.tupleValueBegin c none ⟨0, none⟩) ++
      toks k ++ Low.tupleValueEnd c none ⟨0, none⟩ ++ Low.tupleValueBegin c none ⟨1, none⟩ ++ toks v ++
      (Low.tupleValueEnd c none ⟨1, none⟩ ++ Low.tupleEnd c {} ++ [.seqValueEnd]) := by
  unfold mkPair
  rw [toks_mkTuple]
  simp [tupToks]

/-- Calls of map entries as a lowered stream sees them. -/
def mapToks (kvs : List (V × V)) : List Token :=
  kvs.flatMap fun kv => Low.mapKeyBegin c ++ toks kv.1 ++ Low.mapKeyEnd c ++
    Low.mapValueBegin c ++ toks kv.2 ++ Low.mapValueEnd c

theorem toks_mkMap (n : Option Nat) (kvs : List (V × V)) :
    toks (mkMap c n kvs) = Low.mapBegin c n ++ mapToks c kvs ++ Low.mapEnd c := by
  unfold mkMap Low.mapBegin Low.mapEnd mapToks Low.mapKeyBegin Low.mapKeyEnd Low.mapValueBegin
    Low.mapValueEnd
  split
  · simp only [toks, List.cons_append, List.nil_append]
    congr 2
    induction kvs with
    | nil => simp [toksMap]
    | cons f fs ih => obtain ⟨k, v⟩ := f; simp [toksMap, ih]
  · simp only [toks, List.cons_append, List.nil_append]
    congr 2
    induction kvs with
    | nil => simp [toksSeq]
    | cons f fs ih =>
      simp only [List.map_cons, toksSeq, List.flatMap_cons]
      rw [ih]
      rw [show ∀ r, Token.seqValueBegin :: (toks (mkPair c f.1 f.2) ++ Token.seqValueEnd :: r) =
        ([Token.seqValueBegin] ++ toks (mkPair c f.1 f.2) ++ [Token.seqValueEnd]) ++ r by simp]
      rw [toks_mkPair]
      simp

theorem toks_mkFrag (f : Frag Text) :
    [textFragTok (mkFrag c f)] = Low.tok c (textFragTok f) := by
  cases f with
  | borrowed s =>
    unfold mkFrag textFragTok Low.tok Low.textFragment
    by_cases h : c.textFragment <;> simp [h]
  | computed s => rfl

theorem toks_mkLabel (l : Label) : toks (mkLabel c l) = Low.labelValue c l := by
  have h := toks_mkFrag c (.borrowed l.text)
  cases hb : l.backing
  · simp only [mkLabel, Low.labelValue, hb, toks, List.map_cons, List.map_nil, Low.textValue]
    have h' : Low.textFragment c l.text = [textFragTok (mkFrag c (.borrowed l.text))] := by
      rw [h]; rfl
    rw [h']; simp
  · simp [mkLabel, Low.labelValue, hb, toks, Low.textValueComputed, textFragTok]
  · simp [mkLabel, Low.labelValue, hb, toks, Low.textValueComputed, textFragTok]

def recToks (fs : List (Option Tag × Label × V)) : List Token :=
  fs.flatMap fun f => Low.recordValueBegin c f.1 f.2.1 ++ toks f.2.2 ++ Low.recordValueEnd c f.1 f.2.1

theorem toks_mkRecord (m : Meta) (n : Option Nat) (fs : List (Option Tag × Label × V)) :
    toks (mkRecord c m n fs) = Low.recordBegin c m n ++ recToks c fs ++ Low.recordEnd c m := by
  unfold mkRecord Low.recordBegin Low.recordEnd recToks Low.recordValueBegin Low.recordValueEnd
  split
  · simp only [toks, List.cons_append, List.nil_append]
    congr 2
    induction fs with
    | nil => simp [toksRec]
    | cons f fs ih => obtain ⟨t, l, v⟩ := f; simp [toksRec, ih]
  · rw [toks_mkTagged, toks_mkMap]
    have : mapToks c (fs.map fun f => (mkLabel c f.2.1, f.2.2)) =
        fs.flatMap fun f => Low.mapKeyBegin c ++ Low.labelValue c f.2.1 ++ Low.mapKeyEnd c ++
          Low.mapValueBegin c ++ toks f.2.2 ++ Low.mapValueEnd c := by
      simp [mapToks, List.flatMap_map, toks_mkLabel]
    rw [this]
    simp

def rtToks (fs : List (Option Tag × Label × Index × V)) : List Token :=
  fs.flatMap fun f => Low.recordTupleValueBegin c f.1 f.2.1 f.2.2.1 ++ toks f.2.2.2 ++
    Low.recordTupleValueEnd c f.1 f.2.1 f.2.2.1

theorem toks_mkRecordTuple (m : Meta) (n : Option Nat) (fs : List (Option Tag × Label × Index × V)) :
    toks (mkRecordTuple c m n fs) =
      Low.recordTupleBegin c m n ++ rtToks c fs ++ Low.recordTupleEnd c m := by
  unfold mkRecordTuple Low.recordTupleBegin Low.recordTupleEnd rtToks Low.recordTupleValueBegin
    Low.recordTupleValueEnd
  split
  · simp only [toks, List.cons_append, List.nil_append]
    congr 2
    induction fs with
    | nil => simp [toksRT]
    | cons f fs ih => obtain ⟨t, l, i, v⟩ := f; simp [toksRT, ih]
  · rw [toks_mkRecord]
    simp [recToks, List.flatMap_map]

theorem toks_mkNumber (v : Int) : toks (mkNumber c v) = Low.number c v := by
  unfold mkNumber Low.number
  rw [toks_mkTagged]
  simp only [toks, List.map_map]
  rfl

theorem toks_mkU128 (v : Int) : toks (mkU128 c v) = Low.u128 c v := by
  unfold mkU128 Low.u128; split
  · rfl
  · split
    · rfl
    · exact toks_mkNumber c v
theorem toks_mkU64 (v : Int) : toks (mkU64 c v) = Low.u64 c v := by
  unfold mkU64 Low.u64; split
  · rfl
  · exact toks_mkU128 c v
theorem toks_mkU32 (v : Int) : toks (mkU32 c v) = Low.u32 c v := by
  unfold mkU32 Low.u32; split
  · rfl
  · exact toks_mkU64 c v
theorem toks_mkU16 (v : Int) : toks (mkU16 c v) = Low.u16 c v := by
  unfold mkU16 Low.u16; split
  · rfl
  · exact toks_mkU32 c v
theorem toks_mkU8 (v : Int) : toks (mkU8 c v) = Low.u8 c v := by
  unfold mkU8 Low.u8; split
  · rfl
  · exact toks_mkU16 c v
theorem toks_mkI32 (v : Int) : toks (mkI32 c v) = Low.i32 c v := by
  unfold mkI32 Low.i32; split <;> rfl
theorem toks_mkI16 (v : Int) : toks (mkI16 c v) = Low.i16 c v := by
  unfold mkI16 Low.i16; split
  · rfl
  · exact toks_mkI32 c v
theorem toks_mkI8 (v : Int) : toks (mkI8 c v) = Low.i8 c v := by
  unfold mkI8 Low.i8; split
  · rfl
  · exact toks_mkI16 c v
theorem toks_mkI128 (v : Int) : toks (mkI128 c v) = Low.i128 c v := by
  unfold mkI128 Low.i128; split
  · rfl
  · split
    · rfl
    · exact toks_mkNumber c v

theorem toks_mkInt (t : IntTy) (v : Int) : toks (mkInt c t v) = Low.int c t v := by
  cases t <;> simp only [mkInt, Low.int, toks_mkU8, toks_mkU16, toks_mkU32, toks_mkU64, toks_mkU128,
    toks_mkI8, toks_mkI16, toks_mkI32, toks_mkI128]
  rfl

theorem lower_frags (fs : List (Frag Text)) :
    lower c (fs.map textFragTok) = (fs.map (mkFrag c)).map textFragTok := by
  induction fs with
  | nil => rfl
  | cons f fs ih => simp [ih, ← toks_mkFrag]

theorem toks_mkBinary (n : Option Nat) (fs : List (Frag Bytes)) :
    toks (mkBinary c n fs) =
      Low.binaryBegin c n ++ lower c (fs.map binFragTok) ++ Low.binaryEnd c := by
  unfold mkBinary Low.binaryBegin Low.binaryEnd
  by_cases hb : c.binary = true
  · rw [if_pos hb, if_pos hb, if_pos hb]
    simp only [toks, List.cons_append, List.nil_append]
    congr 2
    induction fs with
    | nil => rfl
    | cons f fs ih =>
      simp only [List.map_cons, lower_cons, ih]
      cases f with
      | borrowed s =>
        by_cases h : c.binaryFragment <;>
          simp [mkBinFrag, binFragTok, Low.tok, Low.binaryFragment, Low.binaryFragmentComputed, hb, h]
      | computed s =>
        simp [mkBinFrag, binFragTok, Low.tok, Low.binaryFragmentComputed, hb]
  · rw [if_neg hb, if_neg hb, if_neg hb]
    simp only [toks, List.cons_append, List.nil_append]
    congr 2
    have key : ∀ s : Bytes, toksSeq (s.map fun b => mkU8 c b.toNat) =
        s.flatMap fun b => [.seqValueBegin] ++ Low.u8 c b.toNat ++ [.seqValueEnd] := by
      intro s
      induction s with
      | nil => simp [toksSeq]
      | cons b s ih => simp [toksSeq, ih, toks_mkU8]
    rw [key]
    unfold fragsBytes
    induction fs with
    | nil => rfl
    | cons f fs ih =>
      simp only [List.map_cons, List.flatten_cons, List.flatMap_append, lower_cons, ih]
      congr 1
      cases f <;>
        simp [Frag.content, binFragTok, Low.tok, Low.binaryFragment, Low.binaryFragmentComputed, hb]

theorem toks_mkTag (m : Meta) : toks (mkTag c m) = Low.tag c m := by
  unfold mkTag Low.tag
  split
  · rfl
  · rw [toks_mkTagged]
    congr 2
    split
    · rfl
    · cases m.label with
      | some l => exact toks_mkLabel c _
      | none => rfl

end LowV

open LowV in
/-- Lowering the calls of a tree gives the calls of the lowered tree. -/
theorem lower_toks (c : Caps) (v : V) : lower c (toks v) = toks (lowV c v) := by
  induction v using V.ind with
  | null => rfl
  | bool b => rfl
  | int t v => simp [toks, lowV, toks_mkInt, Low.tok]
  | f32 b =>
    simp only [toks, lowV, lower_cons, lower_nil, List.append_nil, Low.tok, Low.f32]
    split <;> rfl
  | f64 b => rfl
  | text n fs =>
    simp only [toks, lowV, lower_cons, lower_append, lower_frags, lower_nil, Low.tok]
    simp
  | binary n fs =>
    simp only [toks, lowV, lower_cons, lower_append, lower_nil, toks_mkBinary, Low.tok]
    simp
  | seq n xs ih =>
    have key : ∀ ys : List V, (∀ y ∈ ys, lower c (toks y) = toks (lowV c y)) →
        lower c (toksSeq ys) = toksSeq (lowVs c ys) := by
      intro ys
      induction ys with
      | nil => intro _; simp [toksSeq, lowVs]
      | cons y ys ih2 =>
        intro h
        simp [toksSeq, lowVs, h y (by simp), ih2 (fun z hz => h z (by simp [hz])), Low.tok]
    simp [toks, lowV, key xs ih, Low.tok]
  | map n kvs ih =>
    have key : ∀ ys : List (V × V), (∀ y ∈ ys, lower c (toks y.1) = toks (lowV c y.1) ∧
        lower c (toks y.2) = toks (lowV c y.2)) →
        lower c (toksMap ys) = mapToks c (lowKVs c ys) := by
      intro ys
      induction ys with
      | nil => intro _; simp [toksMap, lowKVs, mapToks]
      | cons y ys ih2 =>
        intro h
        obtain ⟨k, v⟩ := y
        have h1 := h (k, v) (by simp)
        have h2 := ih2 (fun z hz => h z (by simp [hz]))
        simp only [mapToks] at h2
        simp [toksMap, lowKVs, mapToks, h1.1, h1.2, h2, Low.tok]
    simp [toks, lowV, toks_mkMap, key kvs ih, Low.tok]
  | tag m => simp [toks, lowV, toks_mkTag, Low.tok]
  | tagged m v ih => simp [toks, lowV, toks_mkTagged, ih, Low.tok]
  | enum m v ih => simp [toks, lowV, toks_mkEnum, ih, Low.tok]
  | record m n fs ih =>
    have key : ∀ ys : List (Option Tag × Label × V), (∀ y ∈ ys, lower c (toks y.2.2) = toks (lowV c y.2.2)) →
        lower c (toksRec ys) = recToks c (lowRec c ys) := by
      intro ys
      induction ys with
      | nil => intro _; simp [toksRec, lowRec, recToks]
      | cons y ys ih2 =>
        intro h
        obtain ⟨t, l, v⟩ := y
        have h1 := h (t, l, v) (by simp)
        have h2 := ih2 (fun z hz => h z (by simp [hz]))
        simp only [recToks] at h2
        simp [toksRec, lowRec, recToks, h1, h2, Low.tok]
    simp [toks, lowV, toks_mkRecord, key fs ih, Low.tok]
  | tuple m n fs ih =>
    have key : ∀ ys : List (Option Tag × Index × V), (∀ y ∈ ys, lower c (toks y.2.2) = toks (lowV c y.2.2)) →
        lower c (toksTup ys) = tupToks c (lowTup c ys) := by
      intro ys
      induction ys with
      | nil => intro _; simp [toksTup, lowTup, tupToks]
      | cons y ys ih2 =>
        intro h
        obtain ⟨t, l, v⟩ := y
        have h1 := h (t, l, v) (by simp)
        have h2 := ih2 (fun z hz => h z (by simp [hz]))
        simp only [tupToks] at h2
        simp [toksTup, lowTup, tupToks, h1, h2, Low.tok]
    simp [toks, lowV, toks_mkTuple, key fs ih, Low.tok]
  | recordTuple m n fs ih =>
    have key : ∀ ys : List (Option Tag × Label × Index × V), (∀ y ∈ ys, lower c (toks y.2.2.2) = toks (lowV c y.2.2.2)) →
        lower c (toksRT ys) = rtToks c (lowRT c ys) := by
      intro ys
      induction ys with
      | nil => intro _; simp [toksRT, lowRT, rtToks]
      | cons y ys ih2 =>
        intro h
        obtain ⟨t, l, i, v⟩ := y
        have h1 := h (t, l, i, v) (by simp)
        have h2 := ih2 (fun z hz => h z (by simp [hz]))
        simp only [rtToks] at h2
        simp [toksRT, lowRT, rtToks, h1, h2, Low.tok]
    simp [toks, lowV, toks_mkRecordTuple, key fs ih, Low.tok]
  | hint t v ih =>
    simp only [toks, lowV, mkHint, lower_cons, Low.tok, Low.tagHint, ih]
    split <;> simp [toks]

end Sval
