import Verif.Props.Stream

set_option autoImplicit false

/-!
# Properties of the default methods of streams: C99

`lower c` is what the methods that a stream has get, for calls of any of its methods.
-/

namespace Sval

/-- C99. A method that the stream has is called as it is, also with the default methods around. -/
theorem C99_native (c : Caps) (t : Token) (h : c.native t = true) : lower c [t] = [t] := by
  simp only [lower, List.flatMap_cons, List.flatMap_nil, List.append_nil]
  cases t with
  | int t v => cases t <;> simp_all [Caps.native, Low.tok, Low.int, Low.u8, Low.u16, Low.u32, Low.u64, Low.u128, Low.i8, Low.i16, Low.i32, Low.i64, Low.i128]
  | _ => simp_all [Caps.native, Low.tok, Low.f32, Low.textFragment, Low.binaryBegin, Low.binaryFragment, Low.binaryFragmentComputed,
    Low.binaryEnd, Low.mapBegin, Low.mapKeyBegin, Low.mapKeyEnd, Low.mapValueBegin, Low.mapValueEnd, Low.mapEnd, Low.enumBegin,
    Low.enumEnd, Low.taggedBegin, Low.taggedEnd, Low.tag, Low.tagHint, Low.recordBegin, Low.recordValueBegin, Low.recordValueEnd,
    Low.recordEnd, Low.tupleBegin, Low.tupleValueBegin, Low.tupleValueEnd, Low.tupleEnd, Low.recordTupleBegin,
    Low.recordTupleValueBegin, Low.recordTupleValueEnd, Low.recordTupleEnd]

/-- A stream with records gets them as records. -/
example : lower { Caps.minimal with record := true } [.recordBegin {} (some 1)] = [.recordBegin {} (some 1)] :=
  C99_native _ _ rfl

/-! ## Streams with more and fewer methods -/

/-- A stream has every method that another one has. -/
def Caps.within (c c' : Caps) : Prop := ∀ t, c.native t = true → c'.native t = true

namespace Low
variable {c c' : Caps}

theorem up_taggedBegin (h : c.within c') (m : Meta) : lower c (taggedBegin c' m) = taggedBegin c m := by
  have := h (.taggedBegin m)
  simp only [Caps.native] at this
  cases h1 : c'.tagged <;> simp_all [taggedBegin, tok]

theorem up_taggedEnd (h : c.within c') (m : Meta) : lower c (taggedEnd c' m) = taggedEnd c m := by
  have := h (.taggedEnd m)
  simp only [Caps.native] at this
  cases h1 : c'.tagged <;> simp_all [taggedEnd, tok]

theorem lower_map_frags (c : Caps) (L : List Text) :
    lower c (L.map .textFragmentComputed) = L.map .textFragmentComputed := by
  induction L with
  | nil => rfl
  | cons x L ih => simp only [List.map_cons, lower_cons, tok, ih, List.singleton_append]

theorem up_number (h : c.within c') (v : Int) : lower c (number c' v) = number c v := by
  simp only [number, lower_append, up_taggedBegin h, up_taggedEnd h, lower_map_frags]
  simp [tok]

theorem up_u128 (h : c.within c') (v : Int) : lower c (u128 c' v) = u128 c v := by
  have := h (.int .u128 v)
  simp only [Caps.native] at this
  cases h1 : c'.u128 <;> by_cases hf : IntTy.i64.fits v = true <;> simp_all [u128, tok, int, i64, up_number h]

theorem up_i128 (h : c.within c') (v : Int) : lower c (i128 c' v) = i128 c v := by
  have := h (.int .i128 v)
  simp only [Caps.native] at this
  cases h1 : c'.i128 <;> by_cases hf : IntTy.i64.fits v = true <;> simp_all [i128, tok, int, i64, up_number h]

theorem up_u64 (h : c.within c') (v : Int) : lower c (u64 c' v) = u64 c v := by
  have := h (.int .u64 v)
  simp only [Caps.native] at this
  cases h1 : c'.u64 <;> simp_all [u64, tok, int, up_u128 h]

theorem up_u32 (h : c.within c') (v : Int) : lower c (u32 c' v) = u32 c v := by
  have := h (.int .u32 v)
  simp only [Caps.native] at this
  cases h1 : c'.u32 <;> simp_all [u32, tok, int, up_u64 h]

theorem up_u16 (h : c.within c') (v : Int) : lower c (u16 c' v) = u16 c v := by
  have := h (.int .u16 v)
  simp only [Caps.native] at this
  cases h1 : c'.u16 <;> simp_all [u16, tok, int, up_u32 h]

theorem up_u8 (h : c.within c') (v : Int) : lower c (u8 c' v) = u8 c v := by
  have := h (.int .u8 v)
  simp only [Caps.native] at this
  cases h1 : c'.u8 <;> simp_all [u8, tok, int, up_u16 h]

theorem up_i32 (h : c.within c') (v : Int) : lower c (i32 c' v) = i32 c v := by
  have := h (.int .i32 v)
  simp only [Caps.native] at this
  cases h1 : c'.i32 <;> simp_all [i32, tok, int, i64]

theorem up_i16 (h : c.within c') (v : Int) : lower c (i16 c' v) = i16 c v := by
  have := h (.int .i16 v)
  simp only [Caps.native] at this
  cases h1 : c'.i16 <;> simp_all [i16, tok, int, up_i32 h]

theorem up_i8 (h : c.within c') (v : Int) : lower c (i8 c' v) = i8 c v := by
  have := h (.int .i8 v)
  simp only [Caps.native] at this
  cases h1 : c'.i8 <;> simp_all [i8, tok, int, up_i16 h]

theorem up_textFragment (h : c.within c') (s : Text) : lower c (textFragment c' s) = textFragment c s := by
  have := h (.textFragment s)
  simp only [Caps.native] at this
  cases h1 : c'.textFragment <;> simp_all [textFragment, tok]

theorem up_labelValue (h : c.within c') (l : Label) : lower c (labelValue c' l) = labelValue c l := by
  unfold labelValue
  split
  · simp [textValue, tok, up_textFragment h]
  · simp [textValueComputed, tok]

theorem lower_flatMap {α : Type} (c : Caps) (L : List α) (f : α → List Token) : lower c (L.flatMap f) = L.flatMap fun x => lower c (f x) := by
  induction L with
  | nil => rfl
  | cons x L ih => simp [ih]

theorem up_binaryFragmentComputed (h : c.within c') (s : Bytes) :
    lower c (binaryFragmentComputed c' s) = binaryFragmentComputed c s := by
  have := h (.binaryFragmentComputed s)
  simp only [Caps.native] at this
  cases h1 : c'.binary <;> simp_all [binaryFragmentComputed, tok, up_u8 h, lower_flatMap]

theorem up_binaryFragment (h : c.within c') (s : Bytes) : lower c (binaryFragment c' s) = binaryFragment c s := by
  have h0 := h (.binaryFragmentComputed s)
  have := h (.binaryFragment s)
  simp only [Caps.native] at this h0
  unfold binaryFragment
  cases h1 : (c'.binary && c'.binaryFragment) with
  | true => simp [tok, binaryFragment]
  | false =>
    have : (c.binary && c.binaryFragment) = false := by
      cases h2 : (c.binary && c.binaryFragment) with
      | false => rfl
      | true => exact absurd (this h2) (by simp [h1])
    simp [this, up_binaryFragmentComputed h]

theorem up_tupleBegin (h : c.within c') (m : Meta) (n : Option Nat) : lower c (tupleBegin c' m n) = tupleBegin c m n := by
  have := h (.tupleBegin m n)
  simp only [Caps.native] at this
  cases h1 : c'.tuple <;> simp_all [tupleBegin, tok, up_taggedBegin h]

theorem up_tupleValueBegin (h : c.within c') (t : Option Tag) (i : Index) :
    lower c (tupleValueBegin c' t i) = tupleValueBegin c t i := by
  have := h (.tupleValueBegin t i)
  simp only [Caps.native] at this
  cases h1 : c'.tuple <;> simp_all [tupleValueBegin, tok]

theorem up_tupleValueEnd (h : c.within c') (t : Option Tag) (i : Index) :
    lower c (tupleValueEnd c' t i) = tupleValueEnd c t i := by
  have := h (.tupleValueEnd t i)
  simp only [Caps.native] at this
  cases h1 : c'.tuple <;> simp_all [tupleValueEnd, tok]

theorem up_tupleEnd (h : c.within c') (m : Meta) : lower c (tupleEnd c' m) = tupleEnd c m := by
  have := h (.tupleEnd m)
  simp only [Caps.native] at this
  cases h1 : c'.tuple <;> simp_all [tupleEnd, tok, up_taggedEnd h]

theorem up_mapBegin (h : c.within c') (n : Option Nat) : lower c (mapBegin c' n) = mapBegin c n := by
  have := h (.mapBegin n)
  simp only [Caps.native] at this
  cases h1 : c'.map <;> simp_all [mapBegin, tok]

theorem up_mapKeyBegin (h : c.within c') : lower c (mapKeyBegin c') = mapKeyBegin c := by
  have := h .mapKeyBegin
  simp only [Caps.native] at this
  cases h1 : c'.map <;> simp_all [mapKeyBegin, tok, up_tupleBegin h, up_tupleValueBegin h]

theorem up_mapKeyEnd (h : c.within c') : lower c (mapKeyEnd c') = mapKeyEnd c := by
  have := h .mapKeyEnd
  simp only [Caps.native] at this
  cases h1 : c'.map <;> simp_all [mapKeyEnd, tok, up_tupleValueEnd h]

theorem up_mapValueBegin (h : c.within c') : lower c (mapValueBegin c') = mapValueBegin c := by
  have := h .mapValueBegin
  simp only [Caps.native] at this
  cases h1 : c'.map <;> simp_all [mapValueBegin, tok, up_tupleValueBegin h]

theorem up_mapValueEnd (h : c.within c') : lower c (mapValueEnd c') = mapValueEnd c := by
  have := h .mapValueEnd
  simp only [Caps.native] at this
  cases h1 : c'.map <;> simp_all [mapValueEnd, tok, up_tupleEnd h, up_tupleValueEnd h]

theorem up_mapEnd (h : c.within c') : lower c (mapEnd c') = mapEnd c := by
  have := h .mapEnd
  simp only [Caps.native] at this
  cases h1 : c'.map <;> simp_all [mapEnd, tok]

theorem up_recordBegin (h : c.within c') (m : Meta) (n : Option Nat) : lower c (recordBegin c' m n) = recordBegin c m n := by
  have := h (.recordBegin m n)
  simp only [Caps.native] at this
  cases h1 : c'.record <;> simp_all [recordBegin, tok, up_taggedBegin h, up_mapBegin h]

theorem up_recordValueBegin (h : c.within c') (t : Option Tag) (l : Label) :
    lower c (recordValueBegin c' t l) = recordValueBegin c t l := by
  have := h (.recordValueBegin t l)
  simp only [Caps.native] at this
  cases h1 : c'.record <;>
    simp_all [recordValueBegin, tok, up_mapKeyBegin h, up_mapKeyEnd h, up_mapValueBegin h, up_labelValue h]

theorem up_recordValueEnd (h : c.within c') (t : Option Tag) (l : Label) :
    lower c (recordValueEnd c' t l) = recordValueEnd c t l := by
  have := h (.recordValueEnd t l)
  simp only [Caps.native] at this
  cases h1 : c'.record <;> simp_all [recordValueEnd, tok, up_mapValueEnd h]

theorem up_recordEnd (h : c.within c') (m : Meta) : lower c (recordEnd c' m) = recordEnd c m := by
  have := h (.recordEnd m)
  simp only [Caps.native] at this
  cases h1 : c'.record <;> simp_all [recordEnd, tok, up_taggedEnd h, up_mapEnd h]

theorem up_tag (h : c.within c') (m : Meta) : lower c (tag c' m) = tag c m := by
  have := h (.tag m)
  simp only [Caps.native] at this
  cases h1 : c'.tag with
  | true => simp [tag, h1, tok]
  | false =>
    have : c.tag = false := by cases h2 : c.tag <;> simp_all
    simp only [tag, h1, this, Bool.false_eq_true, if_false, lower_append, up_taggedBegin h, up_taggedEnd h]
    congr 2
    split
    · simp [tok]
    · cases m.label with
      | none => simp [tok]
      | some l => exact up_labelValue h l

theorem up_tok (h : c.within c') (t : Token) : lower c (tok c' t) = tok c t := by
  cases t with
  | int t v =>
    cases t <;> simp only [tok, int]
    all_goals first
      | exact up_u8 h v | exact up_u16 h v | exact up_u32 h v | exact up_u64 h v | exact up_u128 h v
      | exact up_i8 h v | exact up_i16 h v | exact up_i32 h v | exact up_i128 h v | simp [i64, tok, int]
  | f32 b =>
    have := h (.f32 b)
    simp only [Caps.native] at this
    cases h1 : c'.f32 <;> simp_all [tok, f32]
  | textFragment s => exact up_textFragment h s
  | binaryBegin n =>
    have := h (.binaryBegin n)
    simp only [Caps.native] at this
    cases h1 : c'.binary <;> simp_all [tok, binaryBegin]
  | binaryFragment s => exact up_binaryFragment h s
  | binaryFragmentComputed s => exact up_binaryFragmentComputed h s
  | binaryEnd =>
    have := h .binaryEnd
    simp only [Caps.native] at this
    cases h1 : c'.binary <;> simp_all [tok, binaryEnd]
  | mapBegin n => exact up_mapBegin h n
  | mapKeyBegin => exact up_mapKeyBegin h
  | mapKeyEnd => exact up_mapKeyEnd h
  | mapValueBegin => exact up_mapValueBegin h
  | mapValueEnd => exact up_mapValueEnd h
  | mapEnd => exact up_mapEnd h
  | enumBegin m =>
    have := h (.enumBegin m)
    simp only [Caps.native] at this
    cases h1 : c'.enum <;> simp_all [tok, enumBegin, up_taggedBegin h]
  | enumEnd m =>
    have := h (.enumEnd m)
    simp only [Caps.native] at this
    cases h1 : c'.enum <;> simp_all [tok, enumEnd, up_taggedEnd h]
  | taggedBegin m => exact up_taggedBegin h m
  | taggedEnd m => exact up_taggedEnd h m
  | tag m => exact up_tag h m
  | tagHint t =>
    have := h (.tagHint t)
    simp only [Caps.native] at this
    cases h1 : c'.tagHint <;> simp_all [tok, tagHint]
  | recordBegin m n => exact up_recordBegin h m n
  | recordValueBegin t l => exact up_recordValueBegin h t l
  | recordValueEnd t l => exact up_recordValueEnd h t l
  | recordEnd m => exact up_recordEnd h m
  | tupleBegin m n => exact up_tupleBegin h m n
  | tupleValueBegin t i => exact up_tupleValueBegin h t i
  | tupleValueEnd t i => exact up_tupleValueEnd h t i
  | tupleEnd m => exact up_tupleEnd h m
  | recordTupleBegin m n =>
    have := h (.recordTupleBegin m n)
    simp only [Caps.native] at this
    cases h1 : c'.recordTuple <;> simp_all [tok, recordTupleBegin, up_recordBegin h]
  | recordTupleValueBegin t l i =>
    have := h (.recordTupleValueBegin t l i)
    simp only [Caps.native] at this
    cases h1 : c'.recordTuple <;> simp_all [tok, recordTupleValueBegin, up_recordValueBegin h]
  | recordTupleValueEnd t l i =>
    have := h (.recordTupleValueEnd t l i)
    simp only [Caps.native] at this
    cases h1 : c'.recordTuple <;> simp_all [tok, recordTupleValueEnd, up_recordValueEnd h]
  | recordTupleEnd m =>
    have := h (.recordTupleEnd m)
    simp only [Caps.native] at this
    cases h1 : c'.recordTuple <;> simp_all [tok, recordTupleEnd, up_recordEnd h]
  | _ => simp [tok]

end Low

/-- C99. A stream in front of another that has more methods than it, and forwards each of them, makes no difference: it does
not matter in which of the two the default methods are used. -/
theorem C99_forward (c c' : Caps) (h : c.within c') (ts : List Token) : lower c (lower c' ts) = lower c ts := by
  induction ts with
  | nil => rfl
  | cons t ts ih => simp only [lower_cons, lower_append, Low.up_tok h, ih]

/-- A stream with maps and records in front of one with maps only. -/
example :
    lower { Caps.minimal with map := true }
        (lower { Caps.minimal with map := true, record := true, u8 := true }
          [.recordBegin {} (some 1), .recordValueBegin none { text := t! "a" }, .int .u8 1,
            .recordValueEnd none { text := t! "a" }, .recordEnd {}]) =
      [.mapBegin (some 1), .mapKeyBegin, .textBegin (some 1), .textFragmentComputed (t! "a"), .textEnd, .mapKeyEnd,
        .mapValueBegin, .int .i64 1, .mapValueEnd, .mapEnd] := by
  rw [C99_forward]
  · decide +kernel
  · intro t h
    cases t with
    | int t v => cases t <;> simp_all [Caps.native, Caps.minimal]
    | _ => simp_all [Caps.native, Caps.minimal]

/-! ## Integers -/

/-- The widths at which an integer of a width can be given, from the closest on. -/
def widths : IntTy → List IntTy
  | .i8 => [.i8, .i16, .i32, .i64]
  | .i16 => [.i16, .i32, .i64]
  | .i32 => [.i32, .i64]
  | .i64 => [.i64]
  | .i128 => [.i128]
  | .u8 => [.u8, .u16, .u32, .u64, .u128]
  | .u16 => [.u16, .u32, .u64, .u128]
  | .u32 => [.u32, .u64, .u128]
  | .u64 => [.u64, .u128]
  | .u128 => [.u128]

/-- C99. An integer arrives at the closest width that the stream has a method for. If there is none it arrives as an `i64` if it
is one, and as the text of the number, tagged as a number for streams with tags, otherwise. -/
theorem C99_integers (c : Caps) (t : IntTy) (n : Int) :
    lower c [.int t n] =
      match (widths t).find? fun u => c.native (.int u n) with
      | some u => [.int u n]
      | none =>
        if IntTy.i64.fits n then [.int .i64 n]
        else
          lower c (toks (.tagged { tag := some tags.NUMBER }
            (.text none (if n < 0 then [.computed (t! "-"), .computed (natDec n.natAbs)] else [.computed (natDec n.natAbs)])))) := by
  have hn : Low.number c n = lower c (toks (.tagged { tag := some tags.NUMBER }
      (.text none (if n < 0 then [.computed (t! "-"), .computed (natDec n.natAbs)] else [.computed (natDec n.natAbs)])))) := by
    simp only [Low.number, toks, intDecFrags]
    split <;> simp [Low.tok, textFragTok]
  simp only [lower, List.flatMap_cons, List.flatMap_nil, List.append_nil, Low.tok]
  simp only [lower] at hn
  rw [← hn]
  cases t
  case u8 => cases h1 : c.u8 <;> cases h2 : c.u16 <;> cases h3 : c.u32 <;> cases h4 : c.u64 <;> cases h5 : c.u128 <;>
    simp [widths, List.find?, Caps.native, Low.int, Low.u8, Low.u16, Low.u32, Low.u64, Low.u128, h1, h2, h3, h4, h5]
  case u16 => cases h2 : c.u16 <;> cases h3 : c.u32 <;> cases h4 : c.u64 <;> cases h5 : c.u128 <;>
    simp [widths, List.find?, Caps.native, Low.int, Low.u16, Low.u32, Low.u64, Low.u128, h2, h3, h4, h5]
  case u32 => cases h3 : c.u32 <;> cases h4 : c.u64 <;> cases h5 : c.u128 <;>
    simp [widths, List.find?, Caps.native, Low.int, Low.u32, Low.u64, Low.u128, h3, h4, h5]
  case u64 => cases h4 : c.u64 <;> cases h5 : c.u128 <;>
    simp [widths, List.find?, Caps.native, Low.int, Low.u64, Low.u128, h4, h5]
  case u128 => cases h5 : c.u128 <;> simp [widths, List.find?, Caps.native, Low.int, Low.u128, h5]
  case i8 => cases h1 : c.i8 <;> cases h2 : c.i16 <;> cases h3 : c.i32 <;>
    simp [widths, List.find?, Caps.native, Low.int, Low.i8, Low.i16, Low.i32, Low.i64, h1, h2, h3]
  case i16 => cases h2 : c.i16 <;> cases h3 : c.i32 <;>
    simp [widths, List.find?, Caps.native, Low.int, Low.i16, Low.i32, Low.i64, h2, h3]
  case i32 => cases h3 : c.i32 <;> simp [widths, List.find?, Caps.native, Low.int, Low.i32, Low.i64, h3]
  case i64 => simp [widths, Caps.native, Low.int, Low.i64]
  case i128 => cases h5 : c.i128 <;> simp [widths, List.find?, Caps.native, Low.int, Low.i128, h5]

/-- A `u16` skips the method for `u8`, and prefers `u64` over `u128`. -/
example : lower { Caps.minimal with u8 := true, u64 := true, u128 := true } [.int .u16 7] = [.int .u64 7] := by
  rw [C99_integers]; rfl

/-- A negative number that is not an `i64`. -/
example : lower { Caps.minimal with tagged := true } [.int .i128 (-9223372036854775809)] =
    [.taggedBegin { tag := some tags.NUMBER }, .textBegin none, .textFragmentComputed (t! "-"),
      .textFragmentComputed (t! "9223372036854775809"), .textEnd, .taggedEnd { tag := some tags.NUMBER }] := by
  rw [C99_integers]; decide +kernel

/-! ## Containers -/

/-- The kinds of containers. -/
inductive Holder where
  | binary | seq | map | record | tuple | recordTuple
deriving DecidableEq, Repr

/-- What a container can arrive as, from the closest on. -/
def Holder.chain : Holder → List Holder
  | .binary => [.binary, .seq]
  | .seq => [.seq]
  | .map => [.map, .seq]
  | .record => [.record, .map, .seq]
  | .tuple => [.tuple, .seq]
  | .recordTuple => [.recordTuple, .record, .map, .seq]

/-- The kind and the size given of the container that a call opens. -/
def Token.opensHolder : Token → Option (Holder × Option Nat)
  | .binaryBegin n => some (.binary, n)
  | .seqBegin n => some (.seq, n)
  | .mapBegin n => some (.map, n)
  | .recordBegin _ n => some (.record, n)
  | .tupleBegin _ n => some (.tuple, n)
  | .recordTupleBegin _ n => some (.recordTuple, n)
  | _ => none

/-- The kind of the container that a call opens an entry with a key of. -/
def Token.opensEntry : Token → Option Holder
  | .mapKeyBegin => some .map
  | .recordValueBegin _ _ => some .record
  | .recordTupleValueBegin _ _ _ => some .recordTuple
  | _ => none

/-- Does the stream have methods for a kind of container? -/
def Caps.holder (c : Caps) : Holder → Bool
  | .binary => c.native (.binaryBegin none)
  | .seq => c.native (.seqBegin none)
  | .map => c.native (.mapBegin none)
  | .record => c.native (.recordBegin {} none)
  | .tuple => c.native (.tupleBegin {} none)
  | .recordTuple => c.native (.recordTupleBegin {} none)

/-- The closest kind of container that the stream has methods for. -/
def Caps.closest (c : Caps) (k : Holder) : Holder := (k.chain.find? c.holder).getD .seq

/-- The containers that should be opened for a call: a container of the closest kind and of the same size, and a pair for each
entry if the closest kind has no keys. -/
def Caps.opened (c : Caps) (t : Token) : List (Holder × Option Nat) :=
  match t.opensHolder, t.opensEntry with
  | some (k, n), _ => [(c.closest k, n)]
  | none, some k => if c.closest k = .seq then [(c.closest .tuple, some 2)] else []
  | none, none => []

theorem labelValue_holders (c : Caps) (l : Label) : (Low.labelValue c l).filterMap Token.opensHolder = [] := by
  unfold Low.labelValue
  split
  · unfold Low.textValue Low.textFragment
    split <;> rfl
  · rfl

theorem tagged_holders (c : Caps) (m : Meta) :
    (Low.taggedBegin c m).filterMap Token.opensHolder = [] ∧ (Low.taggedEnd c m).filterMap Token.opensHolder = [] := by
  unfold Low.taggedBegin Low.taggedEnd
  constructor <;> split <;> rfl

theorem int_holders (c : Caps) (t : IntTy) (n : Int) : (lower c [.int t n]).filterMap Token.opensHolder = [] := by
  rw [C99_integers]
  split
  · rfl
  · split
    · rfl
    · simp only [toks, lower_append, lower_cons, lower_nil, Low.tok, List.filterMap_append, tagged_holders]
      split <;> rfl

/-- C99. The containers that are opened are of the closest kinds that the stream has methods for, with the sizes given. -/
theorem C99_containers (c : Caps) (ts : List Token) :
    (lower c ts).filterMap Token.opensHolder = ts.flatMap c.opened := by
  have hi : ∀ t n, (Low.int c t n).filterMap Token.opensHolder = [] := by
    intro t n
    have := int_holders c t n
    simpa [lower, Low.tok] using this
  have hb : ∀ s : Bytes, (Low.binaryFragmentComputed c s).filterMap Token.opensHolder = [] := by
    intro s
    unfold Low.binaryFragmentComputed
    split
    · rfl
    · induction s with
      | nil => rfl
      | cons b s ih =>
        simp only [List.flatMap_cons, List.filterMap_append, ih, List.append_nil]
        have := hi .u8 b.toNat
        simp only [Low.int] at this
        rw [this]; rfl
  have h : ∀ t, (Low.tok c t).filterMap Token.opensHolder = c.opened t := by
    intro t
    cases t with
    | int t v => exact hi t v
    | binaryFragmentComputed s => exact hb s
    | binaryFragment s =>
      simp only [Low.tok, Low.binaryFragment]
      split
      · rfl
      · exact hb s
    | textFragment s => simp only [Low.tok, Low.textFragment]; split <;> rfl
    | f32 b => simp only [Low.tok, Low.f32]; split <;> rfl
    | tagHint t => simp only [Low.tok, Low.tagHint]; split <;> rfl
    | taggedBegin m => exact (tagged_holders c m).1
    | taggedEnd m => exact (tagged_holders c m).2
    | enumBegin m => simp only [Low.tok, Low.enumBegin]; split; rfl; exact (tagged_holders c m).1
    | enumEnd m => simp only [Low.tok, Low.enumEnd]; split; rfl; exact (tagged_holders c m).2
    | tag m =>
      simp only [Low.tok, Low.tag]
      split
      · rfl
      · simp only [List.filterMap_append, tagged_holders, List.nil_append, List.append_nil]
        split
        · rfl
        · split
          · exact labelValue_holders c _
          · rfl
    | _ =>
      cases h1 : c.map <;> cases h2 : c.record <;> cases h3 : c.tuple <;> cases h4 : c.recordTuple <;> cases h5 : c.binary <;>
        simp [Low.tok, Low.binaryBegin, Low.binaryEnd, Low.mapBegin, Low.mapKeyBegin, Low.mapKeyEnd, Low.mapValueBegin,
          Low.mapValueEnd, Low.mapEnd, Low.recordBegin, Low.recordValueBegin, Low.recordValueEnd, Low.recordEnd, Low.tupleBegin,
          Low.tupleValueBegin, Low.tupleValueEnd, Low.tupleEnd, Low.recordTupleBegin, Low.recordTupleValueBegin,
          Low.recordTupleValueEnd, Low.recordTupleEnd, h1, h2, h3, h4, h5, tagged_holders, labelValue_holders, Caps.opened,
          Token.opensHolder, Token.opensEntry, Caps.closest, Holder.chain, Caps.holder, Caps.native, List.find?, List.filterMap_append,
          List.filterMap_cons]
  induction ts with
  | nil => rfl
  | cons t ts ih => simp only [lower_cons, List.filterMap_append, h, ih, List.flatMap_cons]

/-- Fields with names and indexes arrive in a map, or in pairs; tuples are kept. -/
example :
    let v : V := .recordTuple {} (some 1) [(none, { text := t! "a" }, ⟨0, none⟩, .tuple {} (some 0) [])]
    (lower { Caps.minimal with map := true, tuple := true } (toks v)).filterMap Token.opensHolder =
        [(.map, some 1), (.tuple, some 0)] ∧
      (lower { Caps.minimal with tuple := true } (toks v)).filterMap Token.opensHolder =
        [(.seq, some 1), (.tuple, some 2), (.tuple, some 0)] := by
  simp only [C99_containers]; decide +kernel

/-! ## Tags -/

/-- The tag, label and index that a call begins something with. -/
def Token.begins : Token → List Meta
  | .taggedBegin m | .enumBegin m | .recordBegin m _ | .tupleBegin m _ | .recordTupleBegin m _ | .tag m => [m]
  | _ => []

/-- The tag, label and index that a call ends something with. -/
def Token.ends : Token → List Meta
  | .taggedEnd m | .enumEnd m | .recordEnd m | .tupleEnd m | .recordTupleEnd m | .tag m => [m]
  | _ => []

/-- A tag, label or index other than those that the default methods use themselves. -/
def Meta.own (m : Meta) : Bool := m ≠ {} && m ≠ { tag := some tags.NUMBER }

theorem tagged_begins (c : Caps) (m : Meta) (h : c.tagged = true) :
    (Low.taggedBegin c m).flatMap Token.begins = [m] ∧ (Low.taggedBegin c m).flatMap Token.ends = [] ∧
      (Low.taggedEnd c m).flatMap Token.ends = [m] ∧ (Low.taggedEnd c m).flatMap Token.begins = [] := by
  simp [Low.taggedBegin, Low.taggedEnd, h, Token.begins, Token.ends]

theorem labelValue_begins (c : Caps) (l : Label) :
    (Low.labelValue c l).flatMap Token.begins = [] ∧ (Low.labelValue c l).flatMap Token.ends = [] := by
  unfold Low.labelValue
  split
  · unfold Low.textValue Low.textFragment
    split <;> exact ⟨rfl, rfl⟩
  · exact ⟨rfl, rfl⟩

theorem int_begins (c : Caps) (t : IntTy) (n : Int) (h : c.tagged = true) :
    ((Low.int c t n).flatMap Token.begins).filter Meta.own = [] ∧ ((Low.int c t n).flatMap Token.ends).filter Meta.own = [] := by
  have e := C99_integers c t n
  simp only [lower, List.flatMap_cons, List.flatMap_nil, List.append_nil, Low.tok] at e
  rw [e]
  split
  · exact ⟨rfl, rfl⟩
  · split
    · exact ⟨rfl, rfl⟩
    · have ht := tagged_begins c { tag := some tags.NUMBER } h
      split <;>
        simp [toks, textFragTok, Low.tok, Token.begins, Token.ends, ht, Meta.own]

/-- C99. For a stream with tagged values, every tag, label and index arrives, in order, whatever it was on: those of enums, records
and tuples are on tagged values if the stream has no methods for them. -/
theorem C99_tags (c : Caps) (h : c.tagged = true) (ts : List Token) :
    ((lower c ts).flatMap Token.begins).filter Meta.own = (ts.flatMap Token.begins).filter Meta.own ∧
      ((lower c ts).flatMap Token.ends).filter Meta.own = (ts.flatMap Token.ends).filter Meta.own := by
  have hi := fun t n => int_begins c t n h
  have hl := labelValue_begins c
  have ht := fun m => tagged_begins c m h
  have ho : Meta.own {} = false := by decide
  have hb : ∀ s : Bytes, ((Low.binaryFragmentComputed c s).flatMap Token.begins).filter Meta.own = [] ∧
      ((Low.binaryFragmentComputed c s).flatMap Token.ends).filter Meta.own = [] := by
    intro s
    unfold Low.binaryFragmentComputed
    split
    · exact ⟨rfl, rfl⟩
    · induction s with
      | nil => exact ⟨rfl, rfl⟩
      | cons b s ih =>
        have := hi .u8 b.toNat
        simp only [Low.int] at this
        simp only [List.flatMap_cons, List.flatMap_append, List.filter_append, ih, List.append_nil, List.flatMap_nil, this,
          Token.begins, Token.ends, List.filter_nil, and_self]
  have key : ∀ t, ((Low.tok c t).flatMap Token.begins).filter Meta.own = t.begins.filter Meta.own ∧
      ((Low.tok c t).flatMap Token.ends).filter Meta.own = t.ends.filter Meta.own := by
    intro t
    cases t with
    | int t v => exact hi t v
    | binaryFragmentComputed s => exact hb s
    | binaryFragment s =>
      simp only [Low.tok, Low.binaryFragment]
      split
      · exact ⟨rfl, rfl⟩
      · exact hb s
    | textFragment s => simp only [Low.tok, Low.textFragment]; split <;> exact ⟨rfl, rfl⟩
    | f32 b => simp only [Low.tok, Low.f32]; split <;> exact ⟨rfl, rfl⟩
    | tagHint t => simp only [Low.tok, Low.tagHint]; split <;> exact ⟨rfl, rfl⟩
    | tag m =>
      simp only [Low.tok, Low.tag]
      split
      · simp [Token.begins, Token.ends]
      · have hm : ∀ M : List Token, M.flatMap Token.begins = [] → M.flatMap Token.ends = [] →
            ((Low.taggedBegin c m ++ M ++ Low.taggedEnd c m).flatMap Token.begins).filter Meta.own =
                (Token.begins (.tag m)).filter Meta.own ∧
              ((Low.taggedBegin c m ++ M ++ Low.taggedEnd c m).flatMap Token.ends).filter Meta.own =
                (Token.ends (.tag m)).filter Meta.own := by
          intro M h1 h2
          simp only [List.flatMap_append, ht, h1, h2, List.append_nil, List.nil_append, Token.begins, Token.ends, and_self]
        split
        · exact hm _ rfl rfl
        · split
          · exact hm _ (hl _).1 (hl _).2
          · exact hm _ rfl rfl
    | _ =>
      simp only [Low.tok, Low.binaryBegin, Low.binaryEnd, Low.mapBegin, Low.mapKeyBegin, Low.mapKeyEnd, Low.mapValueBegin,
        Low.mapValueEnd, Low.mapEnd, Low.recordBegin, Low.recordValueBegin, Low.recordValueEnd, Low.recordEnd, Low.tupleBegin,
        Low.tupleValueBegin, Low.tupleValueEnd, Low.tupleEnd, Low.recordTupleBegin, Low.recordTupleValueBegin,
        Low.recordTupleValueEnd, Low.recordTupleEnd, Low.enumBegin, Low.enumEnd]
      all_goals (repeat' split)
      all_goals simp only [List.flatMap_append, List.flatMap_cons, List.flatMap_nil, ht, hl, ho, Token.begins,
        Token.ends, List.filter_cons, List.filter_nil, List.append_nil, List.nil_append, Bool.false_eq_true, if_false, and_self]
  induction ts with
  | nil => exact ⟨rfl, rfl⟩
  | cons t ts ih =>
    simp only [lower_cons, List.flatMap_append, List.filter_append, List.flatMap_cons, key, ih, and_self]

/-- The tags and labels of an enum and of the tuple in it arrive on tagged values. -/
example :
    let v : V := .enum { label := some { text := t! "E" } } (.tuple { label := some { text := t! "A" }, index := some ⟨0, none⟩ } none [])
    ((lower { Caps.minimal with tagged := true } (toks v)).flatMap Token.begins).filter Meta.own =
      [{ label := some { text := t! "E" } }, { label := some { text := t! "A" }, index := some ⟨0, none⟩ }] := by
  exact (C99_tags { Caps.minimal with tagged := true } rfl _).1.trans (by decide +kernel)

/-- C99. For a stream with tag hints, every hint arrives and no others. -/
theorem C99_hints (c : Caps) (h : c.tagHint = true) (ts : List Token) :
    (lower c ts).filter (fun t => match t with | .tagHint _ => true | _ => false) =
      ts.filter (fun t => match t with | .tagHint _ => true | _ => false) := by
  have key : ∀ t, (Low.tok c t).filter (fun t => match t with | .tagHint _ => true | _ => false) =
      [t].filter (fun t => match t with | .tagHint _ => true | _ => false) := by
    intro t
    by_cases ht : ∃ g, t = .tagHint g
    · obtain ⟨g, rfl⟩ := ht
      simp [Low.tok, Low.tagHint, h]
    · have e := C02_hints_anywhere c [t]
      have e' : dropHints [t] = [t] := by
        cases t <;> first | rfl | exact absurd ⟨_, rfl⟩ ht
      rw [e'] at e
      simp only [lower, List.flatMap_cons, List.flatMap_nil, List.append_nil, dropHints, List.filter_eq_self] at e
      have : [t].filter (fun t => match t with | .tagHint _ => true | _ => false) = [] := by
        cases t <;> first | rfl | exact absurd ⟨_, rfl⟩ ht
      rw [this, List.filter_eq_nil_iff]
      intro x hx hx'
      have := e x hx
      cases x <;> simp_all
  induction ts with
  | nil => rfl
  | cons t ts ih =>
    rw [lower_cons, List.filter_append, ih, key, ← List.filter_append]; rfl

/-- The hint in a sequence arrives. -/
example :
    (lower { Caps.minimal with tagHint := true } (toks (.seq none [.hint tags.NUMBER (.int .u8 1)]))).filter
        (fun t => match t with | .tagHint _ => true | _ => false) = [.tagHint tags.NUMBER] :=
  (C99_hints { Caps.minimal with tagHint := true } rfl _).trans (by decide +kernel)

end Sval
