import Verif.Flatten.Spec

set_option autoImplicit false

/-!
# The label buffer: what a key leaves in it
-/

namespace Sval.Flatten

theorem toIsize_eq (i : Index) : toIsize i = if isIsize i.val then some i.val else none := by
  unfold toIsize Index.toTy isIsize
  have h1 : castI128 (IxTy.min 64 .isize) = -2 ^ 63 := by decide
  have h2 : castI128 (IxTy.max 64 .isize) = 2 ^ 63 - 1 := by decide
  rw [h1, h2]
  by_cases h : i.val ≥ -2 ^ 63 ∧ i.val ≤ 2 ^ 63 - 1
  · rw [if_pos h, if_pos h]
    congr 1
    simp only [asInt, IxTy.bits, IxTy.signed]
    have : ((2 ^ 64 : Nat) : Int) = 18446744073709551616 := rfl
    have : ((2 ^ (64 - 1) : Nat) : Int) = 9223372036854775808 := rfl
    simp only [true_and]
    split <;> omega
  · rw [if_neg h, if_neg h]

theorem toUsize_eq (i : Index) :
    i.toTy 64 .usize = if 0 ≤ i.val ∧ i.val ≤ 2 ^ 64 - 1 then some i.val else none := by
  unfold Index.toTy
  have h1 : castI128 (IxTy.min 64 .usize) = 0 := by decide
  have h2 : castI128 (IxTy.max 64 .usize) = 2 ^ 64 - 1 := by decide
  rw [h1, h2]
  by_cases h : i.val ≥ 0 ∧ i.val ≤ 2 ^ 64 - 1
  · rw [if_pos h, if_pos h]
    congr 1
    simp only [asInt, IxTy.bits, IxTy.signed]
    have : ((2 ^ 64 : Nat) : Int) = 18446744073709551616 := rfl
    simp only [Bool.false_eq_true, false_and, if_false]
    omega
  · rw [if_neg h, if_neg h]

theorem offset_eq {i : Int} (h : isIsize i) : offset i = ⟨i, some tags.VALUE_OFFSET⟩ := by
  unfold offset Index.ofInt Index.withTag castI128 asInt
  unfold isIsize at h
  have : ((2 ^ 128 : Nat) : Int) = 340282366920938463463374607431768211456 := rfl
  have : ((2 ^ (128 - 1) : Nat) : Int) = 170141183460469231731687303715884105728 := rfl
  simp only [true_and]
  congr 1
  split <;> omega

theorem isIsize_wrap (x : Int) : isIsize (wrap x) := by
  unfold isIsize wrap
  omega

theorem wrap_eq {x : Int} (h : isIsize x) : wrap x = x := by
  unfold isIsize at h
  unfold wrap
  omega

theorem asInt_wrap (x : Int) : asInt true 64 x = wrap x := by
  unfold wrap asInt
  have : ((2 ^ 64 : Nat) : Int) = 18446744073709551616 := rfl
  have : ((2 ^ (64 - 1) : Nat) : Int) = 9223372036854775808 := rfl
  simp only [true_and]
  split <;> omega

theorem addIsize_eq {b : Bool} {x y : Int} (h : b = true → isIsize (x + y)) : addIsize b x y = some (wrap (x + y)) := by
  unfold addIsize
  by_cases hr : isIsize (x + y)
  · rw [if_pos hr, wrap_eq hr]
  · rw [if_neg hr, asInt_wrap]
    cases b with
    | true => exact absurd (h rfl) hr
    | false => rfl

theorem addIsize_none {x y : Int} (h : ¬ isIsize (x + y)) : addIsize true x y = none := by
  unfold addIsize
  rw [if_neg h]
  rfl

namespace LabelBuf

theorem pushed_ok (b : LabelBuf) (s : Text) :
    b.textFragmentComputed true s = .ok (.text (.owned (b.textBuf.content ++ s))) := by
  simp [textFragmentComputed, Buf.Cow.pushComputed, pushed]

theorem push_ok (b : LabelBuf) (s : Text) :
    ∃ c, b.textFragment true s = .ok (.text c) ∧ c.content = b.textBuf.content ++ s := by
  unfold textFragment Buf.Cow.push
  split
  · rename_i h
    refine ⟨.borrowed s, rfl, ?_⟩
    rw [List.length_eq_zero_iff.mp h]
    rfl
  · exact ⟨_, pushed_ok b s, rfl⟩

/-- Whether the buffer holds text, and its content. -/
def abs (ryu : UInt64 → Text) (b : LabelBuf) : Bool × Text :=
  (match b with | .text _ => true | _ => false, b.content ryu)

end LabelBuf

/-- What a piece does to a buffer. -/
def Ev.apply : Ev → Bool × Text → Bool × Text
  | .num t, _ => (false, t)
  | .str s, (b, c) => (true, if b then c ++ s else s)

def applyAll (es : List Ev) (x : Bool × Text) : Bool × Text := es.foldl (fun x e => e.apply x) x

theorem applyAll_append (a b : List Ev) (x : Bool × Text) : applyAll (a ++ b) x = applyAll b (applyAll a x) := by
  simp [applyAll]

namespace LabelBuf
variable (ryu : UInt64 → Text)

/-- A run that pushes pieces. -/
def Pushes (r : Res Unit LabelBuf) (es : List Ev) (b : LabelBuf) : Prop :=
  ∃ l, r = .ok l ∧ l.abs ryu = applyAll es (b.abs ryu)

variable {ryu}

theorem Pushes.ok (b : LabelBuf) : Pushes ryu (.ok b) [] b := ⟨b, rfl, rfl⟩

theorem Pushes.bind {r : Res Unit LabelBuf} {es es' : List Ev} {b : LabelBuf} (h : Pushes ryu r es b)
    {f : LabelBuf → Res Unit LabelBuf} (hf : ∀ l, Pushes ryu (f l) es' l) : Pushes ryu (r.bind f) (es ++ es') b := by
  obtain ⟨l, rfl, h⟩ := h
  obtain ⟨l', h1, h2⟩ := hf l
  exact ⟨l', h1, by rw [h2, h, applyAll_append]⟩

theorem abs_textBuf (b : LabelBuf) (s : Text) :
    (true, b.textBuf.content ++ s) = (Ev.str s).apply (b.abs ryu) := by
  cases b <;> simp [Ev.apply, abs, textBuf, content, Buf.Cow.new, Buf.Cow.content]

theorem pushes_computed (b : LabelBuf) (s : Text) : Pushes ryu (b.textFragmentComputed true s) [.str s] b :=
  ⟨_, pushed_ok b s, abs_textBuf b s⟩

theorem pushes_fragment (b : LabelBuf) (s : Text) : Pushes ryu (b.textFragment true s) [.str s] b := by
  obtain ⟨c, h, h'⟩ := push_ok b s
  refine ⟨_, h, ?_⟩
  rw [show applyAll [.str s] (b.abs ryu) = (Ev.str s).apply (b.abs ryu) from rfl, ← abs_textBuf]
  simp [abs, content, h']

theorem pushes_label (b : LabelBuf) (l : Label) : Pushes ryu (b.label true l) [.str l.text] b := by
  unfold label Label.asStaticStr
  by_cases h : l.backing = .static
  · simp only [h, if_true]; exact pushes_fragment b _
  · simp only [h, if_false]; exact pushes_computed b _

theorem pushes_index (b : LabelBuf) (i : Index) :
    Pushes ryu (b.index true i)
      (if -2 ^ 63 ≤ i.val ∧ i.val ≤ 2 ^ 64 - 1 then [.num (intDec i.val)] else [.str (intDec i.val)]) b := by
  unfold index
  rw [toIsize_eq, toUsize_eq]
  by_cases h1 : isIsize i.val
  · have : -2 ^ 63 ≤ i.val ∧ i.val ≤ 2 ^ 64 - 1 := ⟨h1.1, by have := h1.2; omega⟩
    rw [if_pos h1, if_pos this]
    exact ⟨_, rfl, rfl⟩
  · rw [if_neg h1]
    by_cases h2 : 0 ≤ i.val ∧ i.val ≤ 2 ^ 64 - 1
    · have : -2 ^ 63 ≤ i.val ∧ i.val ≤ 2 ^ 64 - 1 := ⟨by omega, h2.2⟩
      simp only [if_pos h2, if_pos this]
      exact ⟨_, rfl, rfl⟩
    · have : ¬ (-2 ^ 63 ≤ i.val ∧ i.val ≤ 2 ^ 64 - 1) := by
        unfold isIsize at h1
        omega
      simp only [if_neg h2, if_neg this]
      unfold intDecFrags intDec
      by_cases hn : i.val < 0
      · simp only [if_pos hn, writeAll, pushed_ok, Res.bind_ok]
        refine ⟨_, rfl, ?_⟩
        rw [show ∀ s, applyAll [.str s] (b.abs ryu) = (Ev.str s).apply (b.abs ryu) from fun _ => rfl, ← abs_textBuf]
        simp [abs, content, textBuf, Buf.Cow.content]
      · simp only [if_neg hn, writeAll, pushed_ok, Res.bind_ok]
        refine ⟨_, rfl, ?_⟩
        rw [show ∀ s, applyAll [.str s] (b.abs ryu) = (Ev.str s).apply (b.abs ryu) from fun _ => rfl, ← abs_textBuf]
        simp [abs, content, textBuf, Buf.Cow.content]

/-- The pieces one call pushes. -/
def ev (ryu : UInt64 → Text) : Token → List Ev
  | .null => [.str (t! "null")]
  | .bool b => [.str (if b then t! "true" else t! "false")]
  | .int _ v => [.num (intDec v)]
  | .f32 b => [.num (ryu (widen b))]
  | .f64 b => [.num (ryu b)]
  | .textFragment s => [.str s]
  | .textFragmentComputed s => [.str s]
  | .binaryFragment s => s.map fun b => .num (intDec b.toNat)
  | .binaryFragmentComputed s => s.map fun b => .num (intDec b.toNat)
  | .tag m => tagPieces m
  | .recordValueBegin _ l => [.str l.text]
  | .recordTupleValueBegin _ l _ => [.str l.text]
  | _ => []

theorem pushes_bytes (s : Bytes) (b : LabelBuf) :
    Pushes ryu (run (step true) (s.flatMap fun b => [.seqValueBegin] ++ Low.u8 caps b.toNat ++ [.seqValueEnd]) b)
      (s.map fun b => .num (intDec b.toNat)) b := by
  induction s generalizing b with
  | nil => exact Pushes.ok b
  | cons x s ih =>
    rw [List.flatMap_cons, run_append]
    exact Pushes.bind (es := [.num (intDec x.toNat)]) ⟨.u128 x.toNat, rfl, rfl⟩ ih

theorem pushes_labelValue (l : Label) (b : LabelBuf) : Pushes ryu (run (step true) (Low.labelValue caps l) b) [.str l.text] b := by
  have h : ∀ r : Res Unit LabelBuf, (r.bind fun s => Res.ok s) = r := fun r => by cases r <;> rfl
  unfold Low.labelValue
  split
  · simpa [Low.textValue, Low.textFragment, caps, run, step, h] using pushes_fragment b l.text
  · simpa [Low.textValueComputed, run, step, h] using pushes_computed b l.text

theorem recordBegin (l : Label) (b : LabelBuf) :
    Pushes ryu (run (step true) ([.seqValueBegin] ++ [.seqBegin (some 2)] ++ [.seqValueBegin] ++ Low.labelValue caps l ++
      [.seqValueEnd] ++ [.seqValueBegin]) b) [.str l.text] b := by
  simp only [run_append, Res.bind_assoc]
  exact (pushes_labelValue l b).bind fun l => Pushes.ok l

theorem pushes_call (t : Token) (b : LabelBuf) : Pushes ryu (call true t b) (ev ryu t) b := by
  have h : ∀ r : Res Unit LabelBuf, (r.bind fun s => Res.ok s) = r := fun r => by cases r <;> rfl
  unfold call
  cases t with
  | null => simpa [Low.tok, run, step, h, ev] using pushes_fragment b _
  | bool v => simpa [Low.tok, run, step, h, ev] using pushes_fragment b _
  | int ty v => cases ty <;> exact ⟨_, rfl, rfl⟩
  | f32 v => exact ⟨_, rfl, rfl⟩
  | f64 v => exact ⟨_, rfl, rfl⟩
  | textFragment s => simpa [Low.tok, Low.textFragment, caps, run, step, h, ev] using pushes_fragment b _
  | textFragmentComputed s => simpa [Low.tok, run, step, h, ev] using pushes_computed b _
  | binaryFragment s => exact pushes_bytes s b
  | binaryFragmentComputed s => exact pushes_bytes s b
  | tag m =>
    have : run (step true) (Low.tok caps (.tag m)) b = step true (.tag m) b := by
      simp [Low.tok, Low.tag, caps, run, h]
    rw [this]
    simp only [step, ev, tagPieces]
    cases hl : m.label with
    | some l => exact pushes_label b l
    | none =>
      cases hi : m.index with
      | some i => exact pushes_index b i
      | none => exact pushes_fragment b _
  | recordValueBegin t l =>
    exact recordBegin l b
  | recordTupleValueBegin t l i =>
    exact recordBegin l b
  | _ => exact Pushes.ok b

/-- The buffer after a call. -/
def eff (t : Token) (b : LabelBuf) : LabelBuf :=
  match call true t b with
  | .ok l => l
  | _ => b

theorem call_eq (t : Token) (b : LabelBuf) : call true t b = .ok (eff t b) := by
  obtain ⟨l, h, _⟩ := pushes_call (ryu := fun _ => []) t b
  simp [eff, h]

theorem abs_eff (t : Token) (b : LabelBuf) : (eff t b).abs ryu = applyAll (ev ryu t) (b.abs ryu) := by
  obtain ⟨l, h, h'⟩ := pushes_call (ryu := ryu) t b
  simp [eff, h, h']

theorem abs_effs (ts : List Token) (b : LabelBuf) :
    (ts.foldl (fun b t => eff t b) b).abs ryu = applyAll (ts.flatMap (ev ryu)) (b.abs ryu) := by
  induction ts generalizing b with
  | nil => rfl
  | cons t ts ih => rw [List.foldl_cons, ih, abs_eff, List.flatMap_cons, applyAll_append]

end LabelBuf

/-! ## The pieces of a value are the pieces of its calls -/

theorem ev_textFrags (ryu : UInt64 → Text) (fs : List (Frag Text)) :
    (fs.map textFragTok).flatMap (LabelBuf.ev ryu) = fs.map fun f => .str f.content := by
  induction fs with
  | nil => rfl
  | cons f fs ih => cases f <;> simp [textFragTok, LabelBuf.ev, Frag.content, ih]

theorem ev_binFrags (ryu : UInt64 → Text) (fs : List (Frag Bytes)) :
    (fs.map binFragTok).flatMap (LabelBuf.ev ryu) = (fragsBytes fs).map fun b => .num (intDec b.toNat) := by
  induction fs with
  | nil => rfl
  | cons f fs ih =>
    rw [List.map_cons, List.flatMap_cons, ih]
    cases f <;> simp [fragsBytes, binFragTok, LabelBuf.ev, Frag.content]

theorem ev_toks (ryu : UInt64 → Text) (v : V) : (toks v).flatMap (LabelBuf.ev ryu) = pieces ryu v := by
  induction v using V.ind with
  | null => rfl
  | bool b => rfl
  | int t v => rfl
  | f32 b => rfl
  | f64 b => rfl
  | text n fs => simp [toks, pieces, ev_textFrags, LabelBuf.ev]
  | binary n fs => simp [toks, pieces, ev_binFrags, LabelBuf.ev]
  | seq n xs ih =>
    have : (toksSeq xs).flatMap (LabelBuf.ev ryu) = piecesSeq ryu xs := by
      induction xs with
      | nil => rfl
      | cons x xs ih' =>
        simp [toksSeq, piecesSeq, LabelBuf.ev, ih x (by simp), ih' (fun y hy => ih y (by simp [hy]))]
    simp [toks, pieces, LabelBuf.ev, this]
  | map n kvs ih =>
    have : (toksMap kvs).flatMap (LabelBuf.ev ryu) = piecesMap ryu kvs := by
      induction kvs with
      | nil => rfl
      | cons x xs ih' =>
        obtain ⟨k, v⟩ := x
        simp [toksMap, piecesMap, LabelBuf.ev, (ih (k, v) (by simp)).1, (ih (k, v) (by simp)).2,
          ih' (fun y hy => ih y (by simp [hy]))]
    simp [toks, pieces, LabelBuf.ev, this]
  | tag m => simp [toks, pieces, LabelBuf.ev]
  | tagged m v ih => simp [toks, pieces, LabelBuf.ev, ih]
  | enum m v ih => simp [toks, pieces, LabelBuf.ev, ih]
  | record m n fs ih =>
    have : (toksRec fs).flatMap (LabelBuf.ev ryu) = piecesRec ryu fs := by
      induction fs with
      | nil => rfl
      | cons x xs ih' =>
        obtain ⟨t, l, v⟩ := x
        simp [toksRec, piecesRec, LabelBuf.ev, ih (t, l, v) (by simp), ih' (fun y hy => ih y (by simp [hy]))]
    simp [toks, pieces, LabelBuf.ev, this]
  | tuple m n fs ih =>
    have : (toksTup fs).flatMap (LabelBuf.ev ryu) = piecesTup ryu fs := by
      induction fs with
      | nil => rfl
      | cons x xs ih' =>
        obtain ⟨t, l, v⟩ := x
        simp [toksTup, piecesTup, LabelBuf.ev, ih (t, l, v) (by simp), ih' (fun y hy => ih y (by simp [hy]))]
    simp [toks, pieces, LabelBuf.ev, this]
  | recordTuple m n fs ih =>
    have : (toksRT fs).flatMap (LabelBuf.ev ryu) = piecesRT ryu fs := by
      induction fs with
      | nil => rfl
      | cons x xs ih' =>
        obtain ⟨t, l, i, v⟩ := x
        simp [toksRT, piecesRT, LabelBuf.ev, ih (t, l, i, v) (by simp), ih' (fun y hy => ih y (by simp [hy]))]
    simp [toks, pieces, LabelBuf.ev, this]
  | hint t v ih => simp [toks, pieces, LabelBuf.ev, ih]

/-! ## What is kept -/

theorem kept_strs {es : List Ev} (h : hasNum es = false) : kept es = joined es := by
  induction es with
  | nil => rfl
  | cons e es ih =>
    cases e with
    | num t => simp [hasNum, Ev.isNum] at h
    | str t =>
      have h' : hasNum es = false := by simpa [hasNum, Ev.isNum] using h
      simp only [kept, h', Bool.false_eq_true, if_false, ih h']
      rfl

theorem applyAll_kept (es : List Ev) (b : Bool) (c : Text) :
    (applyAll es (b, c)).2 =
      if hasNum es then kept es else if b then c ++ joined es else if es = [] then c else joined es := by
  induction es generalizing b c with
  | nil => cases b <;> simp [applyAll, hasNum, joined]
  | cons e es ih =>
    cases e with
    | num t =>
      have : applyAll (.num t :: es) (b, c) = applyAll es (false, t) := rfl
      rw [this, ih]
      have hn : hasNum (.num t :: es) = true := by simp [hasNum, Ev.isNum]
      simp only [hn, if_true, kept, Bool.false_eq_true, if_false]
      cases he : es with
      | nil => simp [hasNum]
      | cons e' es' =>
        by_cases h : hasNum (e' :: es') = true
        · simp [h]
        · have h' : hasNum (e' :: es') = false := by simpa using h
          rw [← kept_strs h']
          simp [h']
    | str s =>
      have : applyAll (.str s :: es) (b, c) = applyAll es (true, if b then c ++ s else s) := rfl
      rw [this, ih]
      have hn : hasNum (.str s :: es) = hasNum es := by simp [hasNum, Ev.isNum]
      rw [hn]
      by_cases h : hasNum es = true
      · simp only [h, if_true, kept]
      · have h' : hasNum es = false := by simpa using h
        cases b <;> simp [h', joined, Ev.text]

/-- The label a key leaves: what is kept of its pieces. -/
theorem key_label (ryu : UInt64 → Text) (k : V) :
    ((toks k).foldl (fun b t => LabelBuf.eff t b) .empty).content ryu = kept (pieces ryu k) := by
  have := LabelBuf.abs_effs (ryu := ryu) (toks k) .empty
  rw [ev_toks] at this
  have := congrArg Prod.snd this
  rw [show LabelBuf.abs ryu .empty = (false, []) from rfl, applyAll_kept] at this
  rw [show ∀ b : LabelBuf, (b.abs ryu).2 = b.content ryu from fun _ => rfl] at this
  rw [this]
  by_cases h : hasNum (pieces ryu k) = true
  · rw [if_pos h]
  · have h' : hasNum (pieces ryu k) = false := by simpa using h
    rw [if_neg h, kept_strs h']
    simp only [Bool.false_eq_true, if_false]
    split
    · rename_i h; rw [h]; rfl
    · rfl

end Sval.Flatten
