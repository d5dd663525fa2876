import Verif.Core.LowerLemmas
import Verif.Core.Guard
import Verif.Nested.Provided
import Verif.Fmt.Model
import Verif.Rust.Debug

set_option autoImplicit false

/-!
# The example streams

`examples/stream/simple.rs` is a stream with the required methods only. `nested/examples/stream_nested_simple.rs` is a
recursive stream with the required methods only, "similar to the flat example from `sval`". Both print to the standard
output, which is a text here that only grows. What `core` prints for floats is a parameter.
-/

namespace Sval.Examples

/-- `str::escape_debug` of `core`: in the first character everything is escaped that is escaped in a `char`, but later
characters may extend the one before. -/
def escapeStr (env : Fmt.Env) : Text → Text
  | [] => []
  | c :: r => Fmt.escapeDebug env c ++ r.flatMap (Fmt.escapeDebug { env with extended := fun _ => false })

section
variable (env : Fmt.Env) (float : UInt64 → Text)

/-- The methods of `MyStream`: `examples/stream/simple.rs:3-58`. The others are provided. -/
def flatStep (t : Token) (o : Text) : Res Unit Text :=
  match t with
  -- 4-7
  | .null => .ok (o ++ t! "null")
  -- 9-12
  | .bool b => .ok (o ++ if b then t! "true" else t! "false")
  -- 14-17
  | .int .i64 v => .ok (o ++ intDec v)
  -- 19-22
  | .f64 b => .ok (o ++ float b)
  -- 24-27
  | .textBegin _ => .ok (o ++ t! "\"")
  -- 29-33
  | .textFragmentComputed s => .ok (o ++ escapeStr env s)
  -- 35-38
  | .textEnd => .ok (o ++ t! "\"")
  -- 40-43
  | .seqBegin _ => .ok (o ++ t! "[ ")
  -- 45-47
  | .seqValueBegin => .ok o
  -- 49-52
  | .seqValueEnd => .ok (o ++ t! ", ")
  -- 54-57
  | .seqEnd => .ok (o ++ t! "]")
  | _ => .panic

/-- `MyStream` with the provided methods. -/
def flatStream (t : Token) (o : Text) : Res Unit Text := run (flatStep env float) (Low.tok .minimal t) o

open Nested

/-- The methods of `Stream`: `nested/examples/stream_nested_simple.rs:7-224`. Values in values are streamed to the same
stream with the provided methods, to a given depth, beyond which it is a panic. -/
def recStep : Nat → Cb → Text → Res Unit Text
  | 0, _, _ => .panic
  | k + 1, c, o =>
    -- `sval_nested::Stream::value_computed(Stream, value)`
    let inner (a : Arg) (o : Text) : Res Unit Text := result (stream (full {} (recStep k) k) true a.prog o)
    let put (s : Text) (o : Text) : Res Unit Text := .ok (o ++ s)
    match c with
    -- 20-23
    | .scalar .null => put (t! "null") o
    -- 25-28
    | .scalar (.bool b) => put (if b then t! "true" else t! "false") o
    -- 30-33
    | .scalar (.int .i64 v) => put (intDec v) o
    -- 35-38
    | .scalar (.f64 b) => put (float b) o
    -- 40-43
    | .text false s => put (Rust.debugStr env s) o
    -- 45-72
    | .seqBegin _ | .mapBegin _ | .tupleBegin _ _ | .recordBegin _ _ => put (t! "[ ") o
    -- 74-81
    | .enumBegin _ => .ok o
    -- 87-92, 126-133
    | .seqValue a | .tupleValue _ _ a => (inner a o).bind (put (t! ", "))
    -- 94-97, 118-120, 135-137, 153-155
    | .seqEnd | .mapEnd | .tupleEnd | .recordEnd => put (t! "]") o
    -- 103-109
    | .mapKey a => (inner a (o ++ t! "[ ")).bind (put (t! ", "))
    -- 111-116
    | .mapValue a => (inner a o).bind (put (t! ", ], "))
    -- 143-151
    | .recordValue _ l a =>
      (inner ⟨false, prog (strProg l.text)⟩ (o ++ t! "[ ")).bind fun o =>
      (put (t! ", ") o).bind fun o => (inner a o).bind (put (t! ", ], "))
    -- 167-174
    | .variantTag m => full {} (recStep k) k (.tag m) o
    -- 176-184
    | .variantTagged m a => full {} (recStep k) k (.tagged m a) o
    -- 186-204
    | .variantTupleBegin _ _ | .variantRecordBegin _ _ => put (t! "[ ") o
    -- 206-219. `empty`, 221-223, is never called.
    | .nestedBegin _ | .nestedEnd _ => .ok o
    | _ => .panic

/-- `sval_nested::stream_computed(Stream, value)`, to a given depth. -/
def recStream (k : Nat) (p : Prog) (o : Text) : Res Unit Text := result (stream (full {} (recStep env float k) k) true p o)

end

/-! ## What they should print -/

/-- A list, with a comma behind every element. -/
def list (xs : List Text) : Text := t! "[ " ++ xs.flatMap (· ++ t! ", ") ++ t! "]"

section
variable (txt : List Text → Text) (float : UInt64 → Text)

/-- A number is its digits if it is one for an `i64`, and text if it is not. -/
def int (t : IntTy) (v : Int) : Text :=
  if t ∈ [.i8, .i16, .i32, .i64] ∨ IntTy.i64.fits v then intDec v else txt (intDecFrags v)

mutual
/-- What should be printed of a value. `txt` is what should be printed for text that comes in fragments. -/
def shown : V → Text
  | .null => t! "null"
  | .bool b => if b then t! "true" else t! "false"
  | .int t v => int txt t v
  | .f32 b => float (widen b)
  | .f64 b => float b
  | .text _ fs => txt (fs.map Frag.content)
  | .binary _ fs => list ((fragsBytes fs).map fun b => intDec b.toNat)
  | .seq _ xs => list (shownSeq xs)
  | .map _ kvs => list (shownMap kvs)
  | .tag m =>
    if m.tag = some tags.RUST_OPTION_NONE then t! "null"
    else
      match m.label with
      | some l => txt [l.text]
      | none => t! "null"
  | .tagged _ v => shown v
  | .enum _ v => shown v
  | .record _ _ fs => list (shownRec fs)
  | .tuple _ _ fs => list (shownTup fs)
  | .recordTuple _ _ fs => list (shownRT fs)
  | .hint _ v => shown v
def shownSeq : List V → List Text
  | [] => []
  | x :: xs => shown x :: shownSeq xs
def shownMap : List (V × V) → List Text
  | [] => []
  | (k, v) :: r => list [shown k, shown v] :: shownMap r
def shownRec : List (Option Tag × Label × V) → List Text
  | [] => []
  | (_, l, v) :: r => list [txt [l.text], shown v] :: shownRec r
def shownTup : List (Option Tag × Index × V) → List Text
  | [] => []
  | (_, _, v) :: r => shown v :: shownTup r
def shownRT : List (Option Tag × Label × Index × V) → List Text
  | [] => []
  | (_, l, _, v) :: r => list [txt [l.text], shown v] :: shownRT r
end

theorem shownSeq_map (L : List V) : shownSeq txt float L = L.map (shown txt float) := by
  induction L with
  | nil => rfl
  | cons x L ih => simp [shownSeq, ih]

theorem shownMap_map (L : List (V × V)) :
    shownMap txt float L = L.map fun x => list [shown txt float x.1, shown txt float x.2] := by
  induction L with
  | nil => rfl
  | cons x L ih => obtain ⟨k, v⟩ := x; simp [shownMap, ih]

theorem shownRec_map (L : List (Option Tag × Label × V)) :
    shownRec txt float L = L.map fun x => list [txt [x.2.1.text], shown txt float x.2.2] := by
  induction L with
  | nil => rfl
  | cons x L ih => obtain ⟨t, l, v⟩ := x; simp [shownRec, ih]

theorem shownTup_map (L : List (Option Tag × Index × V)) : shownTup txt float L = L.map fun x => shown txt float x.2.2 := by
  induction L with
  | nil => rfl
  | cons x L ih => obtain ⟨t, l, v⟩ := x; simp [shownTup, ih]

theorem shownRT_map (L : List (Option Tag × Label × Index × V)) :
    shownRT txt float L = L.map fun x => list [txt [x.2.1.text], shown txt float x.2.2.2] := by
  induction L with
  | nil => rfl
  | cons x L ih => obtain ⟨t, l, i, v⟩ := x; simp [shownRT, ih]

end

/-- Text that comes in fragments, as the flat stream should print it. -/
def flatText (env : Fmt.Env) (fs : List Text) : Text := t! "\"" ++ fs.flatMap (escapeStr env) ++ t! "\""

/-- Text that comes in fragments, as the recursive stream should print it: as a whole. -/
def recText (env : Fmt.Env) (fs : List Text) : Text := Rust.debugStr env fs.flatten

/-! ## The flat stream -/

section
variable (env : Fmt.Env) (float : UInt64 → Text)

/-- The calls of a tree print a text. -/
def Prints (v : V) (t : Text) : Prop := ∀ o, run (flatStep env float) (toks v) o = .ok (o ++ t)

variable {env float}

theorem prints_seq {n : Option Nat} {α : Type} (L : List α) (f : α → V) (g : α → Text) (h : ∀ x ∈ L, Prints env float (f x) (g x)) :
    Prints env float (.seq n (L.map f)) (list (L.map g)) := by
  intro o
  have key : ∀ (o : Text), run (flatStep env float) (toksSeq (L.map f) ++ [.seqEnd]) o =
      .ok (o ++ (L.map g).flatMap (· ++ t! ", ") ++ t! "]") := by
    induction L with
    | nil => intro o; simp [toksSeq, run, flatStep, Res.bind]
    | cons x L ih =>
      intro o
      have h1 := h x (by simp) o
      simp only [List.map_cons, toksSeq, List.cons_append, run_cons, flatStep, Res.bind, List.append_assoc]
      rw [run_append, h1]
      simp only [Res.bind, run_cons, flatStep]
      rw [ih fun y hy => h y (by simp [hy])]
      simp
  simp only [toks, run_cons, flatStep, Res.bind]
  rw [key]
  simp [list]

theorem prints_text (n : Option Nat) (fs : List (Frag Text)) :
    Prints env float (.text n (fs.map (LowV.mkFrag .minimal))) (flatText env (fs.map Frag.content)) := by
  intro o
  have key : ∀ (o : Text), run (flatStep env float) ((fs.map (LowV.mkFrag .minimal)).map textFragTok ++ [.textEnd]) o =
      .ok (o ++ (fs.map Frag.content).flatMap (escapeStr env) ++ t! "\"") := by
    induction fs with
    | nil => intro o; simp [run, flatStep, Res.bind]
    | cons f fs ih =>
      intro o
      have : textFragTok (LowV.mkFrag .minimal f) = .textFragmentComputed f.content := by cases f <;> rfl
      simp only [List.map_cons, List.cons_append, run_cons, this, flatStep, Res.bind, ih]
      simp
  simp only [toks, run_cons, flatStep, Res.bind]
  rw [key]
  simp [flatText]

theorem prints_label (l : Label) : Prints env float (LowV.mkLabel .minimal l) (flatText env [l.text]) := by
  have := prints_text (env := env) (float := float) (some (utf8Len l.text)) [.borrowed l.text]
  unfold LowV.mkLabel
  split <;> exact this

theorem prints_null : Prints env float .null (t! "null") := fun _ => rfl
theorem prints_i64 (v : Int) : Prints env float (.int .i64 v) (intDec v) := fun _ => rfl

theorem prints_number (v : Int) : Prints env float (LowV.mkNumber .minimal v) (flatText env (intDecFrags v)) := by
  have := prints_text (env := env) (float := float) none ((intDecFrags v).map Frag.computed)
  simp only [List.map_map, Function.comp_def, Frag.content, List.map_id'] at this
  exact this

theorem prints_int (t : IntTy) (v : Int) : Prints env float (LowV.mkInt .minimal t v) (int (flatText env) t v) := by
  have hu : Prints env float (LowV.mkU128 .minimal v) (if IntTy.i64.fits v then intDec v else flatText env (intDecFrags v)) := by
    unfold LowV.mkU128
    rw [if_neg (by decide)]
    split
    · exact prints_i64 v
    · exact prints_number v
  cases t <;> first
    | (simp only [int, List.mem_cons, List.not_mem_nil, reduceCtorEq, or_false, false_or]; exact hu)
    | (simp only [int, List.mem_cons, true_or, or_true, if_true]; exact prints_i64 v)

theorem prints_pair {k v : V} {s t : Text} (hk : Prints env float k s) (hv : Prints env float v t) :
    Prints env float (LowV.mkPair .minimal k v) (list [s, t]) := by
  have := prints_seq (n := some 2) [(k, s), (v, t)] Prod.fst Prod.snd (env := env) (float := float) (by
    intro x hx
    simp only [List.mem_cons, List.not_mem_nil, or_false] at hx
    rcases hx with rfl | rfl <;> assumption)
  exact this

theorem prints_lowV (v : V) : Prints env float (lowV .minimal v) (shown (flatText env) float v) := by
  have hs : ∀ L, lowVs .minimal L = L.map (lowV .minimal) := by
    intro L; induction L with
    | nil => rfl
    | cons x L ih => simp [lowVs, ih]
  have hm : ∀ L, lowKVs .minimal L = L.map fun x => (lowV .minimal x.1, lowV .minimal x.2) := by
    intro L; induction L with
    | nil => rfl
    | cons x L ih => simp [lowKVs, ih]
  have hr : ∀ L, lowRec .minimal L = L.map fun x => (x.1, x.2.1, lowV .minimal x.2.2) := by
    intro L; induction L with
    | nil => rfl
    | cons x L ih => simp [lowRec, ih]
  have ht : ∀ L, lowTup .minimal L = L.map fun x => (x.1, x.2.1, lowV .minimal x.2.2) := by
    intro L; induction L with
    | nil => rfl
    | cons x L ih => simp [lowTup, ih]
  have hrt : ∀ L, lowRT .minimal L = L.map fun x => (x.1, x.2.1, x.2.2.1, lowV .minimal x.2.2.2) := by
    intro L; induction L with
    | nil => rfl
    | cons x L ih => simp [lowRT, ih]
  induction v using V.ind with
  | null => exact prints_null
  | bool b => exact fun _ => rfl
  | int t v => exact prints_int t v
  | f32 b => exact fun _ => rfl
  | f64 b => exact fun _ => rfl
  | text n fs => exact prints_text n fs
  | binary n fs =>
    exact prints_seq (n := n) (fragsBytes fs) (fun b => LowV.mkU8 .minimal b.toNat) (fun b => intDec b.toNat) (by
      intro b _
      have h := prints_int (env := env) (float := float) .u8 b.toNat
      have hf : IntTy.i64.fits (b.toNat : Int) = true := by
        have := b.toNat_lt
        rw [IntTy.fits_iff]
        simp only [IntTy.min, IntTy.max]
        omega
      simp only [int, hf, or_true, if_true] at h
      exact h)
  | seq n xs ih =>
    simp only [lowV, hs, shown, shownSeq_map]
    exact prints_seq xs _ _ ih
  | map n kvs ih =>
    simp only [lowV, hm, shown, shownMap_map]
    have := prints_seq (n := n) kvs (fun x => LowV.mkPair .minimal (lowV .minimal x.1) (lowV .minimal x.2)) _
      (fun x hx => prints_pair (ih x hx).1 (ih x hx).2)
    simpa [LowV.mkMap, Caps.minimal, Function.comp_def] using this
  | tag m =>
    simp only [lowV, LowV.mkTag, LowV.mkTagged, shown]
    rw [if_neg (by decide), if_neg (by decide)]
    split
    · exact prints_null
    · cases m.label with
      | none => exact prints_null
      | some l => exact prints_label l
  | tagged m v ih => exact ih
  | enum m v ih => exact ih
  | record m n fs ih =>
    simp only [lowV, hr, shown, shownRec_map]
    have := prints_seq (n := n) fs (fun x => LowV.mkPair .minimal (LowV.mkLabel .minimal x.2.1) (lowV .minimal x.2.2)) _
      (fun x hx => prints_pair (prints_label x.2.1) (ih x hx))
    simpa [LowV.mkRecord, LowV.mkTagged, LowV.mkMap, Caps.minimal, Function.comp_def] using this
  | tuple m n fs ih =>
    simp only [lowV, ht, shown, shownTup_map]
    have := prints_seq (n := n) fs (fun x => lowV .minimal x.2.2) _ ih
    simpa [LowV.mkTuple, LowV.mkTagged, Caps.minimal, Function.comp_def] using this
  | recordTuple m n fs ih =>
    simp only [lowV, hrt, shown, shownRT_map]
    have := prints_seq (n := n) fs (fun x => LowV.mkPair .minimal (LowV.mkLabel .minimal x.2.1) (lowV .minimal x.2.2.2)) _
      (fun x hx => prints_pair (prints_label x.2.1) (ih x hx))
    simpa [LowV.mkRecordTuple, LowV.mkRecord, LowV.mkTagged, LowV.mkMap, Caps.minimal, Function.comp_def] using this
  | hint t v ih => exact ih

theorem run_flatStream (ts : List Token) : ∀ o, run (flatStream env float) ts o = run (flatStep env float) (Sval.lower .minimal ts) o := by
  induction ts with
  | nil => intro o; rfl
  | cons t ts ih =>
    intro o
    rw [run_cons, lower_cons, run_append]
    simp only [flatStream]
    congr 1
    funext o
    exact ih o

end

end Sval.Examples
