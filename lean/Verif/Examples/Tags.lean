import Verif.Examples.Simple
import Verif.Rust.Doc

set_option autoImplicit false

/-!
# The example with a tag of its own

`examples/tags.rs` defines a tag, and a stream that prints integers with that tag as times. What `humantime` prints for a
time is a parameter; it has nothing for times that are too far away, for which `print!` panics.
-/

namespace Sval.Examples

open Rust (allO)

/-- `examples/tags.rs:13` -/
def UNIX_TIMESTAMP : Tag := ⟨t! "unixts"⟩

/-- `MyStream`, and what it printed: `examples/tags.rs:27-29` -/
structure Clock where
  out : Text
  is_unix_ts : Bool

/-- The methods `MyStream` has: the required ones, `tagged_begin`, `tagged_end` and `u64`. -/
def clockCaps : Caps := { Caps.minimal with u64 := true, tagged := true }

section
variable (env : Fmt.Env) (float : UInt64 → Text) (time : Int → Option Text)

/-- The methods of `MyStream`: `examples/tags.rs:31-127`. -/
def clockStep (t : Token) (s : Clock) : Res Unit Clock :=
  match t with
  -- 32-43
  | .taggedBegin m => .ok (if m.tag = some UNIX_TIMESTAMP then { s with is_unix_ts := true } else s)
  -- 45-56
  | .taggedEnd m => .ok (if m.tag = some UNIX_TIMESTAMP then { s with is_unix_ts := false } else s)
  -- 58-72
  | .int .u64 v =>
    if s.is_unix_ts then
      match time v with
      | some t => .ok { s with out := s.out ++ t }
      | none => .panic
    else .ok { s with out := s.out ++ intDec v }
  -- 74-126: the same as in `examples/stream/simple.rs`
  | t =>
    match flatStep env float t s.out with
    | .ok o => .ok { s with out := o }
    | .err e o => .err e { s with out := o }
    | .panic => .panic

/-- `MyStream` with the provided methods. -/
def clockStream (t : Token) (s : Clock) : Res Unit Clock := run (clockStep env float time) (Low.tok clockCaps t) s

end

/-! ## What it should print -/

section
variable (txt : List Text → Text) (float : UInt64 → Text) (time : Int → Option Text)

/-- Is this tagged as a time? -/
def isTime (m : Meta) : Bool := m.tag = some UNIX_TIMESTAMP

/-- An unsigned integer, that is a time or not. -/
def toldU (ts : Bool) (v : Int) : Option Text := if ts then time v else some (intDec v)

/-- Integers of 64 bits without a sign can be times. -/
def toldInt (ts : Bool) (t : IntTy) (v : Int) : Option Text :=
  if t ∈ [.u8, .u16, .u32, .u64] then toldU time ts v else some (int txt t v)

mutual
/-- What should be printed of a value, in a value that is tagged as a time or not. Nothing, if there is a time that cannot
be printed. -/
def told (ts : Bool) : V → Option Text
  | .null => some (t! "null")
  | .bool b => some (if b then t! "true" else t! "false")
  | .int t v => toldInt txt time ts t v
  | .f32 b => some (float (widen b))
  | .f64 b => some (float b)
  | .text _ fs => some (txt (fs.map Frag.content))
  | .binary _ fs => (allO ((fragsBytes fs).map fun b => toldU time ts b.toNat)).map list
  | .seq _ xs => (allO (toldSeq ts xs)).map list
  | .map _ kvs => (allO (toldMap ts kvs)).map list
  | .tag m =>
    if m.tag = some tags.RUST_OPTION_NONE then some (t! "null")
    else
      match m.label with
      | some l => some (txt [l.text])
      | none => some (t! "null")
  | .tagged m v => told (ts || isTime m) v
  | .enum m v => told (ts || isTime m) v
  | .record m _ fs => (allO (toldRec (ts || isTime m) fs)).map list
  | .tuple m _ fs => (allO (toldTup (ts || isTime m) fs)).map list
  | .recordTuple m _ fs => (allO (toldRT (ts || isTime m) fs)).map list
  | .hint _ v => told ts v
def toldSeq (ts : Bool) : List V → List (Option Text)
  | [] => []
  | x :: xs => told ts x :: toldSeq ts xs
def toldMap (ts : Bool) : List (V × V) → List (Option Text)
  | [] => []
  | (k, v) :: r => (allO [told ts k, told ts v]).map list :: toldMap ts r
def toldRec (ts : Bool) : List (Option Tag × Label × V) → List (Option Text)
  | [] => []
  | (_, l, v) :: r => (allO [some (txt [l.text]), told ts v]).map list :: toldRec ts r
def toldTup (ts : Bool) : List (Option Tag × Index × V) → List (Option Text)
  | [] => []
  | (_, _, v) :: r => told ts v :: toldTup ts r
def toldRT (ts : Bool) : List (Option Tag × Label × Index × V) → List (Option Text)
  | [] => []
  | (_, l, _, v) :: r => (allO [some (txt [l.text]), told ts v]).map list :: toldRT ts r
end

theorem toldSeq_map (ts : Bool) (L : List V) : toldSeq txt float time ts L = L.map (told txt float time ts) := by
  induction L with
  | nil => rfl
  | cons x L ih => simp [toldSeq, ih]

theorem toldMap_map (ts : Bool) (L : List (V × V)) : toldMap txt float time ts L =
    L.map fun x => (allO [told txt float time ts x.1, told txt float time ts x.2]).map list := by
  induction L with
  | nil => rfl
  | cons x L ih => obtain ⟨k, v⟩ := x; simp [toldMap, ih]

theorem toldRec_map (ts : Bool) (L : List (Option Tag × Label × V)) : toldRec txt float time ts L =
    L.map fun x => (allO [some (txt [x.2.1.text]), told txt float time ts x.2.2]).map list := by
  induction L with
  | nil => rfl
  | cons x L ih => obtain ⟨t, l, v⟩ := x; simp [toldRec, ih]

theorem toldTup_map (ts : Bool) (L : List (Option Tag × Index × V)) :
    toldTup txt float time ts L = L.map fun x => told txt float time ts x.2.2 := by
  induction L with
  | nil => rfl
  | cons x L ih => obtain ⟨t, l, v⟩ := x; simp [toldTup, ih]

theorem toldRT_map (ts : Bool) (L : List (Option Tag × Label × Index × V)) : toldRT txt float time ts L =
    L.map fun x => (allO [some (txt [x.2.1.text]), told txt float time ts x.2.2.2]).map list := by
  induction L with
  | nil => rfl
  | cons x L ih => obtain ⟨t, l, i, v⟩ := x; simp [toldRT, ih]

end

mutual
/-- Nothing that is tagged as a time is in a value that is. -/
def alone (ts : Bool) : V → Bool
  | .seq _ xs => alones ts xs
  | .map _ kvs => aloneMap ts kvs
  | .tag m => !(ts && isTime m)
  | .tagged m v | .enum m v => !(ts && isTime m) && alone (ts || isTime m) v
  | .record m _ fs => !(ts && isTime m) && aloneRec (ts || isTime m) fs
  | .tuple m _ fs => !(ts && isTime m) && aloneTup (ts || isTime m) fs
  | .recordTuple m _ fs => !(ts && isTime m) && aloneRT (ts || isTime m) fs
  | .hint _ v => alone ts v
  | _ => true
def alones (ts : Bool) : List V → Bool
  | [] => true
  | x :: xs => alone ts x && alones ts xs
def aloneMap (ts : Bool) : List (V × V) → Bool
  | [] => true
  | (k, v) :: r => alone ts k && alone ts v && aloneMap ts r
def aloneRec (ts : Bool) : List (Option Tag × Label × V) → Bool
  | [] => true
  | (_, _, v) :: r => alone ts v && aloneRec ts r
def aloneTup (ts : Bool) : List (Option Tag × Index × V) → Bool
  | [] => true
  | (_, _, v) :: r => alone ts v && aloneTup ts r
def aloneRT (ts : Bool) : List (Option Tag × Label × Index × V) → Bool
  | [] => true
  | (_, _, _, v) :: r => alone ts v && aloneRT ts r
end

theorem alones_iff (ts : Bool) (L : List V) : alones ts L = true ↔ ∀ x ∈ L, alone ts x = true := by
  induction L with
  | nil => simp [alones]
  | cons x L ih => simp [alones, ih]
theorem aloneMap_iff (ts : Bool) (L : List (V × V)) : aloneMap ts L = true ↔ ∀ x ∈ L, alone ts x.1 = true ∧ alone ts x.2 = true := by
  induction L with
  | nil => simp [aloneMap]
  | cons x L ih => obtain ⟨k, v⟩ := x; simp [aloneMap, ih]
theorem aloneRec_iff (ts : Bool) (L : List (Option Tag × Label × V)) : aloneRec ts L = true ↔ ∀ x ∈ L, alone ts x.2.2 = true := by
  induction L with
  | nil => simp [aloneRec]
  | cons x L ih => obtain ⟨t, l, v⟩ := x; simp [aloneRec, ih]
theorem aloneTup_iff (ts : Bool) (L : List (Option Tag × Index × V)) : aloneTup ts L = true ↔ ∀ x ∈ L, alone ts x.2.2 = true := by
  induction L with
  | nil => simp [aloneTup]
  | cons x L ih => obtain ⟨t, l, v⟩ := x; simp [aloneTup, ih]
theorem aloneRT_iff (ts : Bool) (L : List (Option Tag × Label × Index × V)) : aloneRT ts L = true ↔ ∀ x ∈ L, alone ts x.2.2.2 = true := by
  induction L with
  | nil => simp [aloneRT]
  | cons x L ih => obtain ⟨t, l, i, v⟩ := x; simp [aloneRT, ih]

/-! ## What it prints -/

section
variable (env : Fmt.Env) (float : UInt64 → Text) (time : Int → Option Text)

/-- The calls of a tree print a text, or panic. -/
def Tells (ts : Bool) (v : V) (w : Option Text) : Prop := ∀ o, run (clockStep env float time) (toks v) ⟨o, ts⟩ =
  match w with
  | some t => .ok ⟨o ++ t, ts⟩
  | none => .panic

variable {env float time} {ts : Bool}

theorem tells_seq {n : Option Nat} {α : Type} (L : List α) (f : α → V) (g : α → Option Text) (h : ∀ x ∈ L, Tells env float time ts (f x) (g x)) :
    Tells env float time ts (.seq n (L.map f)) ((allO (L.map g)).map list) := by
  intro o
  have key : ∀ (o : Text), run (clockStep env float time) (toksSeq (L.map f) ++ [.seqEnd]) ⟨o, ts⟩ =
      match (allO (L.map g)).map fun xs => xs.flatMap (· ++ t! ", ") ++ t! "]" with
      | some t => .ok ⟨o ++ t, ts⟩
      | none => .panic := by
    induction L with
    | nil => intro o; simp [toksSeq, run, clockStep, flatStep, Res.bind, allO]
    | cons x L ih =>
      intro o
      have h1 := h x (by simp) o
      simp only [List.map_cons, toksSeq, List.cons_append, run_cons, clockStep, flatStep, Res.bind, List.append_assoc]
      rw [run_append, h1]
      cases g x with
      | none => simp [allO, Json.consO, Res.bind]
      | some t =>
        simp only [Res.bind, run_cons, clockStep, flatStep]
        rw [ih fun y hy => h y (by simp [hy])]
        cases hh : allO (L.map g) <;> simp [allO, Json.consO, hh]
  simp only [toks, run_cons, clockStep, flatStep, Res.bind]
  rw [key]
  cases allO (L.map g) <;> simp [list]

theorem tells_text (n : Option Nat) (fs : List (Frag Text)) :
    Tells env float time ts (.text n (fs.map (LowV.mkFrag clockCaps))) (some (flatText env (fs.map Frag.content))) := by
  intro o
  have key : ∀ (o : Text), run (clockStep env float time) ((fs.map (LowV.mkFrag clockCaps)).map textFragTok ++ [.textEnd]) ⟨o, ts⟩ =
      .ok ⟨o ++ (fs.map Frag.content).flatMap (escapeStr env) ++ t! "\"", ts⟩ := by
    induction fs with
    | nil => intro o; simp [run, clockStep, flatStep, Res.bind]
    | cons f fs ih =>
      intro o
      have : textFragTok (LowV.mkFrag clockCaps f) = .textFragmentComputed f.content := by cases f <;> rfl
      simp only [List.map_cons, List.cons_append, run_cons, this, clockStep, flatStep, Res.bind, ih]
      simp
  simp only [toks, run_cons, clockStep, flatStep, Res.bind]
  rw [key]
  simp [flatText]

theorem tells_tagged {m : Meta} {v : V} {w : Option Text} (ha : (ts && isTime m) = false) (h : Tells env float time (ts || isTime m) v w) :
    Tells env float time ts (.tagged m v) w := by
  intro o
  simp only [toks, run_cons, run_append, clockStep, Res.bind]
  have e1 : (if m.tag = some UNIX_TIMESTAMP then ({ out := o, is_unix_ts := true } : Clock) else ⟨o, ts⟩) = ⟨o, ts || isTime m⟩ := by
    by_cases hm : m.tag = some UNIX_TIMESTAMP <;> simp [hm, isTime]
  simp only [e1]
  rw [h o]
  cases w with
  | none => rfl
  | some t =>
    by_cases hm : m.tag = some UNIX_TIMESTAMP <;> simp_all [run, isTime]

theorem tells_label (l : Label) : Tells env float time ts (LowV.mkLabel clockCaps l) (some (flatText env [l.text])) := by
  have := tells_text (env := env) (float := float) (time := time) (ts := ts) (some (utf8Len l.text)) [.borrowed l.text]
  unfold LowV.mkLabel
  split <;> exact this

theorem tells_null : Tells env float time ts .null (some (t! "null")) := fun _ => rfl
theorem tells_i64 (v : Int) : Tells env float time ts (.int .i64 v) (some (intDec v)) := fun _ => rfl
theorem tells_u64 (v : Int) : Tells env float time ts (.int .u64 v) (toldU time ts v) := by
  intro o
  cases ts
  · rfl
  · simp only [toks, run, clockStep, toldU, if_true]
    cases time v <;> rfl

theorem tells_number (v : Int) : Tells env float time ts (LowV.mkNumber clockCaps v) (some (flatText env (intDecFrags v))) := by
  have := tells_text (env := env) (float := float) (time := time) (ts := ts) none ((intDecFrags v).map Frag.computed)
  simp only [List.map_map, Function.comp_def, Frag.content, List.map_id'] at this
  refine tells_tagged (m := { tag := some tags.NUMBER }) (by cases ts <;> rfl) ?_
  rw [show (ts || isTime { tag := some tags.NUMBER }) = ts by cases ts <;> rfl]
  exact this

theorem tells_int (t : IntTy) (v : Int) : Tells env float time ts (LowV.mkInt clockCaps t v) (toldInt (flatText env) time ts t v) := by
  have hu : Tells env float time ts (LowV.mkU128 clockCaps v) (some (if IntTy.i64.fits v then intDec v else flatText env (intDecFrags v))) := by
    unfold LowV.mkU128
    rw [if_neg (by decide)]
    split
    · exact tells_i64 v
    · exact tells_number v
  cases t <;> first
    | (simp only [toldInt, List.mem_cons, true_or, or_true, if_true]; exact tells_u64 v)
    | (simp only [toldInt, int, List.mem_cons, List.not_mem_nil, reduceCtorEq, or_false, false_or, if_false]; exact hu)
    | exact tells_i64 v

theorem tells_pair {k v : V} {s t : Option Text} (hk : Tells env float time ts k s) (hv : Tells env float time ts v t) :
    Tells env float time ts (LowV.mkPair clockCaps k v) ((allO [s, t]).map list) := by
  have := tells_seq (n := some 2) [(k, s), (v, t)] Prod.fst Prod.snd (env := env) (float := float) (time := time) (ts := ts) (by
    intro x hx
    simp only [List.mem_cons, List.not_mem_nil, or_false] at hx
    rcases hx with rfl | rfl <;> assumption)
  refine tells_tagged (m := {}) (by cases ts <;> rfl) ?_
  rw [show (ts || isTime {}) = ts by cases ts <;> rfl]
  exact this

theorem tells_lowV (v : V) : ∀ ts, alone ts v = true → Tells env float time ts (lowV clockCaps v) (told (flatText env) float time ts v) := by
  have hs : ∀ L, lowVs clockCaps L = L.map (lowV clockCaps) := by
    intro L; induction L with
    | nil => rfl
    | cons x L ih => simp [lowVs, ih]
  have hm : ∀ L, lowKVs clockCaps L = L.map fun x => (lowV clockCaps x.1, lowV clockCaps x.2) := by
    intro L; induction L with
    | nil => rfl
    | cons x L ih => simp [lowKVs, ih]
  have hr : ∀ L, lowRec clockCaps L = L.map fun x => (x.1, x.2.1, lowV clockCaps x.2.2) := by
    intro L; induction L with
    | nil => rfl
    | cons x L ih => simp [lowRec, ih]
  have ht : ∀ L, lowTup clockCaps L = L.map fun x => (x.1, x.2.1, lowV clockCaps x.2.2) := by
    intro L; induction L with
    | nil => rfl
    | cons x L ih => simp [lowTup, ih]
  have hrt : ∀ L, lowRT clockCaps L = L.map fun x => (x.1, x.2.1, x.2.2.1, lowV clockCaps x.2.2.2) := by
    intro L; induction L with
    | nil => rfl
    | cons x L ih => simp [lowRT, ih]
  induction v using V.ind with
  | null => exact fun _ _ => tells_null
  | bool b => exact fun _ _ _ => rfl
  | int t v => exact fun _ _ => tells_int t v
  | f32 b => exact fun _ _ _ => rfl
  | f64 b => exact fun _ _ _ => rfl
  | text n fs => exact fun _ _ => tells_text n fs
  | binary n fs =>
    intro ts _
    exact tells_seq (n := n) (fragsBytes fs) (fun b => LowV.mkU8 clockCaps b.toNat) (fun b => toldU time ts b.toNat) fun b _ => tells_u64 _
  | seq n xs ih =>
    intro ts ha
    rw [alone, alones_iff] at ha
    simp only [lowV, hs, told, toldSeq_map]
    exact tells_seq xs _ _ fun x hx => ih x hx ts (ha x hx)
  | map n kvs ih =>
    intro ts ha
    rw [alone, aloneMap_iff] at ha
    simp only [lowV, hm, told, toldMap_map]
    have := tells_seq (n := n) kvs (fun x => LowV.mkPair clockCaps (lowV clockCaps x.1) (lowV clockCaps x.2)) _
      (fun x hx => tells_pair ((ih x hx).1 ts (ha x hx).1) ((ih x hx).2 ts (ha x hx).2))
    simpa [LowV.mkMap, clockCaps, Caps.minimal, Function.comp_def] using this
  | tag m =>
    intro ts ha
    rw [alone, Bool.not_eq_true'] at ha
    simp only [lowV, LowV.mkTag, LowV.mkTagged, told]
    rw [if_neg (by decide), if_pos (by decide)]
    refine tells_tagged ha ?_
    split
    · exact tells_null
    · cases m.label with
      | none => exact tells_null
      | some l => exact tells_label l
  | tagged m v ih =>
    intro ts ha
    rw [alone, Bool.and_eq_true, Bool.not_eq_true'] at ha
    exact tells_tagged ha.1 (ih _ ha.2)
  | enum m v ih =>
    intro ts ha
    rw [alone, Bool.and_eq_true, Bool.not_eq_true'] at ha
    exact tells_tagged ha.1 (ih _ ha.2)
  | record m n fs ih =>
    intro ts ha
    rw [alone, Bool.and_eq_true, Bool.not_eq_true', aloneRec_iff] at ha
    simp only [lowV, hr, told, toldRec_map]
    have := tells_seq (n := n) fs (fun x => LowV.mkPair clockCaps (LowV.mkLabel clockCaps x.2.1) (lowV clockCaps x.2.2)) _
      (fun x hx => tells_pair (tells_label x.2.1) (ih x hx _ (ha.2 x hx)))
    refine tells_tagged ha.1 ?_
    simpa [LowV.mkMap, clockCaps, Caps.minimal, Function.comp_def] using this
  | tuple m n fs ih =>
    intro ts ha
    rw [alone, Bool.and_eq_true, Bool.not_eq_true', aloneTup_iff] at ha
    simp only [lowV, ht, told, toldTup_map]
    have := tells_seq (n := n) fs (fun x => lowV clockCaps x.2.2) _ fun x hx => ih x hx _ (ha.2 x hx)
    refine tells_tagged ha.1 ?_
    simpa [Function.comp_def] using this
  | recordTuple m n fs ih =>
    intro ts ha
    rw [alone, Bool.and_eq_true, Bool.not_eq_true', aloneRT_iff] at ha
    simp only [lowV, hrt, told, toldRT_map]
    have := tells_seq (n := n) fs (fun x => LowV.mkPair clockCaps (LowV.mkLabel clockCaps x.2.1) (lowV clockCaps x.2.2.2)) _
      (fun x hx => tells_pair (tells_label x.2.1) (ih x hx _ (ha.2 x hx)))
    refine tells_tagged ha.1 ?_
    simpa [LowV.mkMap, clockCaps, Caps.minimal, Function.comp_def] using this
  | hint t v ih => exact fun ts ha => ih ts ha

theorem run_clockStream (ts : List Token) : ∀ s, run (clockStream env float time) ts s = run (clockStep env float time) (Sval.lower clockCaps ts) s := by
  induction ts with
  | nil => intro o; rfl
  | cons t ts ih =>
    intro o
    rw [run_cons, lower_cons, run_append]
    simp only [clockStream]
    congr 1
    funext o
    exact ih o

end

end Sval.Examples
