import Verif.Examples.Tags

set_option autoImplicit false

/-!
# The example with a tag of its own, for all values

`examples/tags.rs:45-56` clears the flag at the end of everything with the tag, also if it is in something else that has it.
So an integer is a time if the last tag before it, of those that were opened or closed, was opened.
-/

namespace Sval.Examples

open Rust (allO)

mutual
/-- Is there something that is tagged as a time? -/
def timed : V → Bool
  | .null | .bool _ | .int _ _ | .f32 _ | .f64 _ | .text _ _ | .binary _ _ => false
  | .seq _ xs => timedSeq xs
  | .map _ kvs => timedMap kvs
  | .tag m => isTime m
  | .tagged m v | .enum m v => isTime m || timed v
  | .record m _ fs => isTime m || timedRec fs
  | .tuple m _ fs => isTime m || timedTup fs
  | .recordTuple m _ fs => isTime m || timedRT fs
  | .hint _ v => timed v
def timedSeq : List V → Bool
  | [] => false
  | x :: xs => timed x || timedSeq xs
def timedMap : List (V × V) → Bool
  | [] => false
  | (k, v) :: r => timed k || timed v || timedMap r
def timedRec : List (Option Tag × Label × V) → Bool
  | [] => false
  | (_, _, v) :: r => timed v || timedRec r
def timedTup : List (Option Tag × Index × V) → Bool
  | [] => false
  | (_, _, v) :: r => timed v || timedTup r
def timedRT : List (Option Tag × Label × Index × V) → Bool
  | [] => false
  | (_, _, _, v) :: r => timed v || timedRT r
end

section
variable (txt : List Text → Text) (float : UInt64 → Text) (time : Int → Option Text)

mutual
/-- What is printed of a value. As `told`, but after something that is tagged as a time nothing is a time until something
is tagged as one again. -/
def heard (ts : Bool) : V → Option Text
  | .null => some (t! "null")
  | .bool b => some (if b then t! "true" else t! "false")
  | .int t v => toldInt txt time ts t v
  | .f32 b => some (float (widen b))
  | .f64 b => some (float b)
  | .text _ fs => some (txt (fs.map Frag.content))
  | .binary _ fs => (allO ((fragsBytes fs).map fun b => toldU time ts b.toNat)).map list
  | .seq _ xs => (allO (heardSeq ts xs)).map list
  | .map _ kvs => (allO (heardMap ts kvs)).map list
  | .tag m =>
    if m.tag = some tags.RUST_OPTION_NONE then some (t! "null")
    else
      match m.label with
      | some l => some (txt [l.text])
      | none => some (t! "null")
  | .tagged m v => heard (ts || isTime m) v
  | .enum m v => heard (ts || isTime m) v
  | .record m _ fs => (allO (heardRec (ts || isTime m) fs)).map list
  | .tuple m _ fs => (allO (heardTup (ts || isTime m) fs)).map list
  | .recordTuple m _ fs => (allO (heardRT (ts || isTime m) fs)).map list
  | .hint _ v => heard ts v
def heardSeq (ts : Bool) : List V → List (Option Text)
  | [] => []
  | x :: xs => heard ts x :: heardSeq (ts && !timed x) xs
def heardMap (ts : Bool) : List (V × V) → List (Option Text)
  | [] => []
  | (k, v) :: r => (allO [heard ts k, heard (ts && !timed k) v]).map list :: heardMap (ts && !(timed k || timed v)) r
def heardRec (ts : Bool) : List (Option Tag × Label × V) → List (Option Text)
  | [] => []
  | (_, l, v) :: r => (allO [some (txt [l.text]), heard ts v]).map list :: heardRec (ts && !timed v) r
def heardTup (ts : Bool) : List (Option Tag × Index × V) → List (Option Text)
  | [] => []
  | (_, _, v) :: r => heard ts v :: heardTup (ts && !timed v) r
def heardRT (ts : Bool) : List (Option Tag × Label × Index × V) → List (Option Text)
  | [] => []
  | (_, l, _, v) :: r => (allO [some (txt [l.text]), heard ts v]).map list :: heardRT (ts && !timed v) r
end

end

section
variable (env : Fmt.Env) (float : UInt64 → Text) (time : Int → Option Text)

/-- The calls of a tree print a text and leave the flag so, or panic. -/
def Turns (ts ts' : Bool) (v : V) (w : Option Text) : Prop := ∀ o, run (clockStep env float time) (toks v) ⟨o, ts⟩ =
  match w with
  | some t => .ok ⟨o ++ t, ts'⟩
  | none => .panic

variable {env float time} {ts ts' : Bool}

/-- The texts of elements, each of which is printed with the flag that those before it leave. -/
def threaded {α : Type} (g : Bool → α → Option Text) (d : α → Bool) : Bool → List α → List (Option Text)
  | _, [] => []
  | ts, x :: xs => g ts x :: threaded g d (ts && !d x) xs

theorem turns_seq {n : Option Nat} {α : Type} (L : List α) (f : α → V) (g : Bool → α → Option Text) (d : α → Bool)
    (h : ∀ x ∈ L, ∀ ts, Turns env float time ts (ts && !d x) (f x) (g ts x)) :
    Turns env float time ts (ts && !L.any d) (.seq n (L.map f)) ((allO (threaded g d ts L)).map list) := by
  intro o
  have key : ∀ (o : Text) (ts : Bool), run (clockStep env float time) (toksSeq (L.map f) ++ [.seqEnd]) ⟨o, ts⟩ =
      match (allO (threaded g d ts L)).map fun xs => xs.flatMap (· ++ t! ", ") ++ t! "]" with
      | some t => .ok ⟨o ++ t, ts && !L.any d⟩
      | none => .panic := by
    induction L with
    | nil => intro o ts; simp [toksSeq, run, clockStep, flatStep, Res.bind, allO, threaded]
    | cons x L ih =>
      intro o ts
      have h1 := h x (by simp) ts o
      simp only [List.map_cons, toksSeq, List.cons_append, run_cons, clockStep, flatStep, Res.bind, List.append_assoc]
      rw [run_append, h1]
      cases hg : g ts x with
      | none => simp [threaded, hg, allO, Json.consO, Res.bind]
      | some t =>
        simp only [Res.bind, run_cons, clockStep, flatStep]
        rw [ih fun y hy => h y (by simp [hy])]
        cases hh : allO (threaded g d (ts && !d x) L) <;> simp [threaded, hg, allO, Json.consO, hh, Bool.and_assoc]
  simp only [toks, run_cons, clockStep, flatStep, Res.bind]
  rw [key]
  cases allO (threaded g d ts L) <;> simp [list]

theorem Turns.of_tells {v : V} {w : Option Text} (h : Tells env float time ts v w) : Turns env float time ts ts v w := h

theorem turns_tagged {m : Meta} {v : V} {w : Option Text} (h : Turns env float time (ts || isTime m) ts' v w) :
    Turns env float time ts (!isTime m && ts') (.tagged m v) w := by
  intro o
  simp only [toks, run_cons, run_append, clockStep, Res.bind]
  have e1 : (if m.tag = some UNIX_TIMESTAMP then ({ out := o, is_unix_ts := true } : Clock) else ⟨o, ts⟩) = ⟨o, ts || isTime m⟩ := by
    by_cases hm : m.tag = some UNIX_TIMESTAMP <;> simp [hm, isTime]
  simp only [e1]
  rw [h o]
  cases w with
  | none => rfl
  | some t =>
    by_cases hm : m.tag = some UNIX_TIMESTAMP <;> simp_all [run, isTime]

theorem turns_pair {k v : V} {s t : Option Text} {a b : Bool} (hk : Turns env float time ts a k s) (hv : Turns env float time a b v t) :
    Turns env float time ts b (LowV.mkPair clockCaps k v) ((allO [s, t]).map list) := by
  have : Turns env float time ts b (.seq (some 2) [k, v]) ((allO [s, t]).map list) := by
    intro o
    simp only [toks, toksSeq, run_cons, run_append, clockStep, flatStep, Res.bind, List.append_assoc, List.cons_append, List.nil_append]
    rw [hk]
    cases s with
    | none => simp [allO, Json.consO]
    | some s =>
      dsimp only
      rw [hv]
      cases t with
      | none => simp [allO, Json.consO]
      | some t => simp [run, allO, Json.consO, list]
  have h := turns_tagged (m := {}) (ts := ts) (ts' := b) (by rw [show (ts || isTime {}) = ts by cases ts <;> rfl]; exact this)
  rw [show (!isTime {} && b) = b by cases b <;> rfl] at h
  exact h

theorem turns_lowV (v : V) : ∀ ts, Turns env float time ts (ts && !timed v) (lowV clockCaps v) (heard (flatText env) float time ts v) := by
  have hs : ∀ L, lowVs clockCaps L = L.map (lowV clockCaps) := by
    intro L; induction L with
    | nil => rfl
    | cons x L ih => simp [lowVs, ih]
  have hm : ∀ L, lowKVs clockCaps L = L.map fun x => (lowV clockCaps x.1, lowV clockCaps x.2) := by
    intro L; induction L with
    | nil => rfl
    | cons x L ih => simp [lowKVs, ih]
  have hr : ∀ L, lowRec clockCaps L = L.map fun x => (x.1, x.2.1, lowV clockCaps x.2.2) := by
    intro L; induction L with
    | nil => rfl
    | cons x L ih => simp [lowRec, ih]
  have ht : ∀ L, lowTup clockCaps L = L.map fun x => (x.1, x.2.1, lowV clockCaps x.2.2) := by
    intro L; induction L with
    | nil => rfl
    | cons x L ih => simp [lowTup, ih]
  have hrt : ∀ L, lowRT clockCaps L = L.map fun x => (x.1, x.2.1, x.2.2.1, lowV clockCaps x.2.2.2) := by
    intro L; induction L with
    | nil => rfl
    | cons x L ih => simp [lowRT, ih]
  have flag : ∀ ts : Bool, (ts && !false) = ts := by decide
  have outer : ∀ (ts t d : Bool), (!t && ((ts || t) && !d)) = (ts && !(t || d)) := by decide
  induction v using V.ind with
  | null => exact fun ts => by rw [timed, flag]; exact .of_tells tells_null
  | bool b => exact fun ts => by rw [timed, flag]; exact fun _ => rfl
  | int t v => exact fun ts => by rw [timed, flag]; exact .of_tells (tells_int t v)
  | f32 b => exact fun ts => by rw [timed, flag]; exact fun _ => rfl
  | f64 b => exact fun ts => by rw [timed, flag]; exact fun _ => rfl
  | text n fs => exact fun ts => by rw [timed, flag]; exact .of_tells (tells_text n fs)
  | binary n fs =>
    intro ts
    rw [timed, flag]
    exact .of_tells (tells_seq (n := n) (fragsBytes fs) (fun b => LowV.mkU8 clockCaps b.toNat) (fun b => toldU time ts b.toNat)
      fun b _ => tells_u64 _)
  | seq n xs ih =>
    intro ts
    have := turns_seq (n := n) (ts := ts) xs (lowV clockCaps) (heard (flatText env) float time) timed ih
    simp only [lowV, hs, heard, timed]
    have e1 : ∀ (L : List V) ts, threaded (heard (flatText env) float time) timed ts L = heardSeq (flatText env) float time ts L := by
      intro L; induction L with
      | nil => intro; rfl
      | cons x L ih => intro ts; rw [threaded, ih]; rfl
    have e2 : ∀ L : List V, L.any timed = timedSeq L := by
      intro L; induction L with
      | nil => rfl
      | cons x L ih => rw [List.any_cons, ih]; rfl
    rw [e1, e2] at this
    exact this
  | map n kvs ih =>
    intro ts
    have := turns_seq (n := n) (ts := ts) kvs (fun x => LowV.mkPair clockCaps (lowV clockCaps x.1) (lowV clockCaps x.2))
      (fun ts x => (allO [heard (flatText env) float time ts x.1, heard (flatText env) float time (ts && !timed x.1) x.2]).map list)
      (fun x => timed x.1 || timed x.2) (fun x hx ts => by
        have := turns_pair ((ih x hx).1 ts) ((ih x hx).2 (ts && !timed x.1))
        rw [show (ts && !timed x.1 && !timed x.2) = (ts && !(timed x.1 || timed x.2)) by simp [Bool.and_assoc]] at this
        exact this)
    simp only [lowV, hm, heard, timed]
    have e1 : ∀ (L : List (V × V)) ts, threaded (fun ts (x : V × V) => (allO [heard (flatText env) float time ts x.1,
        heard (flatText env) float time (ts && !timed x.1) x.2]).map list) (fun x => timed x.1 || timed x.2) ts L =
        heardMap (flatText env) float time ts L := by
      intro L; induction L with
      | nil => intro; rfl
      | cons x L ih => intro ts; rw [threaded, ih]; rfl
    have e2 : ∀ L : List (V × V), (L.any fun x => timed x.1 || timed x.2) = timedMap L := by
      intro L; induction L with
      | nil => rfl
      | cons x L ih => rw [List.any_cons, ih]; rfl
    rw [e1, e2] at this
    simpa [LowV.mkMap, clockCaps, Caps.minimal, Function.comp_def] using this
  | tag m =>
    intro ts
    simp only [lowV, LowV.mkTag, LowV.mkTagged, heard, timed]
    rw [if_neg (by decide), if_pos (by decide)]
    rw [show (ts && !isTime m) = (!isTime m && (ts || isTime m)) by cases ts <;> cases isTime m <;> rfl]
    refine turns_tagged ?_
    split
    · exact .of_tells tells_null
    · cases m.label with
      | none => exact .of_tells tells_null
      | some l => exact .of_tells (tells_label l)
  | tagged m v ih =>
    intro ts
    rw [timed, ← outer]
    exact turns_tagged (ih _)
  | enum m v ih =>
    intro ts
    rw [timed, ← outer]
    exact turns_tagged (ih _)
  | record m n fs ih =>
    intro ts
    have := turns_seq (n := n) (ts := ts || isTime m) fs (fun x => LowV.mkPair clockCaps (LowV.mkLabel clockCaps x.2.1) (lowV clockCaps x.2.2))
      (fun ts x => (allO [some (flatText env [x.2.1.text]), heard (flatText env) float time ts x.2.2]).map list)
      (fun x => timed x.2.2) (fun x hx ts => turns_pair (.of_tells (tells_label x.2.1)) (ih x hx ts))
    simp only [lowV, hr, heard]
    rw [timed, ← outer]
    refine turns_tagged ?_
    have e1 : ∀ (L : List (Option Tag × Label × V)) ts, threaded (fun ts (x : Option Tag × Label × V) =>
        (allO [some (flatText env [x.2.1.text]), heard (flatText env) float time ts x.2.2]).map list) (fun x => timed x.2.2) ts L =
        heardRec (flatText env) float time ts L := by
      intro L; induction L with
      | nil => intro; rfl
      | cons x L ih => intro ts; rw [threaded, ih]; rfl
    have e2 : ∀ L : List (Option Tag × Label × V), (L.any fun x => timed x.2.2) = timedRec L := by
      intro L; induction L with
      | nil => rfl
      | cons x L ih => rw [List.any_cons, ih]; rfl
    rw [e1, e2] at this
    simpa [LowV.mkMap, clockCaps, Caps.minimal, Function.comp_def] using this
  | tuple m n fs ih =>
    intro ts
    have := turns_seq (n := n) (ts := ts || isTime m) fs (fun x => lowV clockCaps x.2.2)
      (fun ts x => heard (flatText env) float time ts x.2.2) (fun x => timed x.2.2) (fun x hx ts => ih x hx ts)
    simp only [lowV, ht, heard]
    rw [timed, ← outer]
    refine turns_tagged ?_
    have e1 : ∀ (L : List (Option Tag × Index × V)) ts, threaded (fun ts (x : Option Tag × Index × V) =>
        heard (flatText env) float time ts x.2.2) (fun x => timed x.2.2) ts L = heardTup (flatText env) float time ts L := by
      intro L; induction L with
      | nil => intro; rfl
      | cons x L ih => intro ts; rw [threaded, ih]; rfl
    have e2 : ∀ L : List (Option Tag × Index × V), (L.any fun x => timed x.2.2) = timedTup L := by
      intro L; induction L with
      | nil => rfl
      | cons x L ih => rw [List.any_cons, ih]; rfl
    rw [e1, e2] at this
    simpa [Function.comp_def] using this
  | recordTuple m n fs ih =>
    intro ts
    have := turns_seq (n := n) (ts := ts || isTime m) fs (fun x => LowV.mkPair clockCaps (LowV.mkLabel clockCaps x.2.1) (lowV clockCaps x.2.2.2))
      (fun ts x => (allO [some (flatText env [x.2.1.text]), heard (flatText env) float time ts x.2.2.2]).map list)
      (fun x => timed x.2.2.2) (fun x hx ts => turns_pair (.of_tells (tells_label x.2.1)) (ih x hx ts))
    simp only [lowV, hrt, heard]
    rw [timed, ← outer]
    refine turns_tagged ?_
    have e1 : ∀ (L : List (Option Tag × Label × Index × V)) ts, threaded (fun ts (x : Option Tag × Label × Index × V) =>
        (allO [some (flatText env [x.2.1.text]), heard (flatText env) float time ts x.2.2.2]).map list) (fun x => timed x.2.2.2) ts L =
        heardRT (flatText env) float time ts L := by
      intro L; induction L with
      | nil => intro; rfl
      | cons x L ih => intro ts; rw [threaded, ih]; rfl
    have e2 : ∀ L : List (Option Tag × Label × Index × V), (L.any fun x => timed x.2.2.2) = timedRT L := by
      intro L; induction L with
      | nil => rfl
      | cons x L ih => rw [List.any_cons, ih]; rfl
    rw [e1, e2] at this
    simpa [LowV.mkMap, clockCaps, Caps.minimal, Function.comp_def] using this
  | hint t v ih => exact fun ts => ih ts

end

end Sval.Examples
