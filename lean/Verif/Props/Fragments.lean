import Verif.Props.Compose

set_option autoImplicit false

/-!
# How texts and bytes are handed over makes no difference: C75
-/

namespace Sval

mutual
/-- A value with every text and binary in one computed fragment, without its size. -/
def bare : V → V
  | .text _ fs => .text none [.computed (fragsText fs)]
  | .binary _ fs => .binary none [.computed (fragsBytes fs)]
  | .seq n xs => .seq n (bareSeq xs)
  | .map n kvs => .map n (bareMap kvs)
  | .tagged m v => .tagged m (bare v)
  | .enum m v => .enum m (bare v)
  | .record m n fs => .record m n (bareRec fs)
  | .tuple m n fs => .tuple m n (bareTup fs)
  | .recordTuple m n fs => .recordTuple m n (bareRT fs)
  | .hint t v => .hint t (bare v)
  | .null => .null
  | .bool b => .bool b
  | .int t v => .int t v
  | .f32 b => .f32 b
  | .f64 b => .f64 b
  | .tag m => .tag m
def bareSeq : List V → List V
  | [] => []
  | x :: xs => bare x :: bareSeq xs
def bareMap : List (V × V) → List (V × V)
  | [] => []
  | (k, v) :: r => (bare k, bare v) :: bareMap r
def bareRec : List (Option Tag × Label × V) → List (Option Tag × Label × V)
  | [] => []
  | (t, l, v) :: r => (t, l, bare v) :: bareRec r
def bareTup : List (Option Tag × Index × V) → List (Option Tag × Index × V)
  | [] => []
  | (t, i, v) :: r => (t, i, bare v) :: bareTup r
def bareRT : List (Option Tag × Label × Index × V) → List (Option Tag × Label × Index × V)
  | [] => []
  | (t, l, i, v) :: r => (t, l, i, bare v) :: bareRT r
end

namespace Bare

theorem hollow_bare (e : Bool) (v : V) : Fmt.hollow e (bare v) = Fmt.hollow e v := by
  induction v using V.ind generalizing e with
  | binary h fs => simp [bare, Fmt.hollow, fragsBytes, Frag.content]
  | seq m xs _ => cases xs <;> rfl
  | map m kvs _ => cases kvs <;> rfl
  | record m n fs _ => cases fs <;> rfl
  | tuple m n fs _ => cases fs <;> rfl
  | recordTuple m n fs _ => cases fs <;> rfl
  | tagged m v ih => exact ih false
  | hint t v ih => exact ih e
  | _ => rfl

theorem layout_bare (env : Fmt.Env) (v : V) (n : Bool) : Fmt.layout env Fmt.twice n (bare v) = Fmt.layout env Fmt.twice n v := by
  induction v using V.ind generalizing n with
  | text h fs => simp [bare, Fmt.layout, fragsText, Frag.content]
  | binary h fs => simp [bare, Fmt.layout, fragsBytes, Frag.content]
  | seq m xs ih =>
    simp only [bare, Fmt.layout]; congr 1
    induction xs with
    | nil => rfl
    | cons x xs ih' => simp only [bareSeq, Fmt.layoutSeq, ih x (by simp), ih' (fun y hy => ih y (by simp [hy]))]
  | map m kvs ih =>
    simp only [bare, Fmt.layout]; congr 1
    induction kvs with
    | nil => rfl
    | cons kv r ih' =>
      obtain ⟨k, v⟩ := kv
      simp only [bareMap, Fmt.layoutMap, (ih (k, v) (by simp)).1, (ih (k, v) (by simp)).2, ih' (fun y hy => ih y (by simp [hy]))]
  | record m n fs ih =>
    simp only [bare, Fmt.layout]; congr 1
    induction fs with
    | nil => rfl
    | cons f r ih' =>
      obtain ⟨t, l, v⟩ := f
      simp only [bareRec, Fmt.layoutRec, ih (t, l, v) (by simp), ih' (fun y hy => ih y (by simp [hy]))]
  | tuple m n fs ih =>
    simp only [bare, Fmt.layout]; congr 2
    induction fs with
    | nil => rfl
    | cons f r ih' =>
      obtain ⟨t, l, v⟩ := f
      simp only [bareTup, Fmt.layoutTup, ih (t, l, v) (by simp), ih' (fun y hy => ih y (by simp [hy]))]
  | recordTuple m n fs ih =>
    simp only [bare, Fmt.layout]; congr 1
    induction fs with
    | nil => rfl
    | cons f r ih' =>
      obtain ⟨t, l, i, v⟩ := f
      simp only [bareRT, Fmt.layoutRT, ih (t, l, i, v) (by simp), ih' (fun y hy => ih y (by simp [hy]))]
  | tagged m v ih => simp only [bare, Through.layout_tagged, ih]
  | enum m v ih => simp only [bare, Fmt.layout, ih, Fmt.twice, hollow_bare]
  | hint t v ih => simp only [bare, Fmt.layout, ih]
  | _ => rfl

theorem seen_bare (v : V) : Nested.seen (bare v) = Nested.seen v := by
  induction v using V.ind with
  | text h fs => simp [bare, Nested.seen, fragsText, Frag.content]
  | binary h fs => simp [bare, Nested.seen, fragsBytes, Frag.content]
  | seq m xs ih =>
    simp only [bare, Nested.seen]; congr 1
    induction xs with
    | nil => rfl
    | cons x xs ih' => simp only [bareSeq, Nested.seenSeq, ih x (by simp), ih' (fun y hy => ih y (by simp [hy]))]
  | map m kvs ih =>
    simp only [bare, Nested.seen]; congr 1
    induction kvs with
    | nil => rfl
    | cons kv r ih' =>
      obtain ⟨k, v⟩ := kv
      simp only [bareMap, Nested.seenMap, (ih (k, v) (by simp)).1, (ih (k, v) (by simp)).2, ih' (fun y hy => ih y (by simp [hy]))]
  | record m n fs ih =>
    simp only [bare, Nested.seen]; congr 1
    induction fs with
    | nil => rfl
    | cons f r ih' =>
      obtain ⟨t, l, v⟩ := f
      simp only [bareRec, Nested.seenRec, ih (t, l, v) (by simp), ih' (fun y hy => ih y (by simp [hy]))]
  | tuple m n fs ih =>
    simp only [bare, Nested.seen]; congr 1
    induction fs with
    | nil => rfl
    | cons f r ih' =>
      obtain ⟨t, l, v⟩ := f
      simp only [bareTup, Nested.seenTup, ih (t, l, v) (by simp), ih' (fun y hy => ih y (by simp [hy]))]
  | recordTuple m n fs ih =>
    simp only [bare, Nested.seen]; congr 1
    induction fs with
    | nil => rfl
    | cons f r ih' =>
      obtain ⟨t, l, i, v⟩ := f
      simp only [bareRT, Nested.seenRT, ih (t, l, i, v) (by simp), ih' (fun y hy => ih y (by simp [hy]))]
  | tagged m v ih => simp only [bare, Nested.seen, ih]
  | enum m v ih => simp only [bare, Nested.seen, ih]
  | hint t v ih => simp only [bare, Nested.seen, ih]
  | _ => rfl

end Bare

/-! ## C75 -/

/-- C75. Two values that differ only in how their texts and binaries are split, in which fragments are borrowed, and in
the sizes announced for them, are formatted as the same text. -/
theorem C75_fmt (env : Fmt.Env) (v w : V) (h : bare v = bare w) :
    Fmt.toString env (valueOf v) = Fmt.toString env (valueOf w) := by
  rw [C26_exact, C26_exact, ← Bare.layout_bare, h, Bare.layout_bare]

theorem seen_of_bare (v w : V) (h : bare v = bare w) : Nested.seen v = Nested.seen w := by
  rw [← Bare.seen_bare v, h, Bare.seen_bare]

/-- C75. A recursive stream, with whichever methods, sees the same tree in both. -/
theorem C75_nested (I : Nested.Impl) (v w : V) (h : bare v = bare w) (hv : Nested.supported v = true) (b b' : Bool) :
    ∃ r, Nested.Gets I ⟨b, valueOf v⟩ r ∧ Nested.Gets I ⟨b', valueOf w⟩ r := by
  have hs := seen_of_bare v w h
  refine ⟨_, C61 I v hv b, ?_⟩
  rw [hs]
  exact C61 I w (by rw [← Nested.supported_seen, ← hs, Nested.supported_seen]; exact hv) b'

/-- C75. A serializer does the same with both, whether or not it fails. -/
theorem C75_serde {ε τ : Type} (custom : ε) (S : Serde.SCall ε τ → τ → Res ε τ) (v w : V) (h : bare v = bare w)
    (hv : Nested.supported v = true) :
    ∃ N, ∀ d ≥ N, ∀ t, Serde.serialize custom S d (valueOf v) t = Serde.serialize custom S d (valueOf w) t := by
  have hs := seen_of_bare v w h
  obtain ⟨N, h1⟩ := C37_calls custom S v hv
  obtain ⟨M, h2⟩ := C37_calls custom S w (by rw [← Nested.supported_seen, ← hs, Nested.supported_seen]; exact hv)
  refine ⟨max N M, fun d hd t => ?_⟩
  rw [h1 d (by omega) t, h2 d (by omega) t, ← (Serde.serV_seen custom S v).1, ← (Serde.serV_seen custom S w).1, hs]

/-- A value in pieces. -/
def inPieces : V := .map none [(.text none [.borrowed (t! "a"), .computed (t! "b\n")], .binary (some 3) [.computed [1], .borrowed [2, 3]])]
/-- The same, in one piece. -/
def inOne : V := .map none [(.text (some 3) [.borrowed (t! "ab\n")], .binary none [.borrowed [1, 2, 3]])]

example : bare inPieces = bare inOne ∧ Nested.supported inPieces = true ∧ inPieces ≠ inOne ∧
    Fmt.toString someEnv (valueOf inPieces) = some (t! "{ \"ab\\n\": [1, 2, 3] }") := by
  refine ⟨by simp [bare, bareMap, inPieces, inOne, fragsText, fragsBytes, Frag.content], by decide, ?_, by decide +kernel⟩
  intro h
  have h := congrArg (fun v => (toks v).length) h
  revert h
  decide +kernel

end Sval
