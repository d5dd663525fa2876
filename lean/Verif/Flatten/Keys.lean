import Verif.Flatten.Run
import Verif.Flatten.NoAlloc

set_option autoImplicit false

/-!
# Keys, with and without an allocator

`Keys cfg e d ts d'`: inside a key, at depth `d`, the calls `ts` on a flattener that makes labels of keys are those
calls on its label buffer, fail when they do, and leave the depth `d'`.
-/

namespace Sval.Flatten

/-- Anything that holds for the single calls inside a value, and for calls one after the other, holds for a value. -/
theorem walk (R : Int → List Token → Int → Prop) (e : Bool) (nil : ∀ d, R d [] d)
    (app : ∀ d a d1 b d2, R d a d1 → R d1 b d2 → R d (a ++ b) d2)
    (leaf : ∀ d t, 0 < d → isLeaf t = true → R d [t] d)
    (opn : ∀ d t, 0 < d → isOpen t = true → R d [t] (d + 1))
    (mid : ∀ d t, 0 < d → d ≠ 1 → isMid t = true → R d [t] d)
    (cls : ∀ d t, 0 < d → d ≠ 1 → isClose t = true → R d [t] (d - 1))
    (tagB : ∀ d m, 0 < d → R d [.taggedBegin m] (if e then d + 1 else d))
    (tagE : ∀ d m, 0 < d → (e = true → d ≠ 1) → R d [.taggedEnd m] (if e then d - 1 else d))
    (v : V) : ∀ d, 0 < d → R d (toks v) d := by
  have leaves : ∀ (ts : List Token), (∀ t ∈ ts, isLeaf t = true) → ∀ d, 0 < d → R d ts d := by
    intro ts h
    induction ts with
    | nil => intro d _; exact nil d
    | cons t ts ih =>
      intro d hd
      exact app _ [t] _ _ _ (leaf d t hd (h t (by simp))) (ih (fun t ht => h t (by simp [ht])) d hd)
  have inner : ∀ (o f : Token) (ts : List Token), isOpen o = true → isClose f = true →
      (∀ d, 0 < d → d ≠ 1 → R d ts d) → ∀ d, 0 < d → R d (o :: (ts ++ [f])) d := by
    intro o f ts ho hf h d hd
    exact app _ [o] _ _ _ (opn d o hd ho) (app _ _ _ _ _ (h (d + 1) (by omega) (by omega))
      (by simpa using cls (d + 1) f (by omega) (by omega) hf))
  induction v using V.ind with
  | null => exact leaves _ (by simp [toks, isLeaf])
  | bool b => exact leaves _ (by simp [toks, isLeaf])
  | int t v => exact leaves _ (by simp [toks, isLeaf])
  | f32 b => exact leaves _ (by simp [toks, isLeaf])
  | f64 b => exact leaves _ (by simp [toks, isLeaf])
  | text n fs =>
    refine leaves _ fun t ht => ?_
    simp only [toks, List.mem_cons, List.mem_append, List.mem_map, List.not_mem_nil, or_false] at ht
    rcases ht with rfl | ⟨f, _, rfl⟩ | rfl
    · rfl
    · cases f <;> rfl
    · rfl
  | binary n fs =>
    refine leaves _ fun t ht => ?_
    simp only [toks, List.mem_cons, List.mem_append, List.mem_map, List.not_mem_nil, or_false] at ht
    rcases ht with rfl | ⟨f, _, rfl⟩ | rfl
    · rfl
    · cases f <;> rfl
    · rfl
  | seq n xs ih =>
    refine inner (.seqBegin n) .seqEnd (toksSeq xs) rfl rfl ?_
    induction xs with
    | nil => intro d _ _; exact nil d
    | cons x xs ih' =>
      intro d hd hd'
      have := app _ _ _ _ _ (mid d .seqValueBegin hd hd' rfl) (app _ _ _ _ _ (ih x (by simp) d hd)
        (app _ _ _ _ _ (mid d .seqValueEnd hd hd' rfl) (ih' (fun y hy => ih y (by simp [hy])) d hd hd')))
      simpa [toksSeq] using this
  | map n kvs ih =>
    refine inner (.mapBegin n) .mapEnd (toksMap kvs) rfl rfl ?_
    induction kvs with
    | nil => intro d _ _; exact nil d
    | cons x xs ih' =>
      intro d hd hd'
      obtain ⟨k, v⟩ := x
      have := app _ _ _ _ _ (mid d .mapKeyBegin hd hd' rfl) (app _ _ _ _ _ ((ih (k, v) (by simp)).1 d hd)
        (app _ _ _ _ _ (mid d .mapKeyEnd hd hd' rfl) (app _ _ _ _ _ (mid d .mapValueBegin hd hd' rfl)
          (app _ _ _ _ _ ((ih (k, v) (by simp)).2 d hd) (app _ _ _ _ _ (mid d .mapValueEnd hd hd' rfl)
            (ih' (fun y hy => ih y (by simp [hy])) d hd hd'))))))
      simpa [toksMap] using this
  | tag m => exact leaves _ (by simp [toks, isLeaf])
  | tagged m v ih =>
    intro d hd
    have h0 : 0 < (if e then d + 1 else d) := by split <;> omega
    have h1 := tagB d m hd
    have h2 := ih _ h0
    have h3 := tagE (if e then d + 1 else d) m h0 (fun h => by simp only [h, if_true]; omega)
    have := app _ _ _ _ _ h1 (app _ _ _ _ _ h2 h3)
    cases e <;> simpa [toks] using this
  | enum m v ih =>
    intro d hd
    have := app _ _ _ _ _ (leaf d (.enumBegin m) hd rfl) (app _ _ _ _ _ (ih d hd) (leaf d (.enumEnd m) hd rfl))
    simpa [toks] using this
  | record m n fs ih =>
    refine inner (.recordBegin m n) (.recordEnd m) (toksRec fs) rfl rfl ?_
    induction fs with
    | nil => intro d _ _; exact nil d
    | cons x xs ih' =>
      intro d hd hd'
      obtain ⟨t, l, x⟩ := x
      have := app _ _ _ _ _ (mid d (.recordValueBegin t l) hd hd' rfl) (app _ _ _ _ _ (ih (t, l, x) (by simp) d hd)
        (app _ _ _ _ _ (mid d (.recordValueEnd t l) hd hd' rfl) (ih' (fun y hy => ih y (by simp [hy])) d hd hd')))
      simpa [toksRec] using this
  | tuple m n fs ih =>
    refine inner (.tupleBegin m n) (.tupleEnd m) (toksTup fs) rfl rfl ?_
    induction fs with
    | nil => intro d _ _; exact nil d
    | cons x xs ih' =>
      intro d hd hd'
      obtain ⟨t, l, x⟩ := x
      have := app _ _ _ _ _ (mid d (.tupleValueBegin t l) hd hd' rfl) (app _ _ _ _ _ (ih (t, l, x) (by simp) d hd)
        (app _ _ _ _ _ (mid d (.tupleValueEnd t l) hd hd' rfl) (ih' (fun y hy => ih y (by simp [hy])) d hd hd')))
      simpa [toksTup] using this
  | recordTuple m n fs ih =>
    refine inner (.recordTupleBegin m n) (.recordTupleEnd m) (toksRT fs) rfl rfl ?_
    induction fs with
    | nil => intro d _ _; exact nil d
    | cons x xs ih' =>
      intro d hd hd'
      obtain ⟨t, l, i, x⟩ := x
      have := app _ _ _ _ _ (mid d (.recordTupleValueBegin t l i) hd hd' rfl)
        (app _ _ _ _ _ (ih (t, l, i, x) (by simp) d hd)
          (app _ _ _ _ _ (mid d (.recordTupleValueEnd t l i) hd hd' rfl) (ih' (fun y hy => ih y (by simp [hy])) d hd hd')))
      simpa [toksRT] using this
  | hint t v ih =>
    intro d hd
    exact app _ [_] _ _ _ (leaf d (.tagHint t) hd rfl) (ih d hd)

def Keys (cfg : Cfg) (e : Bool) (d : Int) (ts : List Token) (d' : Int) : Prop :=
  ∀ (σ : Type) (S : Token → σ → Res Unit σ) (l : LabelBuf) (seen : Bool) (alloc : Alloc) (key : LabelBuf) (s : σ),
    match run (LabelBuf.call cfg.alloc) ts l with
    | .ok l' => run (call cfg S) ts ⟨⟨⟨l, seen⟩, alloc, key, d, e, true⟩, s⟩ = .ok ⟨⟨⟨l', seen⟩, alloc, key, d', e, true⟩, s⟩
    | .err _ _ => ∃ c, run (call cfg S) ts ⟨⟨⟨l, seen⟩, alloc, key, d, e, true⟩, s⟩ = .err () ⟨c, s⟩
    | .panic => run (call cfg S) ts ⟨⟨⟨l, seen⟩, alloc, key, d, e, true⟩, s⟩ = .panic

theorem Keys.append {cfg : Cfg} {e : Bool} {d d1 d2 : Int} {a b : List Token} (h : Keys cfg e d a d1)
    (h' : Keys cfg e d1 b d2) : Keys cfg e d (a ++ b) d2 := by
  intro σ S l seen alloc key s
  have := h σ S l seen alloc key s
  rw [run_append, run_append]
  cases hr : run (LabelBuf.call cfg.alloc) a l with
  | ok l' =>
    rw [hr] at this
    simp only at this
    rw [this]
    exact h' σ S l' seen alloc key s
  | err u l' =>
    rw [hr] at this
    obtain ⟨c, this⟩ := this
    rw [this]
    exact ⟨c, rfl⟩
  | panic =>
    rw [hr] at this
    simp only at this
    rw [this]
    rfl

theorem keys_one {cfg : Cfg} (hl : cfg.kind.labelled) {e : Bool} {d d' : Int} {t : Token} (n : Int)
    (f : ∀ {σ : Type}, Act σ)
    (hc : ∀ (σ : Type) (S : Token → σ → Res Unit σ) (side : Side) (alloc : Alloc) (key : LabelBuf) (s : σ),
      call cfg S t ⟨⟨side, alloc, key, d, e, true⟩, s⟩ = (toLabel cfg S t ⟨⟨side, alloc, key, n, e, true⟩, s⟩).bind f)
    (hf : ∀ (σ : Type) (side : Side) (alloc : Alloc) (key : LabelBuf) (s : σ),
      f ⟨⟨side, alloc, key, n, e, true⟩, s⟩ = .ok ⟨⟨side, alloc, key, d', e, true⟩, s⟩) : Keys cfg e d [t] d' := by
  intro σ S l seen alloc key s
  rw [run_one, run_one, hc]
  have : toLabel cfg S t ⟨⟨⟨l, seen⟩, alloc, key, n, e, true⟩, s⟩ =
      match LabelBuf.call cfg.alloc t l with
      | .ok l => .ok ⟨⟨⟨l, seen⟩, alloc, key, n, e, true⟩, s⟩
      | .err u l => .err u ⟨⟨⟨l, seen⟩, alloc, key, n, e, true⟩, s⟩
      | .panic => .panic := by
    unfold toLabel
    rcases hl with h | h <;> rw [h] <;> rfl
  rw [this]
  cases LabelBuf.call cfg.alloc t l with
  | ok l' => exact hf _ _ _ _ _
  | err u l' => exact ⟨_, rfl⟩
  | panic => rfl

/-- A whole key. -/
theorem keys_value {cfg : Cfg} (hl : cfg.kind.labelled) (e : Bool) (v : V) : ∀ d, 0 < d → Keys cfg e d (toks v) d := by
  have pure : ∀ {σ : Type} (r : Res Unit (St σ)), r.bind Res.ok = r := fun r => by cases r <;> rfl
  have left : ∀ (d : Int), 0 < d → ∀ (σ : Type) (side : Side) (alloc : Alloc) (key : LabelBuf) (s : σ),
      leave cfg ⟨⟨side, alloc, key, d, e, true⟩, s⟩ = .ok ⟨⟨side, alloc, key, d - 1, e, true⟩, s⟩ := by
    intro d hd σ side alloc key s
    have hd0 : d ≠ 0 := by omega
    simp [leave, hd0]
  refine walk (fun d ts d' => Keys cfg e d ts d') e ?_ ?_ ?_ ?_ ?_ ?_ ?_ ?_ v
  · intro d σ S l seen alloc key s; rfl
  · intro d a d1 b d2 h h'; exact h.append h'
  · intro d t hd ht
    refine keys_one hl d Res.ok (fun σ S side alloc key s => ?_) fun _ _ _ _ _ => rfl
    rw [pure]
    cases t <;> first | exact Bool.noConfusion ht | simp [call, value, valueAtRoot, show d ≠ 0 by omega]
  · intro d t hd ht
    refine keys_one hl (d + 1) Res.ok (fun σ S side alloc key s => ?_) fun _ _ _ _ _ => rfl
    rw [pure]
    cases t <;> first | exact Bool.noConfusion ht | simp [call, opens, flattenableBegin]
  · intro d t hd hd' ht
    refine keys_one hl d Res.ok (fun σ S side alloc key s => ?_) fun _ _ _ _ _ => rfl
    rw [pure]
    cases t <;> first | exact Bool.noConfusion ht | simp [call, flattenableValue, hd']
  · intro d t hd hd' ht
    refine keys_one hl d (leave cfg) (fun σ S side alloc key s => ?_) (left d hd)
    cases t <;> first | exact Bool.noConfusion ht | simp [call, closes, flattenableEnd]
  · intro d m hd
    cases e with
    | true =>
      refine keys_one hl (d + 1) Res.ok (fun σ S side alloc key s => ?_) fun _ _ _ _ _ => rfl
      rw [pure]
      simp [call, flattenableBegin]
    | false =>
      refine keys_one hl d Res.ok (fun σ S side alloc key s => ?_) fun _ _ _ _ _ => rfl
      rw [pure]
      simp [call, value, valueAtRoot, show d ≠ 0 by omega]
  · intro d m hd hd'
    cases e with
    | true =>
      refine keys_one hl d (leave cfg) (fun σ S side alloc key s => ?_) (left d hd)
      simp [call, flattenableEnd]
    | false =>
      refine keys_one hl d Res.ok (fun σ S side alloc key s => ?_) fun _ _ _ _ _ => rfl
      rw [pure]
      simp [call, value, valueAtRoot, show d ≠ 0 by omega]

end Sval.Flatten
