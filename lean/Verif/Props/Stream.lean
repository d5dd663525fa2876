import Verif.Core.LowerDen
import Verif.Core.Unique
import Verif.Core.Prog
import Verif.Core.Extract

set_option autoImplicit false

/-!
# Properties of the `Stream` defaults and of the wrappers: C01 to C06
-/

namespace Sval

/-! ## C01, C02 -/

/-- C01. Whatever a stream overrides, a well-formed value arrives as a well-formed value, made only
of calls the stream implements. -/
theorem C01_lowering_balanced (c : Caps) (v : V) :
    ∃ v' : V, lower c (toks v) = toks v' ∧ ∀ t ∈ lower c (toks v), c.native t = true :=
  ⟨lowV c v, lower_toks c v, native_lower c (toks v)⟩

/-- A record reaches a stream with maps as a map, and one without as a sequence of pairs. -/
example :
    let r : V := .record {} (some 1) [(none, { text := t! "a" }, .bool true)]
    lower { Caps.minimal with map := true } (toks r) =
      toks (.map (some 1) [(.text (some 1) [.computed (t! "a")], .bool true)]) ∧
    lower .minimal (toks r) =
      toks (.seq (some 1) [.seq (some 2) [.text (some 1) [.computed (t! "a")], .bool true]]) := by
  decide +kernel

/-- Call sequences spell out at most one tree, so the tree in `C01` is determined by what arrives. -/
theorem C01_tree_unique {v w : V} (h : toks v = toks w) : v = w := toks_inj h

example : (V.seq none [.seq none [], .null]) ≠ .seq none [.seq none [.null]] :=
  fun h => absurd (congrArg toks h) (by decide +kernel)

/-- No proper prefix of a well-formed value is a well-formed value, so a receiver knows when a
value is over. -/
theorem C01_no_early_end (v w : V) (r : List Token) (h : toks v = toks w ++ r) : r = [] := by
  have := (toks_readable v) w [] r (by simpa using h)
  exact this.2.symm

/-- Nothing that ends one call early is a whole value. -/
example : ¬ ∃ w, toks (.seq none [.seq none []]) = toks w ++ [.seqEnd] :=
  fun ⟨w, h⟩ => nomatch C01_no_early_end _ w _ h

/-- C02. Whatever a stream overrides, the tree that arrives carries the same data. -/
theorem C02_lowering_preserves_data (c : Caps) (v v' : V) (h : lower c (toks v) = toks v') :
    den v' = den v := by
  rw [lower_toks] at h
  rw [← toks_inj h, den_lowV]

/-- Bytes arrive as a sequence of integers: the same data. -/
example : den (.seq (some 1) [.int .i64 7]) = den (.binary (some 1) [.borrowed [7]]) :=
  C02_lowering_preserves_data .minimal (.binary (some 1) [.borrowed [7]]) _ (by decide +kernel)

/-- C02. Two streams that override different methods receive the same data. -/
theorem C02_independent_of_overrides (c c' : Caps) (v w w' : V)
    (h : lower c (toks v) = toks w) (h' : lower c' (toks v) = toks w') : den w = den w' := by
  rw [C02_lowering_preserves_data c v w h, C02_lowering_preserves_data c' v w' h']

/-- A stream with a partial implementation `step`, completed with the default methods: each call is
replaced by its fallback calls. -/
def completed {ε σ : Type} (c : Caps) (step : Token → σ → Res ε σ) (t : Token) (s : σ) : Res ε σ :=
  run step (Low.tok c t) s

/-- C02. Driving a stream through its defaults is driving its own methods with the lowered calls,
errors and panics included. -/
theorem C02_run_completed {ε σ : Type} (c : Caps) (step : Token → σ → Res ε σ)
    (ts : List Token) (s : σ) : run (completed c step) ts s = run step (lower c ts) s := by
  induction ts generalizing s with
  | nil => rfl
  | cons t ts ih =>
    rw [run_cons, lower, List.flatMap_cons, run_append]
    unfold completed
    congr 1
    funext s'
    exact ih s'

/-- Tag hints are not part of the data. -/
def dropHints (ts : List Token) : List Token :=
  ts.filter fun t => match t with | .tagHint _ => false | _ => true

/-- C02. Hints can appear between any two calls; the defaults neither lose other calls around them
nor invent hints. -/
theorem C02_hints_anywhere (c : Caps) (ts : List Token) :
    dropHints (lower c ts) = lower c (dropHints ts) := by
  have inv : ∀ t : Token, (∀ h, t ≠ .tagHint h) → dropHints (Low.tok c t) = Low.tok c t := by
    intro t ht
    have hl : ∀ l, dropHints (Low.labelValue c l) = Low.labelValue c l := by
      intro l
      cases l with
      | mk text backing tag =>
        cases backing <;> simp only [Low.labelValue, Low.textValue, Low.textValueComputed,
          Low.textFragment] <;> (try split) <;> rfl
    have app : ∀ xs ys, dropHints (xs ++ ys) = dropHints xs ++ dropHints ys := by
      intro xs ys; simp [dropHints]
    have hn : ∀ v, dropHints (Low.number c v) = Low.number c v := by
      intro v
      simp only [Low.number, Low.taggedBegin, Low.taggedEnd, app]
      have e : dropHints ((intDecFrags v).map .textFragmentComputed)
          = (intDecFrags v).map .textFragmentComputed := by
        generalize intDecFrags v = fs
        induction fs with
        | nil => rfl
        | cons f fs ih => simp [dropHints]
      rw [e]
      split <;> rfl
    have h128 : ∀ v, dropHints (Low.u128 c v) = Low.u128 c v := by
      intro v; simp only [Low.u128]; (repeat' split) <;> first | rfl | exact hn v
    have hb : ∀ b : UInt8, dropHints (Low.u8 c b.toNat) = Low.u8 c b.toNat := by
      intro b
      simp only [Low.u8, Low.u16, Low.u32, Low.u64]
      (repeat' split) <;> first | rfl | exact h128 _
    have hfc : ∀ s : Bytes, dropHints (Low.binaryFragmentComputed c s)
        = Low.binaryFragmentComputed c s := by
      intro s
      simp only [Low.binaryFragmentComputed]
      split
      · rfl
      · induction s with
        | nil => rfl
        | cons b s ih => rw [List.flatMap_cons, app, ih, app, app, hb]; rfl
    cases t with
    | tagHint h => exact absurd rfl (ht h)
    | int ty v =>
      cases ty <;> simp only [Low.tok, Low.int, Low.u8, Low.u16, Low.u32, Low.u64, Low.u128, Low.i8,
        Low.i16, Low.i32, Low.i64, Low.i128] <;> (repeat' split) <;> first | rfl | exact hn _
    | binaryFragmentComputed s => exact hfc s
    | binaryFragment s =>
      simp only [Low.tok, Low.binaryFragment]
      split
      · rfl
      · exact hfc s
    | tag m =>
      simp only [Low.tok, Low.tag, Low.taggedBegin, Low.taggedEnd]
      (repeat' split) <;> first | rfl | (simp only [app, hl]; rfl)
    | recordValueBegin t l =>
      simp only [Low.tok, Low.recordValueBegin, Low.mapKeyBegin, Low.mapKeyEnd, Low.mapValueBegin,
        Low.tupleBegin, Low.tupleValueBegin, Low.tupleValueEnd, Low.taggedBegin]
      (repeat' split) <;> first | rfl | (simp only [app, hl]; rfl)
    | recordTupleValueBegin t l i =>
      simp only [Low.tok, Low.recordTupleValueBegin, Low.recordValueBegin, Low.mapKeyBegin,
        Low.mapKeyEnd, Low.mapValueBegin, Low.tupleBegin, Low.tupleValueBegin, Low.tupleValueEnd,
        Low.taggedBegin]
      (repeat' split) <;> first | rfl | (simp only [app, hl]; rfl)
    | _ =>
      simp only [Low.tok, Low.f32, Low.textFragment, Low.binaryBegin, Low.binaryEnd, Low.mapBegin,
        Low.mapKeyBegin, Low.mapKeyEnd, Low.mapValueBegin, Low.mapValueEnd, Low.mapEnd,
        Low.enumBegin, Low.enumEnd, Low.taggedBegin, Low.taggedEnd, Low.recordBegin,
        Low.recordValueEnd, Low.recordEnd, Low.tupleBegin, Low.tupleValueBegin, Low.tupleValueEnd,
        Low.tupleEnd, Low.recordTupleBegin, Low.recordTupleValueEnd, Low.recordTupleEnd]
      (repeat' split) <;> rfl
  induction ts with
  | nil => rfl
  | cons t ts ih =>
    have app : dropHints (lower c (t :: ts)) = dropHints (Low.tok c t) ++ dropHints (lower c ts) := by
      simp [lower, dropHints]
    rw [app, ih]
    cases t with
    | tagHint h =>
      have : dropHints (Low.tok c (.tagHint h)) = [] := by
        simp only [Low.tok, Low.tagHint]; split <;> rfl
      rw [this]; rfl
    | _ => rw [inv _ (by intro h; simp)]; rfl

/-- A record with an option, an integer beyond 64 bits and bytes, seen by a minimal stream. -/
def exampleRecord : V :=
  .record { label := some { text := t! "R" } } (some 3)
    [ (none, { text := t! "a" }, .tag { tag := some tags.RUST_OPTION_NONE }),
      (none, { text := t! "b" }, .int .u64 18446744073709551615),
      (none, { text := t! "c" }, .hint tags.NUMBER (.binary (some 1) [.borrowed [7]])) ]

example : lower .minimal (toks exampleRecord) =
    [ .seqBegin (some 3),
      .seqValueBegin, .seqBegin (some 2),
      .seqValueBegin, .textBegin (some 1), .textFragmentComputed (t! "a"), .textEnd, .seqValueEnd,
      .seqValueBegin, .null, .seqValueEnd, .seqEnd, .seqValueEnd,
      .seqValueBegin, .seqBegin (some 2),
      .seqValueBegin, .textBegin (some 1), .textFragmentComputed (t! "b"), .textEnd, .seqValueEnd,
      .seqValueBegin, .textBegin none, .textFragmentComputed (t! "18446744073709551615"), .textEnd,
      .seqValueEnd, .seqEnd, .seqValueEnd,
      .seqValueBegin, .seqBegin (some 2),
      .seqValueBegin, .textBegin (some 1), .textFragmentComputed (t! "c"), .textEnd, .seqValueEnd,
      .seqValueBegin, .seqBegin (some 1), .seqValueBegin, .int .i64 7, .seqValueEnd, .seqEnd,
      .seqValueEnd, .seqEnd, .seqValueEnd, .seqEnd ] := by
  decide +kernel

/-! ## C03 -/

/-- The canonical decimal spelling: reads back as the number, no leading zeros, no plus sign. -/
structure CanonicalDec (s : Text) (v : Int) : Prop where
  reads : readInt s = some v
  sign : s.head? = some '-' ↔ v < 0
  noLeadingZero : ∀ r, s = '0' :: r → r = []
  noLeadingZeroNeg : ∀ r, s ≠ '-' :: '0' :: r

theorem intDec_canonical (v : Int) : CanonicalDec (intDec v) v := by
  have hne : ∀ n : Nat, (natDec n).head? ≠ some '-' := by
    intro n h
    cases hd : natDec n with
    | nil => exact natDec_ne_nil n hd
    | cons c r =>
      have := List.all_eq_true.1 (natDec_digits n) c (by rw [hd]; simp)
      rw [hd] at h
      simp at h
      subst h
      revert this; decide
  refine ⟨readInt_intDec v, ?_, ?_, ?_⟩
  · unfold intDec
    split
    · simp [*]
    · constructor
      · intro h; exact absurd h (hne _)
      · intro h; omega
  · intro r h
    unfold intDec at h
    split at h
    · simp at h
    · rcases Nat.eq_zero_or_pos v.natAbs with h0 | h0
      · rw [h0, natDec_zero] at h; simpa using h.symm
      · exact absurd (show (natDec v.natAbs).head? = some _ by rw [h]; rfl) (natDec_head _ (by omega))
  · intro r h
    unfold intDec at h
    split at h
    · have h0 : 0 < v.natAbs := by omega
      simp at h
      exact absurd (show (natDec v.natAbs).head? = some _ by rw [h]; rfl) (natDec_head _ (by omega))
    · exact absurd (by rw [h]; rfl) (hne v.natAbs)

/-- The two ways an integer can arrive. -/
def Widened (c : Caps) (v : Int) (ts : List Token) : Prop :=
  (∃ t' : IntTy, ts = [.int t' v] ∧ t'.fits v = true) ∨
    (IntTy.i64.fits v = false ∧ ts = Low.number c v)

theorem int_widening (c : Caps) (t : IntTy) (v : Int) (h : t.fits v = true) :
    Widened c v (Low.int c t v) := by
  have up : ∀ (b : Bool) (t : IntTy) (ts : List Token), t.fits v = true → Widened c v ts →
      Widened c v (if b then [.int t v] else ts) := by
    intro b t ts h1 h2
    cases b
    · exact h2
    · exact Or.inl ⟨t, rfl, h1⟩
  have fit : ∀ t' : IntTy, t'.min ≤ v → v ≤ t'.max → t'.fits v = true := by
    intro t' h1 h2; rw [IntTy.fits_iff]; exact ⟨h1, h2⟩
  have base : Widened c v (if IntTy.i64.fits v then [.int .i64 v] else Low.number c v) := by
    cases hf : IntTy.i64.fits v
    · exact Or.inr ⟨hf, rfl⟩
    · exact Or.inl ⟨.i64, rfl, hf⟩
  have i64 : IntTy.i64.fits v = true → Widened c v (Low.i64 v) := fun h => Or.inl ⟨.i64, rfl, h⟩
  rw [IntTy.fits_iff] at h
  cases t <;> simp only [IntTy.min, IntTy.max] at h <;>
    simp only [Low.int, Low.u8, Low.u16, Low.u32, Low.u64, Low.u128, Low.i8, Low.i16, Low.i32,
      Low.i128] <;>
    (repeat' (first | exact base | (refine up _ _ _ (fit _ ?_ ?_) ?_))) <;>
    first
    | (simp only [IntTy.min, IntTy.max]; omega)
    | (refine i64 (fit _ ?_ ?_) <;> simp only [IntTy.min, IntTy.max] <;> omega)

/-- C03. An integer of any width arrives, at a stream that overrides any subset of the integer
methods, either through one integer method wide enough for it with its value unchanged, or, only
when it is outside the `i64` range, as text that is its canonical decimal spelling, wrapped in a
`NUMBER` tag if the stream knows tags. -/
theorem C03_integer_widening_exact (c : Caps) (t : IntTy) (v : Int) (h : t.fits v = true) :
    (∃ t' : IntTy, lower c [.int t v] = [.int t' v] ∧ t'.fits v = true ∧
      c.native (.int t' v) = true) ∨
    (IntTy.i64.fits v = false ∧ ∃ frags : List Text,
      lower c [.int t v] =
        (if c.tagged then [.taggedBegin { tag := some tags.NUMBER }] else []) ++
          (.textBegin none :: (frags.map .textFragmentComputed ++ [.textEnd])) ++
          (if c.tagged then [.taggedEnd { tag := some tags.NUMBER }] else []) ∧
      CanonicalDec frags.flatten v) := by
  have hl : lower c [.int t v] = Low.int c t v := by simp [lower, Low.tok]
  rcases int_widening c t v h with ⟨t', h1, h2⟩ | ⟨h1, h2⟩
  · refine Or.inl ⟨t', hl.trans h1, h2, ?_⟩
    apply native_lower c [.int t v]
    rw [hl, h1]; simp
  · refine Or.inr ⟨h1, intDecFrags v, ?_, ?_⟩
    · rw [hl, h2]; simp [Low.number, Low.taggedBegin, Low.taggedEnd]
    · rw [LowV.intDecFrags_flatten]; exact intDec_canonical v

/-- C03 for a stream that implements only `i64`: the number arrives through `i64` exactly when it is
in range. -/
theorem C03_minimal_stream (t : IntTy) (v : Int) (h : t.fits v = true) :
    (IntTy.i64.fits v = true → lower .minimal [.int t v] = [.int .i64 v]) ∧
    (IntTy.i64.fits v = false → ∃ frags : List Text,
      lower .minimal [.int t v] = .textBegin none :: (frags.map .textFragmentComputed ++ [.textEnd])
      ∧ CanonicalDec frags.flatten v) := by
  rcases C03_integer_widening_exact .minimal t v h with ⟨t', h1, h2, h3⟩ | ⟨h1, fr, h2, h3⟩
  · have ht : t' = .i64 := by cases t' <;> first | rfl | (exact absurd h3 (by simp [Caps.native, Caps.minimal]))
    subst ht
    exact ⟨fun _ => h1, fun hf => absurd (h2.symm.trans hf) (by simp)⟩
  · refine ⟨fun hf => absurd (h1.symm.trans hf) (by simp), fun _ => ⟨fr, ?_, h3⟩⟩
    simpa [Caps.minimal] using h2

/-- Single precision floats arrive either unchanged or as the double with the same sign and the
same value; infinities stay infinite and NaNs stay NaNs. -/
theorem C03_float_widening_exact (c : Caps) (b : UInt32) :
    (lower c [.f32 b] = [.f32 b] ∧ c.f32 = true) ∨
    (∃ d : UInt64, lower c [.f32 b] = [.f64 d] ∧ f64Finite d = f32Finite b ∧
      f64Sign d = f32Sign b ∧ (f32Finite b = true → f64Val d = f32Val b) ∧
      (f32Finite b = false → (f64Frac d = 0 ↔ f32Frac b = 0))) := by
  simp only [lower, List.flatMap_cons, List.flatMap_nil, List.append_nil, Low.tok, Low.f32]
  split
  · exact Or.inl ⟨rfl, by assumption⟩
  · refine Or.inr ⟨widen b, rfl, ?_⟩
    cases h : f32Finite b with
    | true =>
      obtain ⟨h1, h2, h3⟩ := widen_exact b h
      exact ⟨h1, h2, fun _ => h3, by simp⟩
    | false =>
      obtain ⟨h1, h2, h3⟩ := widen_nonfinite b h
      exact ⟨h1, h2, by simp, fun _ => h3⟩

example : IntTy.u64.fits 18446744073709551615 = true ∧
    IntTy.i64.fits 18446744073709551615 = false := by decide
example : IntTy.i128.fits (-9223372036854775809) = true ∧
    lower .minimal [.int .i128 (-9223372036854775809)] =
      [.textBegin none, .textFragmentComputed ['-'],
       .textFragmentComputed (t! "9223372036854775809"), .textEnd] := by decide +kernel
example : lower .minimal [.f32 0x3fc00000] = [.f64 0x3ff8000000000000] := by decide +kernel

/-! ## C04, C05, C06 -/

/-- C04. Whatever code a value runs, however it reacts to failures, and however the stream behaves,
nothing it does through `value_computed` shows the stream a borrowed fragment. The value is run by
`value_computed` on any stack of wrappers, with any calls before it. -/
theorem C04_value_computed_never_borrows (ans : List Token → Token → Bool) (v : Prog) (w : Wrapper)
    (log : List Token) :
    ∃ seen, (exec (recorder ans) (.valueComputed v .ret) w log).1 = log ++ seen ∧
      ∀ t ∈ seen, isBorrowed t = false := by
  simp only [exec]
  rw [exec_computed _ v _ .base log (Wrapper.computedTarget_isComputed w)]
  have h := exec_inv (fun t s => recorder ans (computedTok t) s)
    (fun l => ∃ seen, l = log ++ seen ∧ ∀ t ∈ seen, isBorrowed t = false)
    (by
      rintro t s ⟨seen, rfl, hs⟩
      refine ⟨seen ++ [computedTok t], by simp [recorder], ?_⟩
      intro u hu
      rcases List.mem_append.1 hu with h | h
      · exact hs u h
      · simp at h; subst h; exact computedTok_not_borrowed t)
    v .base log ⟨[], by simp, by simp⟩
  exact h

/-- Calls that differ at most in being borrowed or computed. -/
def sameCall (t u : Token) : Prop :=
  t = u ∨ (∃ s, t = .textFragment s ∧ u = .textFragmentComputed s) ∨
    (∃ s, t = .binaryFragment s ∧ u = .binaryFragmentComputed s)

/-- C04. Apart from that, `value_computed` is `value`: a stream that does not look at whether
fragments are borrowed goes through the same states, gives the same answers, and the value returns
the same result. -/
theorem C04_otherwise_unchanged {σ : Type} (S : Token → σ → σ × Bool)
    (hS : ∀ t u, sameCall t u → ∀ s, S t s = S u s) (v : Prog) (w : Wrapper) (s : σ) :
    exec S (.valueComputed v .ret) w s = exec S (.value v .ret) w s := by
  have key : ∀ t s, S (computedTok t) s = S t s := by
    intro t s
    refine (hS t (computedTok t) ?_ s).symm
    cases t <;> first
      | exact Or.inl rfl
      | exact Or.inr (Or.inl ⟨_, rfl, rfl⟩)
      | exact Or.inr (Or.inr ⟨_, rfl, rfl⟩)
  have hS' : (fun t s => S (computedTok t) s) = S := by funext t s; exact key t s
  simp only [exec]
  rw [exec_computed S v _ w.valueTarget s (Wrapper.computedTarget_isComputed w), hS']

/-- C05. `&mut S`, `Box<S>` and dynamic streams, nested in any way, make the same calls on `S`, get
the same answers and return the same result as streaming into `S`. -/
theorem C05_forwarding_transparent {σ : Type} (S : Token → σ → σ × Bool) (v : Prog) (w : Wrapper)
    (s : σ) :
    exec S v (.fwd w) s = exec S v w s ∧ exec S v (.dyn w) s = exec S v w s :=
  ⟨exec_wrapper S v _ _ s rfl, exec_wrapper S v _ _ s rfl⟩

example : exec (recorder fun _ _ => true) (.ofToks [.seqBegin none, .seqEnd]) (.fwd (.dyn (.fwd .base))) [] =
    ([.seqBegin none, .seqEnd], true) := by decide +kernel

/-- C05. A dynamic value, streamed into any stream, streams what the underlying value streams: its
`stream` wraps the stream it is given in `&mut` and `dyn`. -/
theorem C05_dynamic_value_transparent {σ : Type} (S : Token → σ → σ × Bool) (v : Prog) (w : Wrapper)
    (s : σ) : exec S v (.dyn (.fwd w)) s = exec S v w s :=
  exec_wrapper S v _ _ s rfl

/-- C06. A value that propagates errors stops at the first failed call: among the calls it made, all
but the last succeeded, and if any failed the value reports failure. -/
theorem C06_failure_stops_value (ans : List Token → Token → Bool) (v : Prog) (w : Wrapper)
    (hv : v.Propagates) :
    (∀ i, (h : i + 1 < (exec (recorder ans) v w []).1.length) →
      ans ((exec (recorder ans) v w []).1.take i) ((exec (recorder ans) v w []).1[i]'(by omega))
        = true) ∧
    ((exec (recorder ans) v w []).2 = true →
      ∀ i, (h : i < (exec (recorder ans) v w []).1.length) →
        ans ((exec (recorder ans) v w []).1.take i) ((exec (recorder ans) v w []).1[i]'h) = true) := by
  obtain ⟨pre, h1, h2, h3⟩ := exec_propagates ans v w hv []
  simp only [List.nil_append] at h1 h2 h3
  constructor
  · intro i h
    have := h2 i (by rw [h1] at h; exact h)
    simpa [h1] using this
  · intro hr i h
    have := h3 hr i (by rw [h1] at h; exact h)
    simpa [h1] using this

/-- C06. The value that makes the calls `ts` with `?`, on a stream whose call number `k` fails,
makes exactly the first `k` calls and fails; on a stream that never fails it makes all of them and
succeeds. -/
theorem C06_exactly_k_calls (ts : List Token) (k : Nat) :
    exec (recorder fun l _ => l.length + 1 != k) (Prog.ofToks ts) .base [] =
      if 0 < k ∧ k ≤ ts.length then (ts.take k, false) else (ts, true) := by
  have gen : ∀ (ts l : List Token),
      exec (recorder fun l _ => l.length + 1 != k) (Prog.ofToks ts) .base l =
      if l.length < k ∧ k ≤ l.length + ts.length then (l ++ ts.take (k - l.length), false)
      else (l ++ ts, true) := by
    intro ts
    induction ts with
    | nil =>
      intro l
      rw [if_neg (by simp)]
      simp [Prog.ofToks, exec]
    | cons t ts ih =>
      intro l
      simp only [Prog.ofToks, exec, recorder, Wrapper.tok]
      by_cases hk : l.length + 1 = k
      · have : (l.length + 1 != k) = false := by simp [hk]
        simp only [this]
        rw [if_pos (by simp; omega)]
        have : k - l.length = 1 := by omega
        simp [this, exec]
      · have hb : (l.length + 1 != k) = true := by simp [hk]
        simp only [hb]
        rw [ih]
        by_cases hc : l.length < k ∧ k ≤ l.length + (t :: ts).length
        · rw [if_pos (by simp at hc ⊢; omega), if_pos hc]
          have : k - l.length = (k - (l ++ [t]).length) + 1 := by simp; omega
          rw [this]
          simp
        · rw [if_neg (by simp at hc ⊢; omega), if_neg hc]
          simp
  simpa using gen ts []

/-- A value that ignores a failure, nests `value` and `value_computed`, and streams borrowed data. -/
def exampleProg : Prog :=
  .call (.seqBegin none) fun _ =>
  .valueComputed
    (.call (.textFragment (t! "x")) fun ok =>
      if ok then .value (.call (.binaryFragment [1]) fun _ => .ret true) .ret else .ret false) fun _ =>
  .call .seqEnd fun ok => .ret ok

example : exec (recorder fun _ _ => true) exampleProg (.dyn (.fwd .base)) [] =
    ([.seqBegin none, .textFragmentComputed (t! "x"), .binaryFragmentComputed [1], .seqEnd], true) :=
  by decide
example : (Prog.ofToks (toks exampleRecord)).Propagates := ofToks_propagates _
example : exec (recorder fun l _ => l.length + 1 != 2) (Prog.ofToks [.seqBegin none, .null, .seqEnd])
    .base [] = ([.seqBegin none, .null], false) := by decide

end Sval
