import Verif.Core.ExtractLemmas

set_option autoImplicit false

/-!
# Properties of extraction: C08 and C09 (C07, C10 and C45 are in `ExtractText.lean`)
-/

namespace Sval
open Ext

/-! ## One call on each extractor -/

theorem tagShape (c : Caps) (h1 : c.tag = false) (h2 : c.tagged = false) (m : Meta) :
    Low.tok c (.tag m) = [.null] ∨
    (∃ l, m.label = some l ∧ l.backing = .static ∧ m.tag ≠ some tags.RUST_OPTION_NONE ∧
      Low.tok c (.tag m) = .textBegin (some (utf8Len l.text)) :: (Low.textFragment c l.text ++ [.textEnd])) ∨
    (∃ l, Low.tok c (.tag m)
      = [.textBegin (some (utf8Len l)), .textFragmentComputed l, .textEnd]) := by
  simp only [Low.tok, Low.tag, h1, Low.taggedBegin, Low.taggedEnd, h2, Bool.false_eq_true, if_false,
    List.nil_append, List.append_nil]
  split
  · exact Or.inl rfl
  · split
    · next l hl =>
      simp only [Low.labelValue]
      split
      · exact Or.inr (Or.inl ⟨l, hl, by assumption, by assumption, rfl⟩)
      · exact Or.inr (Or.inr ⟨l.text, rfl⟩)
    · exact Or.inl rfl

/-- A number too large for `i64`, on a stream that ignores tags. -/
def numText (v : Int) : List Token :=
  .textBegin none :: ((intDecFrags v).map .textFragmentComputed ++ [.textEnd])

/-- An integer on a stream that may implement the two widest integers but no others. -/
theorem intTok (c : Caps) (h : c.tagged = false) (h1 : c.u8 = false) (h2 : c.u16 = false)
    (h3 : c.u32 = false) (h4 : c.u64 = false) (h5 : c.i8 = false) (h6 : c.i16 = false)
    (h7 : c.i32 = false) (t : IntTy) (v : Int) :
    Low.tok c (.int t v) =
      if t = .i128 then
        if c.i128 then [.int .i128 v] else if IntTy.i64.fits v then [.int .i64 v] else numText v
      else if signed t then [.int .i64 v]
      else if c.u128 then [.int .u128 v] else if IntTy.i64.fits v then [.int .i64 v] else numText v := by
  have hn : Low.number c v = numText v := by
    simp [Low.number, Low.taggedBegin, Low.taggedEnd, h, numText]
  cases t <;> simp [Low.tok, Low.int, Low.u8, Low.u16, Low.u32, Low.u64, Low.u128, Low.i8,
      Low.i16, Low.i32, Low.i64, Low.i128, h1, h2, h3, h4, h5, h6, h7, hn, signed]

/-- Any stream that rejects text rejects such a number without changing. -/
theorem run_numText {σ : Type} (step : Token → σ → Res Unit σ)
    (h : ∀ n s, step (.textBegin n) s = .err () s) (v : Int) (s : σ) :
    run step (numText v) s = .err () s := by
  simp [numText, h]

/-- A stream that rejects text and all integers but perhaps its own. -/
theorem stepS_int {σ : Type} (c : Caps) (step : Token → σ → Res Unit σ) (h : c.tagged = false)
    (h1 : c.u8 = false) (h2 : c.u16 = false) (h3 : c.u32 = false) (h4 : c.u64 = false)
    (h5 : c.i8 = false) (h6 : c.i16 = false) (h7 : c.i32 = false)
    (ht : ∀ n s, step (.textBegin n) s = .err () s) (hi : ∀ v s, step (.int .i64 v) s = .err () s)
    (t : IntTy) (v : Int) (s : σ) :
    stepS c step (.int t v) s =
      if t = .i128 ∧ c.i128 = true then (run step [.int .i128 v] s).pair s
      else if signed t = false ∧ c.u128 = true then (run step [.int .u128 v] s).pair s
      else (s, false) := by
  unfold stepS
  rw [intTok c h h1 h2 h3 h4 h5 h6 h7]
  have hi' : run step [.int .i64 v] s = .err () s := by simp [hi]
  have hw : (run step (if IntTy.i64.fits v then [.int .i64 v] else numText v) s).pair s
      = (s, false) := by
    by_cases hf : IntTy.i64.fits v = true
    · rw [if_pos hf, hi']; rfl
    · rw [if_neg hf, run_numText step ht]; rfl
  by_cases ht : t = .i128
  · rw [if_pos ht]
    subst ht
    by_cases hc : c.i128 = true
    · rw [if_pos hc, if_pos ⟨rfl, hc⟩]
    · rw [if_neg hc, hw, if_neg (fun h => hc h.2), if_neg (by simp [signed])]
  · rw [if_neg ht, if_neg (fun h : t = .i128 ∧ _ => ht h.1)]
    by_cases hs : signed t = true
    · rw [if_pos hs, hi', if_neg (by simp [hs])]; rfl
    · rw [if_neg hs]
      by_cases hc : c.u128 = true
      · rw [if_pos hc, if_pos ⟨by simpa using hs, hc⟩]
      · rw [if_neg hc, hw, if_neg (fun h => hc h.2)]

theorem boolCall (t : Token) (s : Option Bool) :
    (stepS .minimal boolStep t s).1 = match t with | .bool b => some b | _ => s := by
  cases t with
  | binaryFragmentComputed f => cases f <;> rfl
  | binaryFragment f => cases f <;> rfl
  | tag m =>
    rcases tagShape .minimal rfl rfl m with h | ⟨l, _, _, _, h⟩ | ⟨l, h⟩ <;>
      (simp only [stepS, h]; rfl)
  | int t v =>
    rw [stepS_int .minimal boolStep rfl rfl rfl rfl rfl rfl rfl rfl (fun _ _ => rfl) (fun _ _ => rfl)]
    cases t <;> rfl
  | _ => rfl

theorem f32Call (t : Token) (s : Option UInt32) :
    (stepS { Caps.minimal with f32 := true } f32Step t s).1 = match t with | .f32 b => some b | _ => s := by
  cases t with
  | binaryFragmentComputed f => cases f <;> rfl
  | binaryFragment f => cases f <;> rfl
  | tag m =>
    rcases tagShape { Caps.minimal with f32 := true } rfl rfl m with h | ⟨l, _, _, _, h⟩ | ⟨l, h⟩ <;>
      (simp only [stepS, h]; rfl)
  | int t v =>
    rw [stepS_int { Caps.minimal with f32 := true } f32Step rfl rfl rfl rfl rfl rfl rfl rfl (fun _ _ => rfl) (fun _ _ => rfl)]
    cases t <;> rfl
  | _ => rfl

theorem f64Call (t : Token) (s : Option UInt64) :
    (stepS .minimal f64Step t s).1 = match t with | .f64 b => some b | .f32 b => some (widen b) | _ => s := by
  cases t with
  | binaryFragmentComputed f => cases f <;> rfl
  | binaryFragment f => cases f <;> rfl
  | tag m =>
    rcases tagShape .minimal rfl rfl m with h | ⟨l, _, _, _, h⟩ | ⟨l, h⟩ <;>
      (simp only [stepS, h]; rfl)
  | int t v =>
    rw [stepS_int .minimal f64Step rfl rfl rfl rfl rfl rfl rfl rfl (fun _ _ => rfl) (fun _ _ => rfl)]
    cases t <;> rfl
  | _ => rfl

theorem i128Call (t : Token) (s : Option Int) :
    (stepS { Caps.minimal with i128 := true } i128Step t s).1 = match t with | .int .i128 v => some v | _ => s := by
  cases t with
  | binaryFragmentComputed f => cases f <;> rfl
  | binaryFragment f => cases f <;> rfl
  | tag m =>
    rcases tagShape { Caps.minimal with i128 := true } rfl rfl m with h | ⟨l, _, _, _, h⟩ | ⟨l, h⟩ <;>
      (simp only [stepS, h]; rfl)
  | int t v =>
    rw [stepS_int { Caps.minimal with i128 := true } i128Step rfl rfl rfl rfl rfl rfl rfl rfl (fun _ _ => rfl) (fun _ _ => rfl)]
    cases t <;> rfl
  | _ => rfl

theorem u128Call (t : Token) (s : Option Int) :
    (stepS { Caps.minimal with u128 := true } u128Step t s).1 = match t with | .int t v => if signed t then s else some v | _ => s := by
  cases t with
  | binaryFragmentComputed f => cases f <;> rfl
  | binaryFragment f => cases f <;> rfl
  | tag m =>
    rcases tagShape { Caps.minimal with u128 := true } rfl rfl m with h | ⟨l, _, _, _, h⟩ | ⟨l, h⟩ <;>
      (simp only [stepS, h]; rfl)
  | int t v =>
    rw [stepS_int { Caps.minimal with u128 := true } u128Step rfl rfl rfl rfl rfl rfl rfl rfl (fun _ _ => rfl) (fun _ _ => rfl)]
    cases t <;> rfl
  | _ => rfl

/-! ## C08: whatever code the value runs, the extracted value is the last one it streamed -/

theorem last_snoc {α : Type} (f : Token → Option α) (l : List Token) (t : Token) :
    ((l ++ [t]).filterMap f).getLast? = (f t).or (l.filterMap f).getLast? := by
  rw [List.filterMap_append]
  cases h : f t <;> simp [h]

theorem scalar_sound {α : Type} (c : Caps) (step : Token → Option α → Res Unit (Option α))
    (f : Token → Option α) (hf : ∀ t s, (stepS c step t s).1 = (f t).or s) (p : Prog) (a : α)
    (h : (extract c step none p).join = some a) :
    ((callsOn (stepS c step) p none).filterMap f).getLast? = some a := by
  have key := exec_log_inv (stepS c step)
    (fun s l => (l.filterMap f).getLast? = s)
    (by intro t s l h; rw [last_snoc, hf, h])
    p none rfl
  rw [key]
  simp only [extract] at h
  split at h
  · simpa using h
  · simp at h

def asBool : Token → Option Bool | .bool b => some b | _ => none
def asF32 : Token → Option UInt32 | .f32 b => some b | _ => none
def asF64 : Token → Option UInt64 | .f64 b => some b | .f32 b => some (widen b) | _ => none
def asI128 : Token → Option Int | .int .i128 v => some v | _ => none
def asUnsigned : Token → Option Int | .int t v => if signed t then none else some v | _ => none

/-- C08. Any code at all: what `to_bool` returns is the last boolean the value streamed. -/
theorem C08_bool_any_code (p : Prog) (b : Bool) (h : Ext.toBool p = some b) :
    ((callsOn (stepS .minimal boolStep) p none).filterMap asBool).getLast? = some b :=
  scalar_sound _ _ asBool (by intro t s; rw [boolCall]; cases t <;> rfl) p b h

/-- Code that makes two calls converts to what it streamed last. -/
example : ((callsOn (stepS .minimal boolStep) (.ofToks [.bool false, .bool true]) none).filterMap asBool).getLast?
    = some true := C08_bool_any_code _ _ (by decide +kernel)

/-- C08. What `to_f32` returns is the last single the value streamed, bit for bit. -/
theorem C08_f32_any_code (p : Prog) (b : UInt32) (h : toF32 p = some b) :
    ((callsOn (stepS { Caps.minimal with f32 := true } f32Step) p none).filterMap asF32).getLast?
      = some b :=
  scalar_sound _ _ asF32 (by intro t s; rw [f32Call]; cases t <;> rfl) p b h

example : ((callsOn (stepS { Caps.minimal with f32 := true } f32Step) (.ofToks [.f32 0x3fc00000]) none).filterMap
    asF32).getLast? = some 0x3fc00000 := C08_f32_any_code _ _ (by decide +kernel)

/-- C08. What `to_f64` returns is the last double (or exactly widened single) the value streamed. -/
theorem C08_f64_any_code (p : Prog) (b : UInt64) (h : toF64 p = some b) :
    ((callsOn (stepS .minimal f64Step) p none).filterMap asF64).getLast? = some b :=
  scalar_sound _ _ asF64 (by intro t s; rw [f64Call]; cases t <;> rfl) p b h

example : ((callsOn (stepS .minimal f64Step) (.ofToks [.f32 0x3fc00000]) none).filterMap asF64).getLast?
    = some 0x3ff8000000000000 := C08_f64_any_code _ _ (by decide +kernel)

/-- C08. Every integer conversion returns the last suitable integer the value streamed, and only if
it is in the range of the requested type. -/
theorem C08_int_any_code (t : IntTy) (p : Prog) (v : Int) (h : toInt t p = some v) :
    (t ≠ .i128 → t ≠ .u128 → t.fits v = true) ∧
    (if signed t then
      ((callsOn (stepS { Caps.minimal with i128 := true } i128Step) p none).filterMap asI128).getLast?
        = some v
     else
      ((callsOn (stepS { Caps.minimal with u128 := true } u128Step) p none).filterMap
        asUnsigned).getLast? = some v) := by
  have hi : ∀ v, toI128 p = some v →
      ((callsOn (stepS { Caps.minimal with i128 := true } i128Step) p none).filterMap
        asI128).getLast? = some v := fun v h =>
    scalar_sound _ _ asI128 (by
      intro t s; rw [i128Call]; cases t <;> first | rfl | (rename_i t v; cases t <;> rfl)) p v h
  have hu : ∀ v, toU128 p = some v →
      ((callsOn (stepS { Caps.minimal with u128 := true } u128Step) p none).filterMap
        asUnsigned).getLast? = some v := fun v h =>
    scalar_sound _ _ asUnsigned (by
      intro t s; rw [u128Call]; cases t <;> first | rfl | (rename_i t v; cases t <;> rfl)) p v h
  have nar : ∀ (t : IntTy) (o : Option Int) (v : Int), o.bind (tryInto t) = some v →
      o = some v ∧ t.fits v = true := by
    intro t o v h
    cases o with
    | none => simp at h
    | some w =>
      simp only [Option.bind_some, tryInto] at h
      split at h
      · simp at h; subst h; exact ⟨rfl, by assumption⟩
      · simp at h
  cases t <;> simp only [toInt, signed, if_true, Bool.false_eq_true, if_false] at h ⊢ <;>
    first
    | exact ⟨by simp, hi v h⟩
    | exact ⟨by simp, hu v h⟩
    | exact ⟨fun _ _ => (nar _ _ v h).2, hi v (nar _ _ v h).1⟩
    | exact ⟨fun _ _ => (nar _ _ v h).2, hu v (nar _ _ v h).1⟩

example : IntTy.u8.fits 255 = true ∧
    ((callsOn (stepS { Caps.minimal with u128 := true } u128Step) (.ofToks [.int .u64 255]) none).filterMap
      asUnsigned).getLast? = some 255 := by
  have h := C08_int_any_code .u8 (.ofToks [.int .u64 255]) 255 (by decide +kernel)
  exact ⟨h.1 (by decide) (by decide), h.2⟩

/-! ## C08: exact results on well-formed values -/

/-- A stream that rejects everything but scalars, on the leaf of a value. -/
theorem scalar_exact {α : Type} (c : Caps) (step : Token → Option α → Res Unit (Option α))
    (h1 : c.tagged = false) (h2 : c.enum = false) (h3 : c.tagHint = false) (h4 : c.tag = false)
    (h5 : c.binary = false) (h6 : c.map = false) (h7 : c.record = false) (h8 : c.tuple = false)
    (h9 : c.recordTuple = false)
    (htext : ∀ n s, step (.textBegin n) s = .err () s) (hseq : ∀ n s, step (.seqBegin n) s = .err () s)
    (hnull : ∀ s, step .null s = .err () s)
    (v : V) :
    (extract c step none (valueOf v)).join =
      match leaf v with
      | .bool b => ((run step (Low.tok c (.bool b)) none).toOption).join
      | .int t n => ((run step (Low.tok c (.int t n)) none).toOption).join
      | .f32 b => ((run step (Low.tok c (.f32 b)) none).toOption).join
      | .f64 b => ((run step (Low.tok c (.f64 b)) none).toOption).join
      | _ => none := by
  have hT := leaf_ne_tagged v
  have hE := leaf_ne_enum v
  have hH := leaf_ne_hint v
  rw [valueOf, extract_ofToks, lower_leaf c h1 h2 h3]
  generalize leaf v = u at *
  have one : ∀ t, lower c [t] = Low.tok c t := by intro t; simp [lower]
  have first : ∀ (t : Token) (ts r : List Token), Low.tok c t = .seqBegin none :: r ∨ True := by
    intros; exact Or.inr trivial
  clear first
  have seqs : ∀ (t : Token) (ts : List Token) (n : Option Nat), Low.tok c t = [.seqBegin n] →
      ((run step (lower c (t :: ts)) none).toOption).join = none := by
    intro t ts n h
    have : lower c (t :: ts) = .seqBegin n :: lower c ts := by simp [lower, h]
    rw [this, run_cons, hseq]; rfl
  cases u with
  | null => simp only [toks]; rw [one]; simp [Low.tok, hnull, Res.toOption]
  | bool b => simp only [toks]; rw [one]
  | int t n => simp only [toks]; rw [one]
  | f32 b => simp only [toks]; rw [one]
  | f64 b => simp only [toks]; rw [one]
  | text n fs =>
    simp only [toks]
    have : lower c (.textBegin n :: (fs.map textFragTok ++ [.textEnd]))
        = .textBegin n :: lower c (fs.map textFragTok ++ [.textEnd]) := by simp [lower, Low.tok]
    rw [this, run_cons, htext]; rfl
  | binary n fs => exact seqs _ _ n (by simp [Low.tok, Low.binaryBegin, h5])
  | seq n xs => exact seqs _ _ n (by simp [Low.tok])
  | map n kvs => exact seqs _ _ n (by simp [Low.tok, Low.mapBegin, h6])
  | tag m =>
    simp only [toks]
    rw [one]
    rcases tagShape c h4 h1 m with h | ⟨l, _, _, _, h⟩ | ⟨l, h⟩ <;>
      (rw [h, run_cons]; simp [hnull, htext, Res.toOption])
  | tagged m v => exact absurd rfl (hT m v)
  | enum m v => exact absurd rfl (hE m v)
  | record m n fs =>
    exact seqs _ _ n (by simp [Low.tok, Low.recordBegin, Low.taggedBegin, Low.mapBegin, h1, h6, h7])
  | tuple m n fs =>
    exact seqs _ _ n (by simp [Low.tok, Low.tupleBegin, Low.taggedBegin, h1, h8])
  | recordTuple m n fs =>
    exact seqs _ _ n (by
      simp [Low.tok, Low.recordTupleBegin, Low.recordBegin, Low.taggedBegin, Low.mapBegin, h1, h6, h7, h9])
  | hint t v => exact absurd rfl (hH t v)

theorem run_int {α : Type} (c : Caps) (step : Token → Option α → Res Unit (Option α))
    (t : IntTy) (v : Int) :
    ((run step (Low.tok c (.int t v)) none).toOption).join
      = if (stepS c step (.int t v) none).2 then (stepS c step (.int t v) none).1 else none := by
  unfold stepS
  have : ∀ r : Res Unit (Option α), r.toOption.join = if (r.pair none).2 then (r.pair none).1 else none := by
    intro r; cases r <;> rfl
  exact this _

/-- C08. `to_bool` returns exactly the boolean a value is, looking through tags, enums and hints. -/
theorem C08_bool_exact (v : V) :
    Ext.toBool (valueOf v) = match leaf v with | .bool b => some b | _ => none := by
  rw [Ext.toBool, scalar_exact .minimal boolStep rfl rfl rfl rfl rfl rfl rfl rfl rfl
    (fun _ _ => rfl) (fun _ _ => rfl) (fun _ => rfl)]
  cases leaf v <;> first
    | rfl
    | (simp only [run_int]
       rw [stepS_int .minimal boolStep rfl rfl rfl rfl rfl rfl rfl rfl (fun _ _ => rfl) (fun _ _ => rfl)]
       rename_i t n; cases t <;> rfl)

example : leaf (.tagged {} (.enum {} (.bool true))) = .bool true ∧
    Ext.toBool (valueOf (.tagged {} (.enum {} (.bool true)))) = some true ∧
    Ext.toBool (valueOf (.tagged {} (.null))) = none := ⟨rfl, by decide +kernel⟩

/-- C08. `to_f32` is exact. -/
theorem C08_f32_exact (v : V) :
    toF32 (valueOf v) = match leaf v with | .f32 b => some b | _ => none := by
  rw [toF32, scalar_exact { Caps.minimal with f32 := true } f32Step rfl rfl rfl rfl rfl rfl rfl rfl rfl
    (fun _ _ => rfl) (fun _ _ => rfl) (fun _ => rfl)]
  cases leaf v <;> first
    | rfl
    | (simp only [run_int]
       rw [stepS_int { Caps.minimal with f32 := true } f32Step rfl rfl rfl rfl rfl rfl rfl rfl (fun _ _ => rfl) (fun _ _ => rfl)]
       rename_i t n; cases t <;> rfl)

example : toF32 (valueOf (.tagged {} (.f32 0x3fc00000))) = some 0x3fc00000 ∧
    toF32 (valueOf (.f64 0x3ff8000000000000)) = none := by decide +kernel

/-- C08. `to_f64` returns doubles unchanged and singles exactly widened. -/
theorem C08_f64_exact (v : V) :
    toF64 (valueOf v) =
      match leaf v with | .f64 b => some b | .f32 b => some (widen b) | _ => none := by
  rw [toF64, scalar_exact .minimal f64Step rfl rfl rfl rfl rfl rfl rfl rfl rfl
    (fun _ _ => rfl) (fun _ _ => rfl) (fun _ => rfl)]
  cases leaf v <;> first
    | rfl
    | (simp only [run_int]
       rw [stepS_int .minimal f64Step rfl rfl rfl rfl rfl rfl rfl rfl (fun _ _ => rfl) (fun _ _ => rfl)]
       rename_i t n; cases t <;> rfl)

example : toF64 (valueOf (.f32 0x3fc00000)) = some 0x3ff8000000000000 ∧
    toF64 (valueOf (.int .i64 1)) = none := by decide +kernel

/-- What the two wide integer extractors return for a streamed integer. -/
theorem toI128_leaf (v : V) :
    toI128 (valueOf v) = match leaf v with | .int .i128 n => some n | _ => none := by
  rw [toI128, scalar_exact { Caps.minimal with i128 := true } i128Step rfl rfl rfl rfl rfl rfl rfl rfl
    rfl (fun _ _ => rfl) (fun _ _ => rfl) (fun _ => rfl)]
  cases leaf v with
  | int t n =>
    simp only [run_int]
    rw [stepS_int { Caps.minimal with i128 := true } i128Step rfl rfl rfl rfl rfl rfl rfl rfl (fun _ _ => rfl) (fun _ _ => rfl)]
    cases t <;> rfl
  | _ => rfl

theorem toU128_leaf (v : V) :
    toU128 (valueOf v) = match leaf v with | .int t n => (if signed t then none else some n) | _ => none := by
  rw [toU128, scalar_exact { Caps.minimal with u128 := true } u128Step rfl rfl rfl rfl rfl rfl rfl rfl
    rfl (fun _ _ => rfl) (fun _ _ => rfl) (fun _ => rfl)]
  cases leaf v with
  | int t n =>
    simp only [run_int]
    rw [stepS_int { Caps.minimal with u128 := true } u128Step rfl rfl rfl rfl rfl rfl rfl rfl (fun _ _ => rfl) (fun _ _ => rfl)]
    cases t <;> rfl
  | _ => rfl

/-- C08. The default integer conversions: a conversion to a signed type succeeds exactly on a value
streamed as `i128` that is in range, a conversion to an unsigned type exactly on a value streamed
as any unsigned type that is in range, and the number is never changed. -/
theorem C08_int_exact (t : IntTy) (v : V) (hv : ∀ u n, leaf v = .int u n → u.fits n = true) :
    toInt t (valueOf v) =
      match leaf v with
      | .int u n => if (signed t = true ∧ u = .i128 ∨ signed t = false ∧ signed u = false) ∧
          t.fits n = true then some n else none
      | _ => none := by
  have hi := toI128_leaf v
  have hu := toU128_leaf v
  cases hl : leaf v with
  | int u n =>
    have hfit := hv u n hl
    rw [hl] at hi hu
    have hf128 : u = .i128 → IntTy.i128.fits n = true := by intro h; rw [h] at hfit; exact hfit
    have hfu : signed u = false → IntTy.u128.fits n = true := by
      intro h
      rw [IntTy.fits_iff] at hfit ⊢
      cases u <;> simp only [signed, Bool.true_eq_false] at h <;>
        simp only [IntTy.min, IntTy.max] at hfit ⊢ <;> omega
    clear hv hl hfit
    show toInt t (valueOf v) = if (signed t = true ∧ u = .i128 ∨ signed t = false ∧ signed u = false) ∧
          t.fits n = true then some n else none
    unfold toInt
    cases u <;> simp only [signed, forall_const, reduceCtorEq, false_implies, if_true, if_false,
        Bool.false_eq_true] at hi hu hf128 hfu <;> rw [hi, hu] <;>
      cases t <;> simp [signed, tryInto, hf128, hfu]
  | _ =>
    rw [hl] at hi hu
    simp only at hi hu
    cases t <;> simp [toInt, hi, hu, signed]

example : Ext.toBool (valueOf (.hint tags.NUMBER (.enum {} (.tagged someMeta (.bool true))))) = some true :=
  by decide +kernel
example : toInt .u8 (valueOf (.int .u64 255)) = some 255 ∧ toInt .u8 (valueOf (.int .u64 256)) = none :=
  by decide +kernel
example : Ext.toBool (valueOf (.seq none [.bool true])) = none := by decide +kernel

/-! ## C09 -/

/-- C09 is false as stated: an `i32` holding 1 does not convert to `i64`. -/
theorem C09_counterexample :
    IntTy.i32.fits 1 = true ∧ IntTy.i64.fits 1 = true ∧ (Extracts.ofInt .i32 1).toInt .i64 = none := by
  decide +kernel

/-- C09, as far as it holds: a Rust integer converts to a different type exactly when it is in range
and either both types are unsigned, or the source is `i128` and the target signed. It always converts
to its own type, and never to a type that cannot hold it.
Missing from the full claim: conversions from a signed type narrower than `i128`, and between signed and unsigned types. -/
theorem C09_int_widths_partial (t u : IntTy) (n : Int) (h : t.fits n = true) :
    (Extracts.ofInt t n).toInt u =
      if (u = t ∨ signed u = false ∧ signed t = false ∨ t = .i128 ∧ signed u = true) ∧
        u.fits n = true then some n else none := by
  have hd := C08_int_exact u (.int t n) (by intro u' n' e; simp only [leaf, V.int.injEq] at e; rw [← e.1, ← e.2]; exact h)
  simp only [leaf] at hd
  have hd' : (Extracts.default (.call (.int t n) .ret)).toInt u = toInt u (valueOf (.int t n)) := by
    have e : ∀ (σ : Type) (c : Caps) (step : Token → σ → Res Unit σ) (s : σ),
        extract c step s (.call (.int t n) .ret) = extract c step s (valueOf (.int t n)) := by
      intro σ c step s
      have : ∀ r : σ × Bool, (if r.2 then some r.1 else none) =
          (let q := exec (stepS c step) (match r.2 with | true => Prog.ret true | false => Prog.ret false)
            .base r.1
           if q.2 then some q.1 else none) := by
        rintro ⟨s', b⟩; cases b <;> rfl
      exact this _
    show toInt u (.call (.int t n) .ret) = _
    unfold toInt toI128 toU128
    simp only [e]
  simp only [Extracts.ofInt]
  rw [hd', hd]
  cases t <;> cases u <;> simp [signed, tryInto, h]

example : (Extracts.ofInt .u8 200).toInt .u64 = some 200 ∧ (Extracts.ofInt .u64 300).toInt .u8 = none ∧
    (Extracts.ofInt .i128 (-5)).toInt .i8 = some (-5) := by decide +kernel


end Sval
