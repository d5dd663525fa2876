import Verif.Props.Extract

set_option autoImplicit false

/-!
# Properties of extraction: C07, C10, C45
-/

namespace Sval
open Ext

/-! ## C07 -/

abbrev textCaps : Caps := { Caps.minimal with textFragment := true }
abbrev binaryCaps : Caps := { Caps.minimal with binary := true, binaryFragment := true }

/-- Specification: the text fragments a call hands to a stream that knows only text, `none` standing
for a fragment that is not borrowed for the lifetime of the value. A bare tag hands over its label,
and an integer beyond `i64` its digits. -/
def textsOf : Token → List (Option Text)
  | .textFragment s => [some s]
  | .textFragmentComputed _ => [none]
  | .tag m =>
    if m.tag = some tags.RUST_OPTION_NONE then []
    else match m.label with
      | some l => [if l.backing = .static then some l.text else none]
      | none => []
  | .int t v => if IntTy.i64.fits v || signed t && t != .i128 then [] else [none]
  | _ => []

/-- The same for bytes. -/
def bytesOf : Token → List (Option Bytes)
  | .binaryFragment s => [some s]
  | .binaryFragmentComputed _ => [none]
  | _ => []

/-- What one fragment does to the state of the extractor. -/
def frag1 {α : Type} (s : Frags α) : Option α → Frags α
  | some f => if s.seen then { s with extracted := none } else { extracted := some f, seen := true }
  | none => { extracted := none, seen := true }

theorem run_numText_text (v : Int) (s : Frags Text) :
    run textStep (numText v) s = .err () { extracted := none, seen := true } := by
  simp only [numText, intDecFrags]
  split <;> rfl

theorem textCall (t : Token) (s : Frags Text) :
    (stepS textCaps textStep t s).1 = (textsOf t).foldl frag1 s := by
  cases t with
  | binaryFragmentComputed f => cases f <;> rfl
  | binaryFragment f => cases f <;> rfl
  | textFragment f =>
    obtain ⟨e, seen⟩ := s
    cases seen <;> rfl
  | tag m =>
    obtain ⟨e, seen⟩ := s
    unfold stepS
    simp only [Low.tok, Low.tag, Low.taggedBegin, Low.taggedEnd, Caps.minimal, Bool.false_eq_true,
      if_false, List.nil_append, List.append_nil, textsOf]
    by_cases h : m.tag = some tags.RUST_OPTION_NONE
    · rw [if_pos h, if_pos h]; rfl
    · rw [if_neg h, if_neg h]
      cases hl : m.label with
      | none => rfl
      | some l =>
        simp only [Low.labelValue]
        cases hb : l.backing <;> cases seen <;> rfl
  | int t v =>
    unfold stepS
    rw [intTok textCaps rfl rfl rfl rfl rfl rfl rfl rfl]
    have hi' : run textStep [.int .i64 v] s = .err () s := rfl
    have hw : ((run textStep (if IntTy.i64.fits v then [.int .i64 v] else numText v) s).pair s).1
        = (if IntTy.i64.fits v then s else { extracted := none, seen := true }) := by
      by_cases hf : IntTy.i64.fits v = true
      · rw [if_pos hf, if_pos hf, hi']; rfl
      · rw [if_neg hf, if_neg hf, run_numText_text]; rfl
    have key : ∀ b : Bool, (if b then s else { extracted := none, seen := true } : Frags Text)
        = (if b then [] else [none]).foldl frag1 s := by intro b; cases b <;> rfl
    simp only [textsOf]
    have hrhs : ∀ b : Bool, ((run textStep (if IntTy.i64.fits v then [.int .i64 v] else numText v) s).pair s).1
        = (if IntTy.i64.fits v || false then ([] : List (Option Text)) else [none]).foldl frag1 s := by
      intro b; rw [hw, key, Bool.or_false]
    cases t <;> simp only [signed, if_true, Bool.false_eq_true, if_false, reduceCtorEq, Caps.minimal,
      Bool.true_and, Bool.false_and] <;> first
      | exact hrhs true
      | (rw [hi']
         simp [Res.pair])
  | _ => rfl

theorem binaryCall (t : Token) (s : Frags Bytes) :
    (stepS binaryCaps binaryStep t s).1 = (bytesOf t).foldl frag1 s := by
  cases t with
  | binaryFragment f =>
    obtain ⟨e, seen⟩ := s
    cases seen <;> rfl
  | tag m =>
    rcases tagShape binaryCaps rfl rfl m with h | ⟨l, _, _, _, h⟩ | ⟨l, h⟩ <;>
      (simp only [stepS, h]; rfl)
  | int t v =>
    rw [stepS_int binaryCaps binaryStep rfl rfl rfl rfl rfl rfl rfl rfl (fun _ _ => rfl) (fun _ _ => rfl)]
    cases t <;> rfl
  | _ => rfl

/-- Fragments seen so far against the state. -/
def FragsOk {α : Type} (st : Frags α) (ds : List (Option α)) : Prop :=
  (st.seen = false → ds = []) ∧ (∀ s, st.extracted = some s → ds = [some s])

theorem fragsOk_fold {α : Type} (ds es : List (Option α)) (st : Frags α) (h : FragsOk st ds) :
    FragsOk (es.foldl frag1 st) (ds ++ es) := by
  induction es generalizing st ds with
  | nil => simpa using h
  | cons e es ih =>
    rw [List.foldl_cons, show ds ++ e :: es = (ds ++ [e]) ++ es by simp]
    apply ih
    obtain ⟨h1, h2⟩ := h
    cases e with
    | none => exact ⟨by simp [frag1], by simp [frag1]⟩
    | some f =>
      by_cases hs : st.seen = true
      · simp [frag1, hs, FragsOk]
      · have := h1 (by simpa using hs)
        subst this
        simp only [frag1, hs, FragsOk]
        simp

/-- C07. Whatever code the value runs: if `to_text` returns `Some(s)` then, over all calls the value
made, `s` is the one and only text fragment handed over, and it was borrowed. Nothing computed,
partial or concatenated is ever returned. -/
theorem C07_text_any_code (p : Prog) (s : Text) (h : toText p = some s) :
    (callsOn (stepS textCaps textStep) p {}).flatMap textsOf = [some s] := by
  have key := exec_log_inv (stepS textCaps textStep)
    (fun st l => FragsOk st (l.flatMap textsOf))
    (by
      intro t st l h
      rw [textCall, List.flatMap_append]
      simpa using fragsOk_fold _ (textsOf t) st h)
    p {} ⟨by simp, by simp⟩
  simp only [toText, extract] at h
  split at h
  · exact key.2 s (by simpa using h)
  · simp at h

/-- Code that goes on after an error converts to the one text it streams. -/
example :
    let p : Prog := .call (.textBegin (some 2)) fun _ => .call (.textFragment (t! "hi")) fun _ =>
      .call .textEnd fun _ => .ret true
    toText p = some (t! "hi") ∧ (callsOn (stepS textCaps textStep) p {}).flatMap textsOf = [some (t! "hi")] :=
  ⟨by decide +kernel, C07_text_any_code _ _ (by decide +kernel)⟩

/-- C07. The same for `to_binary`. -/
theorem C07_binary_any_code (p : Prog) (s : Bytes) (h : toBinary p = some s) :
    (callsOn (stepS binaryCaps binaryStep) p {}).flatMap bytesOf = [some s] := by
  have key := exec_log_inv (stepS binaryCaps binaryStep)
    (fun st l => FragsOk st (l.flatMap bytesOf))
    (by
      intro t st l h
      rw [binaryCall, List.flatMap_append]
      simpa using fragsOk_fold _ (bytesOf t) st h)
    p {} ⟨by simp, by simp⟩
  simp only [toBinary, extract] at h
  split at h
  · exact key.2 s (by simpa using h)
  · simp at h

example :
    let p : Prog := .call (.binaryBegin none) fun _ => .call (.binaryFragment [1, 2]) fun _ =>
      .call .binaryEnd fun _ => .ret true
    toBinary p = some [1, 2] ∧ (callsOn (stepS binaryCaps binaryStep) p {}).flatMap bytesOf = [some [1, 2]] :=
  ⟨by decide +kernel, C07_binary_any_code _ _ (by decide +kernel)⟩

def fragBorrowed {α : Type} : Frag α → Bool
  | .borrowed _ => true
  | .computed _ => false

/-- The one borrowed fragment of a list of fragments, if that is all there is. -/
def soleBorrowed {α : Type} : List (Frag α) → Option α
  | [.borrowed s] => some s
  | _ => none

theorem textFrags_run (fs : List (Frag Text)) (s : Frags Text) :
    (run textStep (lower textCaps (fs.map textFragTok ++ [.textEnd])) s).toOption =
      if fs.all fragBorrowed then
        some (fs.foldl (fun s f => frag1 s (some f.content)) s)
      else none := by
  induction fs generalizing s with
  | nil => rfl
  | cons f fs ih =>
    cases f with
    | computed f => rfl
    | borrowed f =>
      have hl : lower textCaps ((Frag.borrowed f :: fs).map textFragTok ++ [.textEnd])
          = .textFragment f :: lower textCaps (fs.map textFragTok ++ [.textEnd]) := rfl
      have hs : textStep (.textFragment f) s = .ok (frag1 s (some f)) := by
        obtain ⟨e, seen⟩ := s
        cases seen <;> rfl
      rw [hl, run_cons, hs, Res.bind_ok, ih]
      rfl

theorem binFrags_run (fs : List (Frag Bytes)) (s : Frags Bytes) :
    (run binaryStep (lower binaryCaps (fs.map binFragTok ++ [.binaryEnd])) s).toOption =
      if fs.all fragBorrowed then
        some (fs.foldl (fun s f => frag1 s (some f.content)) s)
      else none := by
  induction fs generalizing s with
  | nil => rfl
  | cons f fs ih =>
    cases f with
    | computed f => rfl
    | borrowed f =>
      have hl : lower binaryCaps ((Frag.borrowed f :: fs).map binFragTok ++ [.binaryEnd])
          = .binaryFragment f :: lower binaryCaps (fs.map binFragTok ++ [.binaryEnd]) := rfl
      have hs : binaryStep (.binaryFragment f) s = .ok (frag1 s (some f)) := by
        obtain ⟨e, seen⟩ := s
        cases seen <;> rfl
      rw [hl, run_cons, hs, Res.bind_ok, ih]
      rfl

theorem frags_sole {α : Type} (fs : List (Frag α)) :
    (if fs.all fragBorrowed then
        some (fs.foldl (fun s f => frag1 s (some f.content)) ({} : Frags α)) else none).bind (·.extracted)
      = soleBorrowed fs := by
  have seen : ∀ (fs : List (Frag α)) (s : Frags α), s.seen = true → s.extracted = none →
      (fs.foldl (fun s f => frag1 s (some f.content)) s).extracted = none := by
    intro fs
    induction fs with
    | nil => intro s _ h; exact h
    | cons f fs ih => intro s h1 h2; exact ih _ (by simp [frag1, h1]) (by simp [frag1, h1])
  match fs with
  | [] => rfl
  | [.borrowed s] => rfl
  | [.computed s] => rfl
  | .computed f :: g :: fs => rfl
  | .borrowed f :: g :: fs =>
    have : ((Frag.borrowed f :: g :: fs).foldl (fun s f => frag1 s (some f.content)) ({} : Frags α)).extracted
        = none := seen fs _ rfl rfl
    simp only [soleBorrowed]
    split
    · simpa using this
    · rfl

/-- C07. `to_text` returns `Some(s)` exactly when the value, under its tag, enum and hint wrappers,
is a text made of the single borrowed fragment `s`, or a bare tag whose label is the static string
`s` (the label is then what the value streams as). -/
theorem C07_text_exact (v : V) :
    toText (valueOf v) =
      match leaf v with
      | .text _ fs => soleBorrowed fs
      | .tag m =>
        if m.tag = some tags.RUST_OPTION_NONE then none
        else m.label.bind fun l => if l.backing = .static then some l.text else none
      | _ => none := by
  have hT := leaf_ne_tagged v
  have hE := leaf_ne_enum v
  have hH := leaf_ne_hint v
  rw [toText, valueOf, extract_ofToks, lower_leaf textCaps rfl rfl rfl]
  generalize leaf v = u at *
  cases u with
  | tagged m v => exact absurd rfl (hT m v)
  | enum m v => exact absurd rfl (hE m v)
  | hint t v => exact absurd rfl (hH t v)
  | text n fs =>
    have hl : lower textCaps (toks (.text n fs))
        = .textBegin n :: lower textCaps (fs.map textFragTok ++ [.textEnd]) := rfl
    rw [hl, run_cons]
    show Option.bind (Res.toOption (run textStep _ _)) _ = _
    rw [textFrags_run]
    show _ = soleBorrowed fs
    exact frags_sole fs
  | tag m =>
    have hl : lower textCaps (toks (.tag m)) = Low.tok textCaps (.tag m) := by simp [toks, lower]
    rw [hl]
    simp only [Low.tok, Low.tag, Low.taggedBegin, Low.taggedEnd, Caps.minimal, Bool.false_eq_true,
      if_false, List.nil_append, List.append_nil]
    by_cases h : m.tag = some tags.RUST_OPTION_NONE
    · rw [if_pos h, if_pos h]; rfl
    · rw [if_neg h, if_neg h]
      obtain ⟨mt, ml, mi⟩ := m
      cases ml with
      | none => rfl
      | some l =>
        obtain ⟨lt, lb, _⟩ := l
        cases lb <;> rfl
  | int t n =>
    have hl : lower textCaps (toks (.int t n)) = Low.tok textCaps (.int t n) := by simp [toks, lower]
    rw [hl, intTok textCaps rfl rfl rfl rfl rfl rfl rfl rfl]
    have hi : run textStep [.int .i64 n] {} = .err () {} := rfl
    have hw : Option.bind (run textStep (if IntTy.i64.fits n then [.int .i64 n] else numText n) {}).toOption
        (·.extracted) = none := by
      by_cases hf : IntTy.i64.fits n = true
      · rw [if_pos hf, hi]; rfl
      · rw [if_neg hf, run_numText_text]; rfl
    by_cases ht : t = .i128
    · rw [if_pos ht]; exact hw
    · rw [if_neg ht]
      by_cases hs : signed t = true
      · rw [if_pos hs, hi]; rfl
      · rw [if_neg hs]; exact hw
  | _ => rfl

/-- C07. `to_binary` returns `Some(s)` exactly when the value, under its wrappers, is binary made of
the single borrowed fragment `s`. -/
theorem C07_binary_exact (v : V) :
    toBinary (valueOf v) = match leaf v with | .binary _ fs => soleBorrowed fs | _ => none := by
  have hT := leaf_ne_tagged v
  have hE := leaf_ne_enum v
  have hH := leaf_ne_hint v
  rw [toBinary, valueOf, extract_ofToks, lower_leaf binaryCaps rfl rfl rfl]
  generalize leaf v = u at *
  cases u with
  | tagged m v => exact absurd rfl (hT m v)
  | enum m v => exact absurd rfl (hE m v)
  | hint t v => exact absurd rfl (hH t v)
  | binary n fs =>
    have hl : lower binaryCaps (toks (.binary n fs))
        = .binaryBegin n :: lower binaryCaps (fs.map binFragTok ++ [.binaryEnd]) := rfl
    rw [hl, run_cons]
    show Option.bind (Res.toOption (run binaryStep _ _)) _ = _
    rw [binFrags_run]
    show _ = soleBorrowed fs
    exact frags_sole fs
  | tag m =>
    have hl : lower binaryCaps (toks (.tag m)) = Low.tok binaryCaps (.tag m) := by simp [toks, lower]
    rw [hl]
    rcases tagShape binaryCaps rfl rfl m with h | ⟨l, _, _, _, h⟩ | ⟨l, h⟩ <;> (rw [h]; rfl)
  | int t n =>
    have hl : lower binaryCaps (toks (.int t n)) = Low.tok binaryCaps (.int t n) := by simp [toks, lower]
    rw [hl, intTok binaryCaps rfl rfl rfl rfl rfl rfl rfl rfl]
    have hi : run binaryStep [.int .i64 n] {} = .err () {} := rfl
    have hw : Option.bind (run binaryStep (if IntTy.i64.fits n then [.int .i64 n] else numText n) {}).toOption
        (·.extracted) = none := by
      by_cases hf : IntTy.i64.fits n = true
      · rw [if_pos hf, hi]; rfl
      · rw [if_neg hf, run_numText binaryStep (fun _ _ => rfl)]; rfl
    by_cases ht : t = .i128
    · rw [if_pos ht]; exact hw
    · rw [if_neg ht]
      by_cases hs : signed t = true
      · rw [if_pos hs, hi]; rfl
      · rw [if_neg hs]; exact hw
  | _ => rfl

example : toText (valueOf (.tagged someMeta (.text (some 2) [.borrowed (t! "hi")]))) = some (t! "hi") :=
  by decide +kernel
example : toText (valueOf (.text none [.borrowed (t! "h"), .borrowed (t! "i")])) = none ∧
    toText (valueOf (.text none [.computed (t! "hi")])) = none ∧
    toText (valueOf (.seq none [.text none [.borrowed (t! "hi")]])) = none := by decide +kernel
example : toBinary (valueOf (.enum {} (.binary none [.borrowed [1, 2]]))) = some [1, 2] := by
  decide +kernel

/-! ## C10 -/

theorem exec_option_some {σ : Type} (S : Token → σ → σ × Bool)
    (h1 : ∀ s, S (.taggedBegin someMeta) s = (s, true)) (h2 : ∀ s, S (.taggedEnd someMeta) s = (s, true))
    (p : Prog) (s : σ) : exec S (optionProg (some p)) .base s = exec S p .base s := by
  simp only [optionProg, exec, Wrapper.tok, h1, Prog.andThen, Wrapper.valueTarget]
  cases h : (exec S p .base s).2 with
  | false => simp [exec, ← h]
  | true =>
    simp [exec, Wrapper.tok, h2, ← h]

/-- C10. Extraction through the stream agrees with the delegation `Option` implements: for any code
`p`, what the default extractors get out of the calls `Some(p)` makes is what they get out of `p`,
and they get nothing out of `None`. -/
theorem C10_option_stream (p : Prog) :
    (Ext.toBool (optionProg (some p)) = Ext.toBool p ∧ toF32 (optionProg (some p)) = toF32 p ∧
      toF64 (optionProg (some p)) = toF64 p ∧ (∀ t, toInt t (optionProg (some p)) = toInt t p) ∧
      toText (optionProg (some p)) = toText p ∧ toBinary (optionProg (some p)) = toBinary p) ∧
    (Ext.toBool (optionProg none) = none ∧ toF32 (optionProg none) = none ∧
      toF64 (optionProg none) = none ∧ (∀ t, toInt t (optionProg none) = none) ∧
      toText (optionProg none) = none ∧ toBinary (optionProg none) = none) := by
  have e : ∀ (σ : Type) (c : Caps) (step : Token → σ → Res Unit σ) (s : σ), c.tagged = false →
      extract c step s (optionProg (some p)) = extract c step s p := by
    intro σ c step s hc
    simp only [extract]
    rw [exec_option_some (stepS c step) (by intro s; simp [stepS, Low.tok, Low.taggedBegin, hc, Res.pair])
      (by intro s; simp [stepS, Low.tok, Low.taggedEnd, hc, Res.pair])]
  have i1 : toI128 (optionProg (some p)) = toI128 p := by simp only [toI128]; rw [e _ _ _ _ rfl]
  have i2 : toU128 (optionProg (some p)) = toU128 p := by simp only [toU128]; rw [e _ _ _ _ rfl]
  refine ⟨⟨?_, ?_, ?_, ?_, ?_, ?_⟩, by decide +kernel, by decide +kernel, by decide +kernel, ?_,
    by decide +kernel, by decide +kernel⟩
  · simp only [Ext.toBool]; rw [e _ _ _ _ rfl]
  · simp only [toF32]; rw [e _ _ _ _ rfl]
  · simp only [toF64]; rw [e _ _ _ _ rfl]
  · intro t; cases t <;> simp only [toInt, i1, i2]
  · simp only [toText]; rw [e _ _ _ _ rfl]
  · simp only [toBinary]; rw [e _ _ _ _ rfl]
  · intro t; cases t <;> decide +kernel

/-- C10. `Some(v)` extracts what `v` extracts even if `v` overrides the conversions, `None` extracts
nothing, and options nest. -/
theorem C10_option_transparent (p : Prog) (v : Extracts) :
    (Extracts.option (some (p, v)) = { v with tag := some tags.RUST_OPTION_SOME }) ∧
    (Extracts.option none =
      { tag := some tags.RUST_OPTION_NONE, toBool := none, toF32 := none, toF64 := none,
        toInt := fun _ => none, toText := none, toBinary := none }) := by
  have keep : ∀ (p : Prog) (w : Wrapper) (s : TagSt), s.set = true → (exec tagStep p w s).1 = s := by
    intro p w s hs
    exact exec_inv tagStep (fun s' => s' = s) (by
      rintro t s' rfl
      cases t <;> simp [tagStep, TagSt.doSet, hs]) p w s rfl
  have ht : Ext.tag (optionProg (some p)) = some tags.RUST_OPTION_SOME := by
    simp only [Ext.tag, optionProg, exec, Wrapper.tok]
    have h0 : tagStep (.taggedBegin someMeta) {} = ({ value := some tags.RUST_OPTION_SOME, set := true }, true) := rfl
    rw [h0]
    rw [keep _ _ _ rfl]
  constructor
  · simp [Extracts.option, ht]
  · simp only [Extracts.option, Option.map_none, Option.bind_none]
    rfl

example : (Extracts.option (some (.call (.int .i32 7) .ret, Extracts.ofInt .i32 7))).toInt .i32 = some 7 := by
  decide +kernel

/-! ## C45 -/

/-- Specification: the tag of a value is the tag of its outermost tagged part, `NUMBER` for numbers. -/
def tagSpec : V → Option Tag
  | .tag m => m.tag
  | .tagged m _ => m.tag
  | .enum m _ => m.tag
  | .record m _ _ => m.tag
  | .tuple m _ _ => m.tag
  | .recordTuple m _ _ => m.tag
  | .int _ _ => some tags.NUMBER
  | .f32 _ => some tags.NUMBER
  | .f64 _ => some tags.NUMBER
  | .hint _ v => tagSpec v
  | _ => none

/-- C45. `Value::tag` returns exactly the tag of the outermost tagged value, enum, record, tuple or
bare tag, `NUMBER` for a number, and nothing for anything else: contents never leak out. -/
theorem C45_tag_exact (v : V) : Ext.tag (valueOf v) = tagSpec v := by
  have keep : ∀ (p : Prog) (w : Wrapper) (s : TagSt), s.set = true → (exec tagStep p w s).1 = s := by
    intro p w s hs
    exact exec_inv tagStep (fun s' => s' = s) (by
      rintro t s' rfl
      cases t <;> simp [tagStep, TagSt.doSet, hs]) p w s rfl
  have first : ∀ (t : Token) (ts : List Token) (x : Option Tag),
      tagStep t {} = ({ value := x, set := true }, true) →
      (exec tagStep (Prog.ofToks (t :: ts)) .base {}).1.value = x := by
    intro t ts x h
    simp only [Prog.ofToks, exec, Wrapper.tok, h]
    rw [keep _ _ _ rfl]
  have fail : ∀ (t : Token) (ts : List Token), tagStep t {} = ({}, false) →
      (exec tagStep (Prog.ofToks (t :: ts)) .base {}).1.value = none := by
    intro t ts h
    simp only [Prog.ofToks, exec, Wrapper.tok, h]
  unfold Ext.tag valueOf
  induction v using V.ind with
  | hint t v ih => exact ih
  | int t n =>
    have h1 : (tagStep (.int t n) {}).1 = { value := some tags.NUMBER, set := true } := by
      simp only [tagStep]; split <;> rfl
    simp only [toks, Prog.ofToks, exec, Wrapper.tok, tagSpec]
    rw [h1, keep _ _ _ rfl]
  | null => exact fail _ _ rfl
  | bool b => exact fail _ _ rfl
  | text n fs => exact fail _ _ rfl
  | binary n fs => exact fail _ _ rfl
  | seq n xs => exact fail _ _ rfl
  | map n xs => exact fail _ _ rfl
  | _ => exact first _ _ _ rfl

example : Ext.tag (valueOf (.hint tags.VALUE_IDENT (.tagged someMeta (.int .u8 1))))
    = some tags.RUST_OPTION_SOME := by decide +kernel

end Sval
