import Verif.Rust.Extracts
import Verif.Props.Rust
import Verif.Props.ExtractText

set_option autoImplicit false

/-!
# Conversions of Rust values: C57
-/

namespace Sval
open Ext Rust

/-! ## C10 -/

/-- C10. The calls of an option, for any stream, also one that fails: `Some(v)` is the value tagged as the variant `Some`, with
index 1, and `None` is the variant with index 0. They are the calls that the model of Rust types (C57, C59) makes. -/
theorem C10_option_calls {σ : Type} (S : Token → σ → σ × Bool) (v : V) (s : σ) :
    exec S (optionProg (some (valueOf v))) .base s =
      exec S (valueOf (.tagged (Rust.variant tags.RUST_OPTION_SOME (t! "Some") 1) v)) .base s ∧
    exec S (optionProg none) .base s =
      exec S (valueOf (.tag (Rust.variant tags.RUST_OPTION_NONE (t! "None") 0))) .base s := by
  have ha : ∀ (a : List Token) (t : Token) (s : σ), exec S (Prog.ofToks (a ++ [t])) .base s =
      if (exec S (Prog.ofToks a) .base s).2 then S t (exec S (Prog.ofToks a) .base s).1
      else exec S (Prog.ofToks a) .base s := by
    intro a t
    induction a with
    | nil =>
      intro s
      show exec S (.call t _) .base s = if true then S t s else _
      rw [exec]
      cases h : (S (Wrapper.base.tok t) s).2 <;> simp only [Prog.ofToks, exec, if_true] <;> exact Prod.ext rfl h.symm
    | cons u a ih =>
      intro s
      show exec S (.call u _) .base s = _
      rw [exec]
      have e : exec S (Prog.ofToks (u :: a)) .base s = exec S (if (S u s).2 then Prog.ofToks a else .ret false) .base (S u s).1 := by
        rw [Prog.ofToks, exec]; cases h : (S u s).2 <;> simp [Wrapper.tok, h]
      rw [e]
      cases h : (S u s).2 <;> simp [Wrapper.tok, h, exec, ih]
  constructor
  · show _ = exec S (Prog.ofToks (Token.taggedBegin _ :: (toks v ++ [Token.taggedEnd _]))) .base s
    rw [Prog.ofToks, exec, optionProg, exec]
    have e : Rust.variant tags.RUST_OPTION_SOME (t! "Some") 1 = someMeta := rfl
    rw [e]
    cases h : (S (Wrapper.base.tok (.taggedBegin someMeta)) s).2 with
    | false => rfl
    | true =>
      simp only [Prog.andThen]
      rw [ha, exec]
      cases h' : (exec S (valueOf v) Wrapper.base.valueTarget (S (Wrapper.base.tok (.taggedBegin someMeta)) s).1).2 with
      | false =>
        have h'' : (exec S (Prog.ofToks (toks v)) .base (S (Wrapper.base.tok (.taggedBegin someMeta)) s).1).2 = false := h'
        rw [h'']
        simp only [Prog.andThen, exec]
        exact Prod.ext rfl h'.symm
      | true =>
        have h'' : (exec S (Prog.ofToks (toks v)) .base (S (Wrapper.base.tok (.taggedBegin someMeta)) s).1).2 = true := h'
        rw [h'']
        rfl
  · have e : Rust.variant tags.RUST_OPTION_NONE (t! "None") 0 = noneMeta := rfl
    rw [e]
    exact ha [] (.tag noneMeta) s ▸ rfl

example : valueOf (tree (.some (.int .u8 1))) = valueOf (.tagged (Rust.variant tags.RUST_OPTION_SOME (t! "Some") 1) (.int .u8 1)) ∧
    valueOf (tree .none) = valueOf (.tag (Rust.variant tags.RUST_OPTION_NONE (t! "None") 0)) := ⟨rfl, rfl⟩

/-! ## C57 -/

/-- The default methods see the value that the type streams. -/
theorem streamed_eq (x : RV) (hx : ok x) : streamed x = Extracts.default (valueOf (tree x)) := by
  have e : ∀ (σ : Type) (c : Caps) (step : Token → σ → Res Unit σ) (s : σ),
      extract c step s (Nested.prog (items x)) = extract c step s (valueOf (tree x)) := by
    intro σ c step s
    simp only [extract, (C38 (stepS c step) x hx s).1]
  simp only [streamed, Extracts.default, Ext.tag, Ext.toBool, toF32, toF64, toText, toBinary, toInt, toI128, toU128, e,
    (C38 tagStep x hx {}).1]

theorem default_int (t : IntTy) (v : Int) : Extracts.default (.call (.int t v) .ret) = Extracts.default (valueOf (.int t v)) := by
  have h : ∀ (σ : Type) (S : Token → σ → σ × Bool) (s : σ),
      exec S (.call (.int t v) .ret) .base s = exec S (valueOf (.int t v)) .base s := by
    intro σ S s
    simp only [valueOf, toks, Prog.ofToks, exec, Wrapper.tok]
    cases h : (S (.int t v) s).2 <;> simp [exec]
  simp only [Extracts.default, Ext.tag, Ext.toBool, toF32, toF64, toText, toBinary, toInt, toI128, toU128, extract, h]

/-- C57, as far as it holds: the conversions to booleans, floats, text and bytes of any standard or derived value give what
the default conversions, which look at what is streamed, give. An integer conversion gives at least that.

Missing: integer conversions that give more (`C57_fails_int`; `C57_ints` says which), and the tags of transparent newtypes
(`C57_fails_tag`; `C57_tag_partial` is about all others). -/
theorem C57_partial (x : RV) (hx : ok x) :
    ((extracts x).toBool = (streamed x).toBool ∧ (extracts x).toF32 = (streamed x).toF32 ∧
      (extracts x).toF64 = (streamed x).toF64 ∧ (extracts x).toText = (streamed x).toText ∧
      (extracts x).toBinary = (streamed x).toBinary) ∧
    ((∀ t n, leaf (tree x) = .int t n → t.fits n = true) → ∀ t n, (streamed x).toInt t = some n → (extracts x).toInt t = some n) := by
  induction x using extracts.induct with
  | case1 b =>
    rw [streamed_eq _ hx]
    simp only [extracts, streamed_eq _ hx, Extracts.default, C08_bool_exact, tree, leaf]
    simp
  | case2 t v =>
    rw [streamed_eq _ hx]
    refine ⟨by simp [extracts, Extracts.ofInt, default_int, tree], fun hf u n h => ?_⟩
    have hf := hf t v rfl
    simp only [extracts, C09_int_widths_partial t u v hf]
    have hd := C08_int_exact u (.int t v) (by intro u n e; cases e; exact hf)
    simp only [Extracts.default, tree, hd, leaf] at h
    split at h
    · rename_i h1
      refine (if_pos ⟨?_, h1.2⟩).trans h
      rcases h1.1 with h1 | h1
      · exact .inr (.inr ⟨h1.2, h1.1⟩)
      · exact .inr (.inl h1)
    · cases h
  | case3 b =>
    rw [streamed_eq _ hx]
    simp only [extracts, streamed_eq _ hx, Extracts.default, C08_f32_exact, tree, leaf]
    simp
  | case4 b =>
    rw [streamed_eq _ hx]
    simp only [extracts, streamed_eq _ hx, Extracts.default, C08_f64_exact, tree, leaf]
    simp
  | case5 s =>
    rw [streamed_eq _ hx]
    simp only [extracts, streamed_eq _ hx, Extracts.default, C07_text_exact, tree, leaf]
    simp [soleBorrowed]
  | case6 s =>
    rw [streamed_eq _ hx]
    simp only [extracts, streamed_eq _ hx, Extracts.default, C07_binary_exact, tree, leaf]
    simp [soleBorrowed]
  | case7 s =>
    rw [streamed_eq _ hx]
    simp only [extracts, streamed_eq _ hx, Extracts.default, C07_binary_exact, tree, leaf]
    simp [soleBorrowed]
  | case8 =>
    rw [streamed_eq _ hx]
    refine ⟨⟨?_, ?_, ?_, ?_, ?_⟩, fun _ t n h => ?_⟩
    on_goal 6 =>
      simp only [Extracts.default] at h
      rw [C08_int_exact _ _ (by simp [tree, leaf])] at h
      cases h
    all_goals simp [extracts, Extracts.option, Extracts.default, C08_bool_exact, C08_f32_exact,
      C08_f64_exact, C07_text_exact, C07_binary_exact, tree, leaf, variant]
  | case9 v ih =>
    obtain ⟨⟨h1, h2, h3, h4, h5⟩, h6⟩ := ih hx
    rw [streamed_eq _ hx]
    rw [streamed_eq _ (show ok v from hx)] at h1 h2 h3 h4 h5 h6
    simp only [Extracts.default, C08_bool_exact, C08_f32_exact, C08_f64_exact, C07_text_exact, C07_binary_exact] at h1 h2 h3 h4 h5
    refine ⟨?_, fun hf t n h => ?_⟩
    · simp only [extracts, Extracts.option, Option.bind_some, h1, h2, h3, h4, h5, Extracts.default, C08_bool_exact, C08_f32_exact,
        C08_f64_exact, C07_text_exact, C07_binary_exact, tree, leaf, and_self]
    · refine h6 hf t n ?_
      simp only [Extracts.default] at h ⊢
      rw [C08_int_exact _ (tree v) hf]
      rw [C08_int_exact _ _ hf] at h
      exact h
  | case10 v ih => exact ih hx
  | case14 d i vs h => simp [extracts, h]
  | case15 d i vs h => simp [extracts, h]
  | _ => simp [extracts]

/-- C57. Exactly which integers a standard or derived value converts to: an integer, also in options, references and boxes, as
C09 says, and any other value as what it streams says. -/
theorem C57_ints (x : RV) (hx : ok x) (hf : ∀ t n, leaf (tree x) = .int t n → t.fits n = true) (t : IntTy) (n : Int) :
    (extracts x).toInt t = some n ↔ t.fits n = true ∧ ∃ u, leaf (tree x) = .int u n ∧
      ((intOf x).isSome = true ∧ u = t ∨ signed t = false ∧ signed u = false ∨ signed t = true ∧ u = .i128) := by
  have base : ∀ x, ok x → (∀ t n, leaf (tree x) = .int t n → t.fits n = true) →
      ((streamed x).toInt t = some n ↔ t.fits n = true ∧ ∃ u, leaf (tree x) = .int u n ∧
        (signed t = false ∧ signed u = false ∨ signed t = true ∧ u = .i128)) := by
    intro x hx hf
    rw [streamed_eq _ hx]
    simp only [Extracts.default, C08_int_exact t _ hf]
    cases leaf (tree x) <;> simp
    rename_i u m
    constructor
    · rintro ⟨⟨h1, h2⟩, rfl⟩
      exact ⟨h2, rfl, h1.symm⟩
    · rintro ⟨h2, rfl, h1⟩
      exact ⟨⟨h1.symm, h2⟩, rfl⟩
  induction x using extracts.induct with
  | case2 u v =>
    have hf := hf u v rfl
    simp only [extracts, C09_int_widths_partial u t v hf, tree, leaf, intOf]
    constructor
    · intro h
      split at h
      · rename_i h1
        cases h
        refine ⟨h1.2, u, rfl, ?_⟩
        rcases h1.1 with h | h | h
        · exact .inl ⟨rfl, h.symm⟩
        · exact .inr (.inl h)
        · exact .inr (.inr ⟨h.2, h.1⟩)
      · cases h
    · rintro ⟨h1, u', h2, h3⟩
      cases h2
      refine if_pos ⟨?_, h1⟩
      rcases h3 with h | h | h
      · exact .inl h.2.symm
      · exact .inr (.inl h)
      · exact .inr (.inr ⟨h.2, h.1⟩)
  | case8 => 
    rw [show (extracts RV.none).toInt t = none from rfl]
    simp [tree, leaf]
  | case9 v ih => exact ih hx hf
  | case10 v ih => exact ih hx hf
  | case14 d i vs h => simpa [extracts, h, intOf] using base _ hx hf
  | case15 d i vs h => simpa [extracts, h, intOf] using base _ hx hf
  | _ => simpa [extracts, intOf] using base _ hx hf

theorem tagSpec_struct (named : Bool) (at' : Derive.Attrs) (m : Meta) (fs : List Derive.Field) (vs : List V) :
    tagSpec (Derive.structTree named at' m fs vs) = m.tag := by
  simp only [Derive.structTree]
  split <;> rfl

/-- C57, for tags, as far as it holds: `Value::tag` is the tag that is streamed.

Missing: transparent newtypes, for which it is false (`C57_fails_tag`). -/
theorem C57_tag_partial (x : RV) (hx : ok x) (ht : notTransparent x = true) : (extracts x).tag = (streamed x).tag := by
  induction x using extracts.induct with
  | case10 v ih => exact ih hx ht
  | case9 v ih =>
    rw [streamed_eq _ hx]
    simp only [extracts, C10_option_transparent, Extracts.default, C45_tag_exact]
    rfl
  | case8 => rfl
  | case2 t v =>
    rw [streamed_eq _ hx]
    simp only [extracts, Extracts.ofInt, default_int]
    rfl
  | case13 named ident at' fs vs =>
    simp only [extracts]
    rw [streamed_eq _ hx]
    simp only [Extracts.default, C45_tag_exact, tree, tagSpec_struct]
  | case12 ident at' transparent v =>
    simp only [notTransparent, Bool.not_eq_true'] at ht
    subst ht
    simp only [extracts]
    rw [streamed_eq _ hx]
    simp only [Extracts.default, C45_tag_exact, tree, Bool.false_eq_true, if_false, tagSpec]
  | case14 d i vs h => simp [extracts, h]
  | case15 d i vs h =>
    simp only [extracts, h]
    rw [streamed_eq _ hx]
    obtain ⟨⟨v, hv, _⟩, _⟩ := hx
    simp only [Extracts.default, C45_tag_exact, tree, hv, h, Bool.false_eq_true, if_false, tagSpec]
  | _ => 
    rw [streamed_eq _ hx]
    simp only [extracts, streamed_eq _ hx, Extracts.default, C45_tag_exact, tree, tagSpec]
    try rfl

/-- Specification: if a value, without references, is a transparent newtype, the tag its type is given and the value in it. -/
def seeThrough : RV → Option (Option Tag × RV)
  | .newtype _ at' true v => some (at'.tag, v)
  | .boxed v => seeThrough v
  | _ => none

/-- C57. Exactly when `Value::tag` is the tag that is streamed: unless the value is a transparent newtype, always; and then just
if the tag in its attribute, which is not streamed, is the one that the value in it streams. -/
theorem C57_tag_exact (x : RV) (hx : ok x) :
    (extracts x).tag = (streamed x).tag ↔ ∀ t v, seeThrough x = some (t, v) → t = (streamed v).tag := by
  induction x using extracts.induct with
  | case10 v ih => exact ih hx
  | case12 ident at' transparent v =>
    cases transparent with
    | false => exact ⟨fun _ t v h => (nomatch h), fun _ => C57_tag_partial _ hx rfl⟩
    | true =>
      have h : (streamed (.newtype ident at' true v)).tag = (streamed v).tag := by
        rw [streamed_eq _ hx, streamed_eq v hx]
        rfl
      rw [h]
      refine ⟨fun h t v' hs => ?_, fun h => h _ _ rfl⟩
      simp only [seeThrough, Option.some.injEq, Prod.mk.injEq] at hs
      rw [← hs.1, ← hs.2, ← h]
      rfl
  | case14 d i vs h => exact ⟨fun _ t v h => by simp [seeThrough] at h, fun _ => C57_tag_partial _ hx rfl⟩
  | case15 d i vs h => exact ⟨fun _ t v h => by simp [seeThrough] at h, fun _ => C57_tag_partial _ hx rfl⟩
  | case16 x h1 h2 h3 h4 h5 h6 h7 h8 h9 h10 h11 h12 h13 h14 =>
    cases x <;> first
      | exact ⟨fun _ t v h => by simp [seeThrough] at h, fun _ => C57_tag_partial _ hx rfl⟩
      | exact absurd rfl (h12 _ _ _ _)
      | simp_all
  | _ => exact ⟨fun _ t v h => by simp [seeThrough] at h, fun _ => C57_tag_partial _ hx rfl⟩

/-- A transparent newtype around a number, with the tag of numbers. -/
example : seeThrough (.boxed (.newtype (t! "N") { tag := some tags.NUMBER } true (.int .u8 1))) = some (some tags.NUMBER, .int .u8 1) ∧
    (streamed (.int .u8 1)).tag = some tags.NUMBER :=
  ⟨rfl, by decide +kernel⟩

/-- Boxed text in an option, and a struct with a tag. -/
example : ok (.some (.boxed (.str (t! "a")))) ∧ (extracts (.some (.boxed (.str (t! "a"))))).toText = some (t! "a") :=
  ⟨trivial, rfl⟩

example : (extracts (.boxed (.struct true (t! "S") { tag := some tags.NUMBER } [{ ident := some (t! "a") }] [.null]))).tag =
    some tags.NUMBER ∧ notTransparent (.boxed (.struct true (t! "S") { tag := some tags.NUMBER } [{ ident := some (t! "a") }] [.null])) = true :=
  ⟨rfl, rfl⟩

/-- C57 is false for integers: an integer converts to its type, but a transparent newtype of it does not, and streams the
same. -/
theorem C57_fails_int : tree (.newtype (t! "N") {} true (.int .i32 1)) = tree (.int .i32 1) ∧
    (extracts (.int .i32 1)).toInt .i32 = some 1 ∧
    (extracts (.newtype (t! "N") {} true (.int .i32 1))).toInt .i32 = none := by
  refine ⟨rfl, by decide +kernel, by decide +kernel⟩

/-- C57 is false for the tags of transparent newtypes. -/
theorem C57_fails_tag : ∃ x, ok x ∧ (streamed x).tag = some tags.RUST_OPTION_SOME ∧ (extracts x).tag = none :=
  ⟨.newtype (t! "N") {} true (.some .null), trivial, by decide +kernel, rfl⟩

end Sval
