import Verif.Props.Buffer
import Verif.Props.TextBuf
import Verif.Props.Extract
import Verif.Props.ExtractText

set_option autoImplicit false

/-!
# Conversions of buffered values: C96
-/

namespace Sval
open Buf Nested

/-- What a `ValueBuf` or `Value` does when it is streamed: the calls of `replay`, with those of text and bytes handed over by
`value` and `value_computed`. -/
def Buf.St.prog (b : St) : Prog := Nested.prog (regroup (replay b.parts).toks)

theorem flat_regroup (ts : List Token) (c : Bool) : flat (regroup ts) c = flat (ts.map .tok) c := by
  induction ts using regroup.induct with
  | case1 n f r ih => simp only [regroup, flat, Item.flat, List.map_cons, ih]; cases c <;> rfl
  | case2 n f r ih => simp only [regroup, flat, Item.flat, List.map_cons, ih]; cases c <;> rfl
  | case3 n f r ih => simp only [regroup, flat, Item.flat, List.map_cons, ih]; cases c <;> rfl
  | case4 t r h1 h2 h3 ih => rw [regroup.eq_4 _ _ h1 h2 h3]; simp only [flat, Item.flat, List.map_cons, ih]
  | case5 => rfl

/-- A buffer that replays the calls of a value streams as that value, to any stream. -/
theorem Buf.St.streamsAs {b : St} {v : V} (h : replay b.parts = ⟨toks v, false⟩) : StreamsAs b.prog v := by
  unfold St.prog
  rw [h]
  exact streamsAs_of_flat fun c => flat_regroup _ c

theorem StreamsAs.extract {p : Prog} {v : V} (h : StreamsAs p v) {σ : Type} (c : Caps) (step : Token → σ → Res Unit σ) (s : σ) :
    extract c step s p = extract c step s (valueOf v) := by
  unfold Sval.extract; rw [h.base]

/-- What is the same of two pieces of code: everything `Value` can be converted to except text and bytes, and its tag. -/
structure SameNumbers (p q : Prog) : Prop where
  bool : Ext.toBool p = Ext.toBool q
  f32 : Ext.toF32 p = Ext.toF32 q
  f64 : Ext.toF64 p = Ext.toF64 q
  int : ∀ t, Ext.toInt t p = Ext.toInt t q
  tag : Ext.tag p = Ext.tag q

theorem StreamsAs.numbers {p : Prog} {v : V} (h : StreamsAs p v) : SameNumbers p (valueOf v) := by
  have hi : Ext.toI128 p = Ext.toI128 (valueOf v) := by unfold Ext.toI128; rw [h.extract]
  have hu : Ext.toU128 p = Ext.toU128 (valueOf v) := by unfold Ext.toU128; rw [h.extract]
  exact ⟨by unfold Ext.toBool; rw [h.extract], by unfold Ext.toF32; rw [h.extract], by unfold Ext.toF64; rw [h.extract],
    fun t => by unfold Ext.toInt; rw [hi, hu], by unfold Ext.tag; rw [h.base]⟩

theorem StreamsAs.toText {p : Prog} {v : V} (h : StreamsAs p v) : Ext.toText p = Ext.toText (valueOf v) := by
  unfold Ext.toText; rw [h.extract]

theorem StreamsAs.toBinary {p : Prog} {v : V} (h : StreamsAs p v) : Ext.toBinary p = Ext.toBinary (valueOf v) := by
  unfold Ext.toBinary; rw [h.extract]

theorem leaf_norm (v : V) : leaf (norm v) = norm (leaf v) := by
  induction v using V.ind <;> simp_all [leaf, norm]

theorem leaf_comp (v : V) : leaf (comp v) = comp (leaf v) := by
  induction v using V.ind <;> simp_all [leaf, comp]

theorem tagSpec_norm (v : V) : tagSpec (norm v) = tagSpec v := by
  induction v using V.ind <;> simp_all [tagSpec, norm, Buf.own]

theorem tagSpec_comp (v : V) : tagSpec (comp v) = tagSpec v := by
  induction v using V.ind <;> simp_all [tagSpec, comp]

theorem toI128_norm (v : V) : Ext.toI128 (valueOf (norm v)) = Ext.toI128 (valueOf v) := by
  rw [toI128_leaf, toI128_leaf, leaf_norm]; cases leaf v <;> rfl
theorem toU128_norm (v : V) : Ext.toU128 (valueOf (norm v)) = Ext.toU128 (valueOf v) := by
  rw [toU128_leaf, toU128_leaf, leaf_norm]; cases leaf v <;> rfl
theorem toI128_comp (v : V) : Ext.toI128 (valueOf (comp v)) = Ext.toI128 (valueOf v) := by
  rw [toI128_leaf, toI128_leaf, leaf_comp]; cases leaf v <;> rfl
theorem toU128_comp (v : V) : Ext.toU128 (valueOf (comp v)) = Ext.toU128 (valueOf v) := by
  rw [toU128_leaf, toU128_leaf, leaf_comp]; cases leaf v <;> rfl

theorem SameNumbers.trans {p q r : Prog} (h : SameNumbers p q) (h' : SameNumbers q r) : SameNumbers p r :=
  ⟨h.bool.trans h'.bool, h.f32.trans h'.f32, h.f64.trans h'.f64, fun t => (h.int t).trans (h'.int t), h.tag.trans h'.tag⟩

theorem sameNumbers_norm (v : V) : SameNumbers (valueOf (norm v)) (valueOf v) where
  bool := by rw [C08_bool_exact, C08_bool_exact, leaf_norm]; cases leaf v <;> rfl
  f32 := by rw [C08_f32_exact, C08_f32_exact, leaf_norm]; cases leaf v <;> rfl
  f64 := by rw [C08_f64_exact, C08_f64_exact, leaf_norm]; cases leaf v <;> rfl
  int := fun t => by unfold Ext.toInt; rw [toI128_norm, toU128_norm]
  tag := by rw [C45_tag_exact, C45_tag_exact, tagSpec_norm]

theorem sameNumbers_comp (v : V) : SameNumbers (valueOf (comp v)) (valueOf v) where
  bool := by rw [C08_bool_exact, C08_bool_exact, leaf_comp]; cases leaf v <;> rfl
  f32 := by rw [C08_f32_exact, C08_f32_exact, leaf_comp]; cases leaf v <;> rfl
  f64 := by rw [C08_f64_exact, C08_f64_exact, leaf_comp]; cases leaf v <;> rfl
  int := fun t => by unfold Ext.toInt; rw [toI128_comp, toU128_comp]
  tag := by rw [C45_tag_exact, C45_tag_exact, tagSpec_comp]

/-- Specification: the slice a list of fragments ends with, borrowed, if there is nothing in those before it. -/
def lastBorrowed {α : Type} (fs : List (Frag (List α))) : Option (List α) :=
  match fs.getLast? with
  | none => some []
  | some (.computed _) => none
  | some (.borrowed s) => if fs.dropLast.all (·.content.isEmpty) then some s else none

/-- Specification: the static text of the label of a tag, which is its text. -/
def labelText? (m : Meta) : Option Text :=
  if m.tag = some tags.RUST_OPTION_NONE then none
  else m.label.bind fun l => if l.backing = .static then some l.text else none

theorem own_labelText (m : Meta) : labelText? (Buf.own m) = labelText? m := by
  obtain ⟨t, l, i⟩ := m
  cases l with
  | none => rfl
  | some l =>
    simp only [labelText?, Buf.own, Option.map_some, Option.bind_some]
    obtain ⟨x, b, g⟩ := l
    cases b <;> rfl

theorem sole_merged {α : Type} (fs : List (Frag (List α))) : soleBorrowed [mergedFrag fs] = lastBorrowed fs := by
  unfold lastBorrowed mergedFrag merged
  cases fs.getLast? with
  | none => rfl
  | some f =>
    cases f with
    | computed f => rfl
    | borrowed f =>
      simp only [List.length_eq_zero_iff, List.flatten_eq_nil_iff, List.all_eq_true, List.isEmpty_iff, List.mem_map,
        forall_exists_index, and_imp, forall_apply_eq_imp_iff₂]
      split <;> rfl

theorem converts_of_replay (v : V) (b : St) (h2 : replay b.parts = ⟨toks (norm v), false⟩) :
    SameNumbers b.prog (valueOf v) ∧
      Ext.toText b.prog = (match leaf v with
        | .text _ fs => lastBorrowed fs
        | .tag m => labelText? m
        | _ => none) ∧
      Ext.toBinary b.prog = (match leaf v with
        | .binary _ fs => lastBorrowed fs
        | _ => none) := by
  have h := St.streamsAs h2
  refine ⟨h.numbers.trans (sameNumbers_norm v), ?_, ?_⟩
  · rw [h.toText, C07_text_exact, leaf_norm]
    cases leaf v with
    | text n fs => exact sole_merged fs
    | tag m => exact own_labelText m
    | _ => rfl
  · rw [h.toBinary, C07_binary_exact, leaf_norm]
    cases leaf v with
    | binary n fs => exact sole_merged fs
    | _ => rfl

/-- C96. What a buffer that was collected is converted to: to booleans and numbers exactly what the value is, and it has the
same tag. To text, the borrowed fragment at the end of a text that has nothing before it, or the static label of a tag. -/
theorem C96 (v : V) :
    ∃ b, collect true false (valueOf v) = .ok b ∧ SameNumbers b.prog (valueOf v) ∧
      Ext.toText b.prog = (match leaf v with
        | .text _ fs => lastBorrowed fs
        | .tag m => labelText? m
        | _ => none) ∧
      Ext.toBinary b.prog = (match leaf v with
        | .binary _ fs => lastBorrowed fs
        | _ => none) :=
  let ⟨b, h1, h2⟩ := (C15_collect v).1
  ⟨b, h1, converts_of_replay v b h2⟩

/-- C96 without an allocator, of what can be collected. -/
theorem C96_noalloc (v : V) (b : St) (hb : collect false false (valueOf v) = .ok b) :
    SameNumbers b.prog (valueOf v) ∧
      Ext.toText b.prog = (match leaf v with
        | .text _ fs => lastBorrowed fs
        | .tag m => labelText? m
        | _ => none) ∧
      Ext.toBinary b.prog = (match leaf v with
        | .binary _ fs => lastBorrowed fs
        | _ => none) := by
  rcases C15_without_alloc v with ⟨b', h1, h2⟩ | h
  · rw [h1] at hb
    cases hb
    exact converts_of_replay v b h2
  · rw [h] at hb; cases hb

example : (match collect false false (valueOf (.text none [.borrowed [], .borrowed (t! "a")])) with
    | .ok b => Ext.toText b.prog | _ => none) = some (t! "a") := by decide +kernel

/-- C96. In particular whatever text or bytes the value is converted to, so is its buffer. -/
theorem C96_keeps (v : V) :
    ∃ b, collect true false (valueOf v) = .ok b ∧
      (∀ s, Ext.toText (valueOf v) = some s → Ext.toText b.prog = some s) ∧
      (∀ s, Ext.toBinary (valueOf v) = some s → Ext.toBinary b.prog = some s) := by
  have key : ∀ {α : Type} (fs : List (Frag (List α))) (s : List α), soleBorrowed fs = some s → lastBorrowed fs = some s := by
    intro α fs s h
    match fs with
    | [.borrowed f] => exact h
    | [] => cases h
    | [.computed _] => cases h
    | .computed _ :: _ :: _ => cases h
    | .borrowed _ :: _ :: _ => cases h
  obtain ⟨b, h1, _, h2, h3⟩ := C96 v
  refine ⟨b, h1, fun s hs => ?_, fun s hs => ?_⟩
  · rw [h2]
    rw [C07_text_exact] at hs
    revert hs
    cases leaf v with
    | text n fs => exact key fs s
    | _ => exact id
  · rw [h3]
    rw [C07_binary_exact] at hs
    revert hs
    cases leaf v with
    | binary n fs => exact key fs s
    | _ => exact id

/-- Whether there are no fragments at all. -/
def noFrags {α : Type} (fs : List (Frag (List α))) : Option (List α) := if fs.isEmpty then some [] else none

/-- C96. A buffer collected by `collect_owned`: numbers and tags as before; of text there is only that of static labels, and
text and bytes that were never given a fragment. -/
theorem C96_owned (v : V) :
    ∃ b, collect true true (valueOf v) = .ok b ∧ SameNumbers b.prog (valueOf v) ∧
      Ext.toText b.prog = (match leaf v with
        | .text _ fs => noFrags fs
        | .tag m => labelText? m
        | _ => none) ∧
      Ext.toBinary b.prog = (match leaf v with
        | .binary _ fs => noFrags fs
        | _ => none) := by
  have key : ∀ {α : Type} (fs : List (Frag (List α))), lastBorrowed (fs.map fragComp) = noFrags fs := by
    intro α fs
    unfold lastBorrowed noFrags
    rw [List.getLast?_map]
    rcases List.eq_nil_or_concat fs with rfl | ⟨P, f, rfl⟩
    · rfl
    · rw [List.concat_eq_append, List.getLast?_concat]
      cases f <;> simp [fragComp]
  obtain ⟨b, h1, h2⟩ := (C15_collect v).2
  have h := St.streamsAs h2
  refine ⟨b, h1, (h.numbers.trans (sameNumbers_norm _)).trans (sameNumbers_comp v), ?_, ?_⟩
  · rw [h.toText, C07_text_exact, leaf_norm, leaf_comp]
    cases leaf v with
    | text n fs => exact (sole_merged _).trans (key fs)
    | tag m => exact own_labelText m
    | _ => rfl
  · rw [h.toBinary, C07_binary_exact, leaf_norm, leaf_comp]
    cases leaf v with
    | binary n fs => exact (sole_merged _).trans (key fs)
    | _ => rfl

/-- A text in two fragments, the first of them empty, is text only once it has been buffered, and not if it is owned. -/
example : Ext.toText (valueOf (.enum {} (.text none [.computed [], .borrowed (t! "a")]))) = none ∧
    (match collect true false (valueOf (.enum {} (.text none [.computed [], .borrowed (t! "a")]))) with
      | .ok b => Ext.toText b.prog | _ => none) = some (t! "a") ∧
    (match collect true true (valueOf (.enum {} (.text none [.computed [], .borrowed (t! "a")]))) with
      | .ok b => Ext.toText b.prog | _ => none) = none ∧
    (match collect true true (valueOf (.enum { tag := some tags.NUMBER } (.int .u8 3))) with
      | .ok b => (Ext.toInt .u64 b.prog, Ext.tag b.prog) | _ => (none, none)) = (some 3, some tags.NUMBER) := by decide +kernel

end Sval
