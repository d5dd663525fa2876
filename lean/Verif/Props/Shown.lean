import Verif.Props.Kept
import Verif.Props.FmtDebug

set_option autoImplicit false

/-!
# C106. Different values of a type are printed differently

What is in a value can be told from what `sval_fmt` prints, if its type is known.
-/

namespace Sval

open Nested (prog)
open Rust
open Derive (Field Attrs Shape Variant EnumDef)
open Fmt (Out lay commas brackets parens braces entry layout twice)
open FmtDebug (text_append text_lay text_commas text_brackets text_parens text_braces text_entry)

namespace Shown

/-! ## Words -/

/-- Characters that are neither punctuation nor spaces of the layout. -/
def part (c : Char) : Bool := !['"', '(', ')', '[', ']', '{', '}', ',', ':', ' '].contains c

/-- What identifiers are like. -/
def Word (w : Text) : Prop := w ≠ [] ∧ w.all part = true

/-- A word that came before would end here. -/
def Stops (r : Text) : Prop := ∀ c r', r = c :: r' → part c = false

theorem stops_nil : Stops [] := fun _ _ h => by cases h

theorem stops_cons {c : Char} (h : part c = false) (r : Text) : Stops (c :: r) := fun _ _ e => by cases e; exact h

theorem stops_append {a : Text} (h : Stops a) (hne : a ≠ []) (r : Text) : Stops (a ++ r) := by
  cases a with
  | nil => exact absurd rfl hne
  | cons c a => exact stops_cons (h c a rfl) _

theorem word_inj {v w : Text} (hv : v.all part = true) (hw : w.all part = true) {r s : Text} (hr : Stops r) (hs : Stops s)
    (h : v ++ r = w ++ s) : v = w ∧ r = s := by
  induction v generalizing w with
  | nil =>
    cases w with
    | nil => exact ⟨rfl, h⟩
    | cons c w =>
      simp only [List.all_cons, Bool.and_eq_true] at hw
      rw [hr c _ h] at hw
      exact absurd hw.1 (by decide)
  | cons c v ih =>
    simp only [List.all_cons, Bool.and_eq_true] at hv
    cases w with
    | nil =>
      rw [hs c _ h.symm] at hv
      exact absurd hv.1 (by decide)
    | cons d w =>
      simp only [List.all_cons, Bool.and_eq_true] at hw
      simp only [List.cons_append, List.cons.injEq] at h
      obtain ⟨h1, h2⟩ := ih hv.2 hw.2 h.2
      exact ⟨by rw [h.1, h1], h2⟩

theorem part_digit {c : Char} (h : isDigit c = true) : part c = true := by
  simp only [isDigit, Bool.and_eq_true, decide_eq_true_eq] at h
  have h1 : 48 ≤ c.toNat := h.1
  have h2 : c.toNat ≤ 57 := h.2
  simp only [part, Bool.not_eq_true', List.contains_eq_mem, decide_eq_false_iff_not]
  intro hm
  have : ∀ x ∈ ['"', '(', ')', '[', ']', '{', '}', ',', ':', ' '], ¬ (48 ≤ x.toNat ∧ x.toNat ≤ 57) := by decide
  exact this c hm ⟨h1, h2⟩

theorem intDec_word (v : Int) : Word (intDec v) := by
  have h : (natDec v.natAbs).all part = true := by
    rw [List.all_eq_true]
    intro c hc
    exact part_digit (List.all_eq_true.1 (natDec_digits v.natAbs) c hc)
  refine ⟨?_, ?_⟩
  · intro e
    have := readInt_intDec v
    rw [e] at this
    cases this
  · rw [intDec]
    split
    · rw [List.all_cons, h]; rfl
    · exact h

/-! ## What can be read -/

/-- It does not look like the end of a list. -/
def Starts (t : Text) : Prop := ∃ c r, t = c :: r ∧ c ≠ ']'

theorem Word.starts {w : Text} (h : Word w) (r : Text) : Starts (w ++ r) := by
  obtain ⟨hne, hp⟩ := h
  cases w with
  | nil => exact absurd rfl hne
  | cons c w =>
    refine ⟨c, w ++ r, rfl, ?_⟩
    rintro rfl
    simp only [List.all_cons, Bool.and_eq_true] at hp
    exact absurd hp.1 (by decide)

/-- Something and its text. Whatever comes next, the text says which of the two it is, and where it ends. -/
def Tells {α : Type} (a b : α × Text) : Prop :=
  ∀ r s, Stops r → Stops s → a.2 ++ r = b.2 ++ s → a.1 = b.1 ∧ r = s

theorem tells_join {α : Type} {as bs : List (α × Text)} (hn : as = [] ↔ bs = [])
    (h : ∀ (i : Nat) a b, as[i]? = some a → bs[i]? = some b → Tells a b) {c : Char} (hc : part c = false) (hk : c ≠ ',')
    {r s : Text} (e : join (as.map Prod.snd) ++ c :: r = join (bs.map Prod.snd) ++ c :: s) :
    as.map Prod.fst = bs.map Prod.fst ∧ r = s := by
  induction as generalizing bs with
  | nil =>
    rw [hn.1 rfl] at e ⊢
    simp only [List.map_nil, join, List.nil_append, List.cons.injEq, true_and] at e
    exact ⟨rfl, e⟩
  | cons a as ih =>
    cases bs with
    | nil => cases hn.2 rfl
    | cons b bs =>
      have h0 := h 0 a b rfl rfl
      have hs : ∀ (y : α × Text) (l : List (α × Text)), join ((y :: l).map Prod.snd) = y.2 ++ (if l = [] then [] else t! ", " ++ join (l.map Prod.snd)) := by
        intro y l
        cases l with
        | nil => simp [join]
        | cons z l => simp [join]
      rw [hs, hs, List.append_assoc, List.append_assoc] at e
      have hst : ∀ (l : List (α × Text)) (r : Text), Stops ((if l = [] then [] else t! ", " ++ join (l.map Prod.snd)) ++ c :: r) := by
        intro l r
        split
        · exact stops_cons hc _
        · exact stops_cons (by decide) _
      obtain ⟨h1, h2⟩ := h0 _ _ (hst as r) (hst bs s) e
      have hn' : as = [] ↔ bs = [] := by
        constructor
        · rintro rfl
          cases bs with
          | nil => rfl
          | cons z l => simp at h2; exact absurd h2.1 hk
        · rintro rfl
          cases as with
          | nil => rfl
          | cons z l => simp at h2; exact absurd h2.1.symm hk
      have h3 : join (as.map Prod.snd) ++ c :: r = join (bs.map Prod.snd) ++ c :: s := by
        by_cases ha : as = []
        · rw [if_pos ha, if_pos (hn'.1 ha)] at h2
          rw [ha, hn'.1 ha]; exact h2
        · rw [if_neg ha, if_neg (fun h => ha (hn'.2 h))] at h2
          simpa using h2
      obtain ⟨h4, h5⟩ := ih hn' (fun i a b ha hb => h (i + 1) a b ha hb) h3
      exact ⟨by rw [List.map_cons, List.map_cons, h1, h4], h5⟩

/-- Lists of any length, in brackets. -/
theorem tells_list {α : Type} {as bs : List (α × Text)} (ha : ∀ a ∈ as, Starts a.2) (hb : ∀ b ∈ bs, Starts b.2)
    (h : ∀ (i : Nat) a b, as[i]? = some a → bs[i]? = some b → Tells a b) {r s : Text}
    (e : debugList (as.map Prod.snd) ++ r = debugList (bs.map Prod.snd) ++ s) : as.map Prod.fst = bs.map Prod.fst ∧ r = s := by
  simp only [debugList, List.append_assoc, List.cons_append, List.nil_append, List.cons.injEq, true_and] at e
  refine tells_join ?_ h (by decide) (by decide) e
  have hj : ∀ (l : List (α × Text)), (∀ a ∈ l, Starts a.2) → l ≠ [] → ∀ u, ∃ c u', join (l.map Prod.snd) ++ u = c :: u' ∧ c ≠ ']' := by
    intro l hl hne u
    cases l with
    | nil => exact absurd rfl hne
    | cons a l =>
      obtain ⟨c, t, ht, hc⟩ := hl a (by simp)
      cases l with
      | nil => exact ⟨c, t ++ u, by simp [join, ht], hc⟩
      | cons b l => exact ⟨c, _, by simp only [List.map_cons, join, ht, List.cons_append]; rfl, hc⟩
  constructor
  · rintro rfl
    apply Classical.byContradiction
    intro hne
    obtain ⟨c, u, hu, hc⟩ := hj bs hb hne (']' :: s)
    rw [hu] at e
    simp only [List.map_nil, join, List.nil_append, List.cons.injEq] at e
    exact hc e.1.symm
  · rintro rfl
    apply Classical.byContradiction
    intro hne
    obtain ⟨c, u, hu, hc⟩ := hj as ha hne (']' :: r)
    rw [hu] at e
    simp only [List.map_nil, join, List.nil_append, List.cons.injEq] at e
    exact hc e.1

/-! ## What is printed -/

section
variable (env : Fmt.Env)

/-- What is printed for a value. -/
def say (v : V) : Text := Out.text (layout env twice false v)

theorem sayData (f : Field) (v : V) (h : f.dataTag ≠ some tags.NUMBER) : say env (Derive.data f v) = say env v := by
  unfold Derive.data
  cases ht : f.dataTag with
  | none => rfl
  | some t =>
    rw [ht] at h
    have : t ≠ tags.NUMBER := fun e => h (by rw [e])
    simp [say, layout, this]

theorem saySeq (xs : List V) : Fmt.layoutSeq env twice xs = xs.map (layout env twice false) := by
  induction xs with
  | nil => rfl
  | cons x xs ih => rw [Fmt.layoutSeq, ih]; rfl
theorem sayMap (xs : List (V × V)) :
    Fmt.layoutMap env twice xs = xs.map fun x => entry (layout env twice false x.1) (layout env twice false x.2) := by
  induction xs with
  | nil => rfl
  | cons x xs ih => rw [Fmt.layoutMap, ih]; rfl
theorem sayRec (xs : List (Option Tag × Label × V)) :
    Fmt.layoutRec env twice xs = xs.map fun x => entry (lay .ident x.2.1.text) (layout env twice false x.2.2) := by
  induction xs with
  | nil => rfl
  | cons x xs ih => rw [Fmt.layoutRec, ih]; rfl
theorem sayTup (xs : List (Option Tag × Index × V)) :
    Fmt.layoutTup env twice xs = xs.map fun x => layout env twice false x.2.2 := by
  induction xs with
  | nil => rfl
  | cons x xs ih => rw [Fmt.layoutTup, ih]; rfl
theorem sayRT (xs : List (Option Tag × Label × Index × V)) :
    Fmt.layoutRT env twice xs = xs.map fun x => entry (lay .ident x.2.1.text) (layout env twice false x.2.2.2) := by
  induction xs with
  | nil => rfl
  | cons x xs ih => rw [Fmt.layoutRT, ih]; rfl

theorem text_braces' (xs : List Out) : Out.text (braces xs) =
    (if xs = [] then t! "{" else t! "{ ") ++ join (xs.map Out.text) ++ (if xs = [] then t! "}" else t! " }") := by
  by_cases h : xs = []
  · subst h; rfl
  · rw [text_braces xs h, if_neg h, if_neg h]

/-- How structs are printed: the label, something, the values in the fields, each behind something, and something. -/
structure Frame where
  pre : Text
  field : Field → Text
  last : Char
  post : Text
  hpre : Stops pre
  hpre' : pre ≠ []
  hlast : part last = false
  hcomma : last ≠ ','

/-- The text of a struct with these values. -/
def Frame.text (F : Frame) (l : Text) (fs : List Field) (ts : List Text) : Text :=
  l ++ (F.pre ++ (join ((fs.zip ts).map fun r => F.field r.1 ++ r.2) ++ F.last :: F.post))

theorem sayStruct (named : Bool) (at' : Attrs) (fs : List Field) (hs : ∀ f ∈ fs, f.skip = false ∧ f.dataTag ≠ some tags.NUMBER) :
    ∃ F : Frame, ∀ (m : Meta) (l : Label) (vs : List V), m.label = some l → fs.length = vs.length →
      say env (Derive.structTree named at' m fs vs) = F.text l.text fs (vs.map (say env)) := by
  have hrows : ∀ us : List V, Derive.rows fs us = fs.zip us := by
    intro us
    rw [Derive.rows, List.filter_eq_self]
    intro r hr
    rw [(hs r.1 (List.of_mem_zip hr).1).1]; rfl
  have hf : ∀ (us : List V) (g : Field → Text), (fs.zip us).map (fun r => g r.1 ++ say env (Derive.data r.1 r.2)) =
      (fs.zip (us.map (say env))).map fun r => g r.1 ++ r.2 := by
    intro us g
    rw [List.zip_map_right, List.map_map]
    refine List.map_congr_left fun r hr => ?_
    rw [sayData env _ _ (hs r.1 (List.of_mem_zip hr).1).2]; rfl
  have hf' : ∀ (us : List V), (fs.zip us).map (fun r => say env (Derive.data r.1 r.2)) =
      (fs.zip (us.map (say env))).map fun r => ([] : Text) ++ r.2 := fun us => hf us fun _ => []
  -- whether there are labels and indexes does not depend on the values
  have hl : ∀ us : List V, fs.length = us.length → Derive.labeled named at' (fs.zip us) = Derive.labeled named at' (fs.zip fs) := by
    intro us hu
    cases fs with
    | nil => rfl
    | cons f fs => cases us with
      | nil => cases hu
      | cons u us => rfl
  have hi : ∀ us : List V, fs.length = us.length → Derive.indexed at' (fs.zip us) = Derive.indexed at' (fs.zip fs) := by
    intro us hu
    cases fs with
    | nil => rfl
    | cons f fs => cases us with
      | nil => cases hu
      | cons u us => rfl
  have hz : ∀ us : List V, fs.length = us.length → ∀ {β : Type} (g : Field × V → β), ((fs.zip us).map g = []) = (fs = []) := by
    intro us hu β g
    cases fs with
    | nil => simp
    | cons f fs => cases us with
      | nil => cases hu
      | cons u us => simp
  have he : ∀ (us : List V) {β : Type} (g : Field × V → β), (Derive.entries (fs.zip us)).map (fun r => g r.1) = (fs.zip us).map g :=
    fun us _ g => FmtDebug.entries_map _ g
  let rec' : Frame := { pre := if fs = [] then t! " {" else t! " { ", field := fun f => (Derive.name f).text ++ t! ": ", last := if fs = [] then '}' else ' ', post := if fs = [] then [] else t! "}", hpre := by split <;> exact stops_cons (by decide) _, hpre' := by split <;> exact List.cons_ne_nil _ _, hlast := by split <;> decide, hcomma := by split <;> decide }
  let tup : Frame := { pre := t! "(", field := fun _ => [], last := ')', post := [], hpre := stops_cons (by decide) _, hpre' := List.cons_ne_nil _ _, hlast := by decide, hcomma := by decide }
  let seq : Frame := { pre := t! "([", field := fun _ => [], last := ']', post := t! ")", hpre := stops_cons (by decide) _, hpre' := List.cons_ne_nil _ _, hlast := by decide, hcomma := by decide }
  cases hL : Derive.labeled named at' (fs.zip fs) with
  | true =>
    refine ⟨rec', fun m l vs hm hv => ?_⟩
    have key : ∀ (xs : List (Field × V)), xs = fs.zip vs →
        Out.text (Fmt.recordOut m (xs.map fun r => entry (lay .ident (Derive.name r.1).text) (layout env twice false (Derive.data r.1 r.2)))) =
        rec'.text l.text fs (vs.map (say env)) := by
      rintro xs rfl
      simp only [Fmt.recordOut, hm, text_append, text_lay, text_braces', List.map_map, Function.comp_def, text_entry, hz vs hv, Frame.text]
      have := hf vs fun f => (Derive.name f).text ++ t! ": "
      rw [show (fun r : Field × V => (Derive.name r.1).text ++ t! ": " ++ Out.text (layout env twice false (Derive.data r.1 r.2))) =
        fun r => (Derive.name r.1).text ++ t! ": " ++ say env (Derive.data r.1 r.2) from rfl, this]
      by_cases h0 : fs = []
      · simp [rec', h0]
      · simp [rec', h0]
    cases hI : Derive.indexed at' (fs.zip fs) with
    | true =>
      simp only [Derive.structTree, hrows, hl vs hv, hi vs hv, hL, hI, say, layout, sayRT, List.map_map, Function.comp_def]
      rw [he vs fun r => entry (lay .ident (Derive.name r.1).text) (layout env twice false (Derive.data r.1 r.2))]
      exact key _ rfl
    | false =>
      simp only [Derive.structTree, hrows, hl vs hv, hi vs hv, hL, hI, say, layout, sayRec, List.map_map, Function.comp_def]
      exact key _ rfl
  | false =>
    cases hI : Derive.indexed at' (fs.zip fs) with
    | true =>
      refine ⟨tup, fun m l vs hm hv => ?_⟩
      simp only [Derive.structTree, hrows, hl vs hv, hi vs hv, hL, hI, say, layout, sayTup, List.map_map, Function.comp_def]
      rw [he vs fun r => layout env twice false (Derive.data r.1 r.2)]
      simp only [Fmt.labelled, hm, text_append, text_lay, text_parens, List.map_map, Function.comp_def, Frame.text]
      have := hf' vs
      simp only [say] at this
      rw [this]
      simp [tup]
    | false =>
      refine ⟨seq, fun m l vs hm hv => ?_⟩
      simp only [Derive.structTree, hrows, hl vs hv, hi vs hv, hL, hI, say, layout, saySeq, List.map_map, Function.comp_def, hm]
      simp only [text_append, text_lay, text_parens, text_brackets, List.map_map, Function.comp_def, Frame.text, List.map_cons, List.map_nil, join, debugList]
      have := hf' vs
      simp only [say] at this
      rw [this]
      simp [seq]

/-- The values in two structs with the same text are the same. -/
theorem Frame.tells (F : Frame) (l : Text) (fs : List Field) (xs ys : List RV) (hx : fs.length = xs.length) (hy : fs.length = ys.length)
    (h : ∀ (i : Nat) x y, xs[i]? = some x → ys[i]? = some y → Tells (x, say env (tree x)) (y, say env (tree y))) {r s : Text}
    (e : F.text l fs (xs.map fun x => say env (tree x)) ++ r = F.text l fs (ys.map fun x => say env (tree x)) ++ s) : xs = ys ∧ r = s := by
  simp only [Frame.text, List.append_assoc] at e
  have e' := List.append_cancel_left (List.append_cancel_left e)
  have hm : ∀ us : List RV, (fs.zip (us.map fun x => say env (tree x))).map (fun r => F.field r.1 ++ r.2) =
      ((fs.zip us).map fun r => (r.2, F.field r.1 ++ say env (tree r.2))).map Prod.snd := by
    intro us
    rw [List.zip_map_right, List.map_map, List.map_map]; rfl
  have hm' : ∀ us : List RV, fs.length = us.length → ((fs.zip us).map fun r => (r.2, F.field r.1 ++ say env (tree r.2))).map Prod.fst = us := by
    intro us hu
    rw [List.map_map]
    exact List.map_snd_zip (Nat.le_of_eq hu.symm)
  rw [hm, hm, List.cons_append, List.cons_append] at e'
  obtain ⟨h1, h2⟩ := tells_join (by
    cases fs with
    | nil => simp
    | cons f fs => cases xs with
      | nil => cases hx
      | cons x xs => cases ys with
        | nil => cases hy
        | cons y ys => simp) (by
    intro i a b ha hb
    rw [List.getElem?_map] at ha hb
    cases hza : (fs.zip xs)[i]? with
    | none => rw [hza] at ha; cases ha
    | some p =>
      cases hzb : (fs.zip ys)[i]? with
      | none => rw [hzb] at hb; cases hb
      | some q =>
        rw [hza] at ha
        rw [hzb] at hb
        cases ha; cases hb
        rw [List.getElem?_zip_eq_some] at hza hzb
        have hpq : p.1 = q.1 := Option.some.inj (hza.1.symm.trans hzb.1)
        intro r s hr hs e
        simp only [hpq, List.append_assoc] at e
        exact h i p.2 q.2 hza.2 hzb.2 r s hr hs (List.append_cancel_left e)) F.hlast F.hcomma e'
  rw [hm' xs hx, hm' ys hy] at h1
  exact ⟨h1, List.append_cancel_left h2⟩

end

end Shown

/-! ## Types -/

namespace Ty

open Shown

/-- Different values are printed differently: they are not floats, structs and variants are called by words, variants each by
another, no field is skipped, and no text is printed as a number. -/
def shown : Ty → Prop
  | .f32 | .f64 => False
  | .option t | .boxed t | .slice t | .array t => t.shown
  | .newtype n a b t => (b = false → Word (Derive.labelOr a.label n).text ∧ a.tag ≠ some tags.NUMBER) ∧ t.shown
  | .tuple _ ts => ∀ i, (ts i).shown
  | .map k t => k.shown ∧ t.shown
  | .unitStruct n a => Word (Derive.labelOr a.label n).text
  | .struct _ n a fs ts => Word (Derive.labelOr a.label n).text ∧ (∀ f ∈ fs, f.skip = false ∧ f.dataTag ≠ some tags.NUMBER) ∧
      ∀ i, (ts i).shown
  | .enum d ts => d.dyn = false ∧ d.unlabeledVariants = false ∧
      (∀ v ∈ d.variants, Word (Derive.labelOr v.attrs.label v.ident).text ∧ v.attrs.tag ≠ some tags.NUMBER ∧
        ∀ f ∈ fieldsOf v.shape, f.skip = false ∧ f.dataTag ≠ some tags.NUMBER) ∧
      (∀ (i i' : Nat) (v v' : Variant), d.variants[i]? = some v → d.variants[i']? = some v' →
        (Derive.labelOr v.attrs.label v.ident).text = (Derive.labelOr v'.attrs.label v'.ident).text → i = i') ∧
      ∀ i k, (ts i k).shown
  | _ => True

end Ty

namespace Shown

section
variable (env : Fmt.Env)

/-- A text that is a word, or a label and what is in brackets. -/
theorem say_tag (m : Meta) (l : Label) (h : m.label = some l) : say env (.tag m) = l.text := by
  simp [say, layout, Fmt.name, h, text_lay]

theorem say_tagged (m : Meta) (l : Label) (h : m.label = some l) (ht : m.tag ≠ some tags.NUMBER) (v : V) :
    say env (.tagged m v) = l.text ++ '(' :: (say env v ++ t! ")") := by
  simp [say, layout, h, ht, text_append, text_lay, text_parens, join]

theorem say_bare (m : Meta) (h : m.label = none) (ht : m.tag ≠ some tags.NUMBER) (v : V) :
    say env (.tagged m v) = say env v := by
  simp [say, layout, h, ht]

/-- What follows the variant of an enum. -/
def tail (m : Meta) (v : V) : Text := Out.text (twice m v)

theorem say_enum (m : Meta) (v : V) : say env (.enum m v) = say env v ++ tail m v := by
  simp [say, layout, text_append, tail]

/-- Variants: the text is a word, or that of a newtype, or that of a struct. -/
theorem sayVariant (d : EnumDef) (v : Variant) (i : Option Index) (hd : d.dyn = false) (hu : d.unlabeledVariants = false)
    (ht : v.attrs.tag ≠ some tags.NUMBER) (hs : ∀ f ∈ fieldsOf v.shape, f.skip = false ∧ f.dataTag ≠ some tags.NUMBER) :
    (v.shape = .unit ∧ ∀ vs m, say env (.enum m (Derive.variantTree d v i vs)) = (Derive.labelOr v.attrs.label v.ident).text) ∨
    ∃ (F : Frame) (fs : List Field), (∀ n, okVariant v n → fs.length = n) ∧ ∀ vs, fs.length = vs.length →
      say env (Derive.variantTree d v i vs) = F.text (Derive.labelOr v.attrs.label v.ident).text fs (vs.map (say env)) := by
  have hn : Derive.variantName d v = some (Derive.labelOr v.attrs.label v.ident) := by simp [Derive.variantName, hd, hu]
  cases hsh : v.shape with
  | unit =>
    refine .inl ⟨rfl, fun vs m => ?_⟩
    simp only [Derive.variantTree, hsh]
    rw [say_enum, say_tag env _ _ hn]
    simp [tail, twice, Fmt.hollow, Out.text]
  | newtype =>
    refine .inr ⟨{ pre := t! "(", field := fun _ => [], last := ')', post := [], hpre := stops_cons (by decide) _, hpre' := List.cons_ne_nil _ _, hlast := by decide, hcomma := by decide }, [{}], ?_, ?_⟩
    · intro n h
      simp only [okVariant, hsh] at h
      exact h.symm
    · intro vs hv
      obtain ⟨x, rfl⟩ := List.length_eq_one_iff.mp hv.symm
      simp only [Derive.variantTree, hsh, hd, Bool.false_eq_true, if_false]
      rw [say_tagged env _ _ hn ht]
      simp [Frame.text, join]
  | named fs =>
    rw [hsh] at hs
    obtain ⟨F, hF⟩ := sayStruct env true v.attrs fs hs
    refine .inr ⟨F, fs, ?_, ?_⟩
    · intro n h
      simp only [okVariant, hsh] at h
      exact h.2.2
    · intro vs hv
      simp only [Derive.variantTree, hsh]
      exact hF _ _ vs hn hv
  | unnamed fs =>
    rw [hsh] at hs
    obtain ⟨F, hF⟩ := sayStruct env false v.attrs fs hs
    refine .inr ⟨F, fs, ?_, ?_⟩
    · intro n h
      simp only [okVariant, hsh] at h
      exact h.2.2
    · intro vs hv
      simp only [Derive.variantTree, hsh]
      exact hF _ _ vs hn hv

theorem say_map (f : RV → Text) (hf : ∀ x, f x = say env (tree x)) (xs : List RV) : (trees xs).map (say env) = xs.map f := by
  rw [trees_eq, List.map_map]
  exact List.map_congr_left fun x _ => (hf x).symm

theorem Frame.starts (F : Frame) {l : Text} (hl : Word l) (fs : List Field) (ts : List Text) (r : Text) : Starts (F.text l fs ts ++ r) := by
  simp only [Frame.text, List.append_assoc]
  exact hl.starts _

/-- Texts of values of a type, whatever comes next. -/
theorem tells (ty : Ty) (hk : ty.shown) : (∀ x, ty.has x → Starts (say env (tree x))) ∧
    ∀ x y, ty.has x → ty.has y → Tells (x, say env (tree x)) (y, say env (tree y)) := by
  have word : ∀ {α : Type} {a b : α × Text}, Word a.2 → Word b.2 → (a.2 = b.2 → a.1 = b.1) → Tells a b := by
    intro α a b ha hb h r s hr hs e
    obtain ⟨h1, h2⟩ := word_inj ha.2 hb.2 hr hs e
    exact ⟨h h1, h2⟩
  have lit : ∀ {x y : RV} (a b : Text), (a = b → x = y) →
      Tells (x, '"' :: (Fmt.escape env a ++ ['"'])) (y, '"' :: (Fmt.escape env b ++ ['"'])) := by
    intro x y a b h r s _ _ e
    simp only [List.cons_append, List.append_assoc, List.nil_append, List.cons.injEq, true_and] at e
    have e' := congrArg (Fmt.readLit .plain) e
    rw [Fmt.readLit_escape, Fmt.readLit_escape] at e'
    cases e'
    exact ⟨h rfl, rfl⟩
  have bytes : ∀ (a b : Bytes) (r s : Text), debugList (a.map fun c => intDec c.toNat) ++ r = debugList (b.map fun c => intDec c.toNat) ++ s → a = b ∧ r = s := by
    intro a b r s e
    have hm : ∀ a : Bytes, a.map (fun c => intDec c.toNat) = (a.map fun c => (c, intDec c.toNat)).map Prod.snd := by
      intro a; rw [List.map_map]; rfl
    have hm' : ∀ a : Bytes, (a.map fun c => (c, intDec (c.toNat : Int))).map Prod.fst = a := by
      intro a
      rw [List.map_map]
      exact List.map_id a
    have hst : ∀ a : Bytes, ∀ p ∈ a.map (fun c => (c, intDec (c.toNat : Int))), Starts p.2 := by
      intro a p hp
      obtain ⟨c, _, rfl⟩ := List.mem_map.1 hp
      simpa using (intDec_word (c.toNat : Int)).starts []
    rw [hm, hm] at e
    obtain ⟨h1, h2⟩ := tells_list (hst a) (hst b) (by
      intro i p q hp hq
      rw [List.getElem?_map] at hp hq
      cases hpa : a[i]? with
      | none => rw [hpa] at hp; cases hp
      | some c => cases hqb : b[i]? with
        | none => rw [hqb] at hq; cases hq
        | some c' =>
          rw [hpa] at hp; rw [hqb] at hq; cases hp; cases hq
          refine word (intDec_word (c.toNat : Int)) (intDec_word (c'.toNat : Int)) fun e => ?_
          have := intDec_inj (show intDec (c.toNat : Int) = intDec (c'.toNat : Int) from e)
          exact UInt8.toNat_inj.1 (by exact_mod_cast this)) e
    rw [hm', hm'] at h1
    exact ⟨h1, h2⟩
  have list : ∀ (xs ys : List RV) (hx : ∀ x ∈ xs, Starts (say env (tree x))) (hy : ∀ x ∈ ys, Starts (say env (tree x)))
      (h : ∀ (i : Nat) x y, xs[i]? = some x → ys[i]? = some y → Tells (x, say env (tree x)) (y, say env (tree y))) (r s : Text),
      debugList ((trees xs).map (say env)) ++ r = debugList ((trees ys).map (say env)) ++ s → xs = ys ∧ r = s := by
    intro xs ys hx hy h r s e
    have hm : ∀ xs : List RV, (trees xs).map (say env) = (xs.map fun x => (x, say env (tree x))).map Prod.snd := by
      intro xs; rw [trees_eq, List.map_map, List.map_map]; rfl
    have hm' : ∀ xs : List RV, (xs.map fun x => (x, say env (tree x))).map Prod.fst = xs := by
      intro xs
      rw [List.map_map]
      exact List.map_id xs
    rw [hm, hm] at e
    obtain ⟨h1, h2⟩ := tells_list (by
      intro p hp
      obtain ⟨x, hx', rfl⟩ := List.mem_map.1 hp
      exact hx x hx') (by
      intro p hp
      obtain ⟨x, hx', rfl⟩ := List.mem_map.1 hp
      exact hy x hx') (by
      intro i p q hp hq
      rw [List.getElem?_map] at hp hq
      cases hpa : xs[i]? with
      | none => rw [hpa] at hp; cases hp
      | some c => cases hqb : ys[i]? with
        | none => rw [hqb] at hq; cases hq
        | some c' =>
          rw [hpa] at hp; rw [hqb] at hq; cases hp; cases hq
          exact h i c c' hpa hqb) e
    rw [hm', hm'] at h1
    exact ⟨h1, h2⟩
  have hseq : ∀ n xs, say env (.seq n xs) = debugList (xs.map (say env)) := by
    intro n xs
    simp only [say, layout, saySeq, text_brackets, List.map_map]; rfl
  have hbin : ∀ n b, say env (.binary n [.borrowed b]) = debugList (b.map fun c => intDec c.toNat) := by
    intro n b
    simp [say, layout, text_brackets, Function.comp_def, text_lay, fragsBytes, Frag.content]
  have htext : ∀ n fs, say env (.text n fs) = '"' :: (Fmt.escape env (fragsText fs) ++ ['"']) := by
    intro n fs
    simp [say, layout, text_lay]
  have hlist : ∀ xs r, Starts (debugList xs ++ r) := fun xs r => ⟨'[', _, rfl, by decide⟩
  induction ty with
  | unit =>
    refine ⟨?_, ?_⟩
    · intro x hx
      cases x <;> first | exact (show False from hx).elim | skip
      exact ⟨'(', [')'], rfl, by decide⟩
    · intro x y hx hy
      cases x <;> first | exact (show False from hx).elim | skip
      cases y <;> first | exact (show False from hy).elim | skip
      exact fun r s _ _ e => ⟨rfl, List.append_cancel_left e⟩
  | f32 | f64 => exact hk.elim
  | bool =>
    have hb' : ∀ b : Bool, say env (tree (.bool b)) = if b then t! "true" else t! "false" := by
      intro b; cases b <;> rfl
    have hb : ∀ b : Bool, Word (say env (tree (.bool b))) := by
      intro b
      rw [hb']
      cases b <;> exact ⟨List.cons_ne_nil _ _, by decide⟩
    refine ⟨?_, ?_⟩
    · intro x hx
      cases x <;> first | exact (show False from hx).elim | skip
      simpa using (hb _).starts []
    · intro x y hx hy
      cases x <;> first | exact (show False from hx).elim | skip
      cases y <;> first | exact (show False from hy).elim | skip
      rename_i a b
      refine word (hb a) (hb b) fun e => ?_
      simp only [hb'] at e
      cases a <;> cases b <;> first | rfl | exact absurd e (by decide)
  | int t =>
    have hi : ∀ t v, say env (tree (.int t v)) = intDec v := by
      intro t v; simp [tree, say, layout, text_lay]
    refine ⟨?_, ?_⟩
    · intro x hx
      cases x <;> first | exact (show False from hx).elim | skip
      rw [hi]
      simpa using (intDec_word _).starts []
    · intro x y hx hy
      cases x <;> first | exact (show False from hx).elim | skip
      cases y <;> first | exact (show False from hy).elim | skip
      rw [hi, hi]
      refine word (intDec_word _) (intDec_word _) fun e => ?_
      rw [intDec_inj e, show _ = t from hx, show _ = t from hy]
  | char =>
    refine ⟨?_, ?_⟩
    · intro x hx
      cases x <;> first | exact (show False from hx).elim | skip
      rw [tree, htext]
      exact ⟨_, _, rfl, by decide⟩
    · intro x y hx hy
      cases x <;> first | exact (show False from hx).elim | skip
      cases y <;> first | exact (show False from hy).elim | skip
      rw [tree, tree, htext, htext]
      refine lit _ _ fun e => ?_
      simp only [fragsText, Frag.content, List.map_cons, List.map_nil, List.flatten_cons, List.flatten_nil, List.append_nil, List.cons.injEq, and_true] at e
      rw [e]
  | str =>
    refine ⟨?_, ?_⟩
    · intro x hx
      cases x <;> first | exact (show False from hx).elim | skip
      rw [tree, htext]
      exact ⟨_, _, rfl, by decide⟩
    · intro x y hx hy
      cases x <;> first | exact (show False from hx).elim | skip
      cases y <;> first | exact (show False from hy).elim | skip
      rw [tree, tree, htext, htext]
      refine lit _ _ fun e => ?_
      simp only [fragsText, Frag.content, List.map_cons, List.map_nil, List.flatten_cons, List.flatten_nil, List.append_nil] at e
      rw [e]
  | bytes =>
    refine ⟨?_, ?_⟩
    · intro x hx
      cases x <;> first | exact (show False from hx).elim | skip
      rw [tree, hbin]
      simpa using hlist _ []
    · intro x y hx hy
      cases x <;> first | exact (show False from hx).elim | skip
      cases y <;> first | exact (show False from hy).elim | skip
      rw [tree, tree, hbin, hbin]
      intro r s _ _ e
      obtain ⟨rfl, h⟩ := bytes _ _ r s e
      exact ⟨rfl, h⟩
  | byteArray =>
    have hb : ∀ b, say env (tree (.byteArray b)) = debugList (b.map fun c => intDec c.toNat) := by
      intro b
      rw [tree, say_bare env _ rfl (by decide), hbin]
    refine ⟨?_, ?_⟩
    · intro x hx
      cases x <;> first | exact (show False from hx).elim | skip
      rw [hb]
      simpa using hlist _ []
    · intro x y hx hy
      cases x <;> first | exact (show False from hx).elim | skip
      cases y <;> first | exact (show False from hy).elim | skip
      rw [hb, hb]
      intro r s _ _ e
      obtain ⟨rfl, h⟩ := bytes _ _ r s e
      exact ⟨rfl, h⟩
  | option t ih =>
    obtain ⟨_, ih⟩ := ih hk
    have hn : say env (tree .none) = t! "None" := rfl
    have hs : ∀ v, say env (tree (.some v)) = t! "Some" ++ '(' :: (say env (tree v) ++ t! ")") := by
      intro v
      rw [tree, say_tagged env _ _ rfl (by decide)]
    refine ⟨?_, ?_⟩
    · intro x hx
      cases x <;> first | exact (show False from hx).elim | skip
      · exact ⟨_, _, hn, by decide⟩
      · exact ⟨_, _, hs _, by decide⟩
    · intro x y hx hy
      cases x <;> first | exact (show False from hx).elim | skip
      · cases y <;> first | exact (show False from hy).elim | skip
        · exact fun r s _ _ e => ⟨rfl, List.append_cancel_left e⟩
        · rw [hn, hs]
          intro r s _ _ e
          simp only [List.cons_append, List.cons.injEq] at e
          exact absurd e.1 (by decide)
      · cases y <;> first | exact (show False from hy).elim | skip
        · rw [hn, hs]
          intro r s _ _ e
          simp only [List.cons_append, List.cons.injEq] at e
          exact absurd e.1 (by decide)
        · rename_i v w
          rw [hs, hs]
          intro r s _ _ e
          simp only [List.cons_append, List.append_assoc, List.nil_append, List.cons.injEq, true_and] at e
          obtain ⟨h1, h2⟩ := ih v w hx hy _ _ (stops_cons (by decide) r) (stops_cons (by decide) s) e
          cases h2
          exact ⟨congrArg RV.some h1, rfl⟩
  | boxed t ih =>
    obtain ⟨ih0, ih⟩ := ih hk
    refine ⟨?_, ?_⟩
    · intro x hx
      cases x <;> first | exact (show False from hx).elim | skip
      rename_i v
      exact ih0 v hx
    · intro x y hx hy
      cases x <;> first | exact (show False from hx).elim | skip
      cases y <;> first | exact (show False from hy).elim | skip
      rename_i v w
      intro r s hr hs e
      obtain ⟨h1, h2⟩ := ih v w hx hy r s hr hs e
      exact ⟨congrArg RV.boxed h1, h2⟩
  | slice t ih =>
    obtain ⟨ih0, ih⟩ := ih hk
    refine ⟨?_, ?_⟩
    · intro x hx
      cases x <;> first | exact (show False from hx).elim | skip
      rw [tree, hseq]
      simpa using hlist _ []
    · intro x y hx hy
      cases x <;> first | exact (show False from hx).elim | skip
      cases y <;> first | exact (show False from hy).elim | skip
      rename_i xs ys
      rw [tree, tree, hseq, hseq]
      intro r s _ _ e
      obtain ⟨h1, h2⟩ := list xs ys (fun x h => ih0 x (hx x h)) (fun x h => ih0 x (hy x h))
        (fun i x y e1 e2 => ih x y (hx x (List.mem_of_getElem? e1)) (hy y (List.mem_of_getElem? e2))) r s e
      exact ⟨congrArg RV.slice h1, h2⟩
  | array t ih =>
    obtain ⟨ih0, ih⟩ := ih hk
    refine ⟨?_, ?_⟩
    · intro x hx
      cases x <;> first | exact (show False from hx).elim | skip
      rw [tree, say_bare env _ rfl (by decide), hseq]
      simpa using hlist _ []
    · intro x y hx hy
      cases x <;> first | exact (show False from hx).elim | skip
      cases y <;> first | exact (show False from hy).elim | skip
      rename_i xs ys
      rw [tree, tree, say_bare env _ rfl (by decide), say_bare env _ rfl (by decide), hseq, hseq]
      intro r s _ _ e
      obtain ⟨h1, h2⟩ := list xs ys (fun x h => ih0 x (hx x h)) (fun x h => ih0 x (hy x h))
        (fun i x y e1 e2 => ih x y (hx x (List.mem_of_getElem? e1)) (hy y (List.mem_of_getElem? e2))) r s e
      exact ⟨congrArg RV.array h1, h2⟩
  | tuple n ts ih =>
    have hz : ∀ xs : List RV, say env (tree (.tuple xs)) = '(' :: (join ((xs.map fun x => (x, say env (tree x))).map Prod.snd) ++ t! ")") := by
      intro xs
      have h1 : ∀ us : List V, (us.zipIdx.map fun x => say env x.1) = us.map (say env) := by
        intro us
        have : us.zipIdx.map Prod.fst = us := List.zipIdx_map_fst 0 us
        conv => rhs; rw [← this]
        rw [List.map_map]; rfl
      have h2 := h1 (trees xs)
      rw [trees_eq, List.map_map] at h2
      simp only [tree, say, layout, Fmt.labelled, sayTup, text_parens, List.map_map, Function.comp_def, trees_eq] at h2 ⊢
      rw [h2]
      rfl
    refine ⟨?_, ?_⟩
    · intro x hx
      cases x <;> first | exact (show False from hx).elim | skip
      exact ⟨_, _, hz _, by decide⟩
    · intro x y hx hy
      cases x <;> first | exact (show False from hx).elim | skip
      cases y <;> first | exact (show False from hy).elim | skip
      rename_i xs ys
      rw [hz, hz]
      intro r s _ _ e
      simp only [List.cons_append, List.append_assoc, List.nil_append, List.cons.injEq, true_and] at e
      obtain ⟨h1, h2⟩ := tells_join (by
        have : xs.length = ys.length := hx.1.trans hy.1.symm
        cases xs <;> cases ys <;> simp at this ⊢) (by
        intro i p q hp hq
        rw [List.getElem?_map] at hp hq
        cases hpa : xs[i]? with
        | none => rw [hpa] at hp; cases hp
        | some c => cases hqb : ys[i]? with
          | none => rw [hqb] at hq; cases hq
          | some c' =>
            rw [hpa] at hp; rw [hqb] at hq; cases hp; cases hq
            exact (ih i (hk i)).2 c c' (hx.2 i c hpa) (hy.2 i c' hqb)) (by decide) (by decide) e
      have hm' : ∀ xs : List RV, (xs.map fun x => (x, say env (tree x))).map Prod.fst = xs := by
        intro xs
        rw [List.map_map]
        exact List.map_id xs
      rw [hm', hm'] at h1
      exact ⟨congrArg RV.tuple h1, h2⟩
  | map k t ihk ih =>
    obtain ⟨_, ihk⟩ := ihk hk.1
    obtain ⟨_, ih⟩ := ih hk.2
    have hz : ∀ ks vs : List RV, say env (tree (.map ks vs)) = '{' :: ((if ks.zip vs = [] then [] else t! " ") ++
        (join (((ks.zip vs).map fun x => (x, say env (tree x.1) ++ ':' :: ' ' :: say env (tree x.2))).map Prod.snd) ++
          (if ks.zip vs = [] then t! "}" else t! " }"))) := by
      intro ks vs
      have h1 : ((trees ks).zip (trees vs)) = (ks.zip vs).map fun x => (tree x.1, tree x.2) := by
        rw [trees_eq, trees_eq, List.zip_map]; rfl
      simp only [tree, say, layout, h1, sayMap, text_braces', List.map_map, Function.comp_def, text_entry]
      by_cases h0 : ks.zip vs = []
      · simp [h0]
      · simp [h0]
    refine ⟨?_, ?_⟩
    · intro x hx
      cases x <;> first | exact (show False from hx).elim | skip
      exact ⟨_, _, hz _ _, by decide⟩
    · intro x y hx hy
      cases x <;> first | exact (show False from hx).elim | skip
      cases y <;> first | exact (show False from hy).elim | skip
      rename_i ks vs ks' vs'
      obtain ⟨hl, hxk, hxv⟩ := hx
      obtain ⟨hl', hyk, hyv⟩ := hy
      rw [hz, hz]
      intro r s _ _ e
      simp only [List.cons_append, List.append_assoc, List.cons.injEq, true_and] at e
      have back : ∀ {as bs cs ds : List RV}, as.length = bs.length → cs.length = ds.length → as.zip bs = cs.zip ds → RV.map as bs = RV.map cs ds := by
        intro as bs cs ds h1 h2 h
        have e1 := congrArg (List.map Prod.fst) h
        have e2 := congrArg (List.map Prod.snd) h
        rw [List.map_fst_zip (Nat.le_of_eq h1), List.map_fst_zip (Nat.le_of_eq h2)] at e1
        rw [List.map_snd_zip (Nat.le_of_eq h1.symm), List.map_snd_zip (Nat.le_of_eq h2.symm)] at e2
        rw [e1, e2]
      by_cases h0 : ks.zip vs = []
      · by_cases h0' : ks'.zip vs' = []
        · simp only [h0, h0', if_true, List.map_nil, join, List.nil_append, List.cons_append, List.cons.injEq, true_and] at e
          exact ⟨back hl hl' (h0.trans h0'.symm), e⟩
        · rw [if_pos h0, if_neg h0', if_pos h0] at e
          simp only [h0, List.map_nil, join, List.nil_append, List.cons_append, List.cons.injEq] at e
          exact absurd e.1 (by decide)
      · by_cases h0' : ks'.zip vs' = []
        · rw [if_pos h0', if_neg h0, if_pos h0'] at e
          simp only [h0', List.map_nil, join, List.nil_append, List.cons_append, List.cons.injEq] at e
          exact absurd e.1 (by decide)
        · rw [if_neg h0, if_neg h0', if_neg h0, if_neg h0'] at e
          simp only [List.cons_append, List.nil_append, List.cons.injEq, true_and] at e
          obtain ⟨h1, h2⟩ := tells_join (by simp [h0, h0']) (by
            intro i p q hp hq
            rw [List.getElem?_map] at hp hq
            cases hpa : (ks.zip vs)[i]? with
            | none => rw [hpa] at hp; cases hp
            | some c => cases hqb : (ks'.zip vs')[i]? with
              | none => rw [hqb] at hq; cases hq
              | some c' =>
                rw [hpa] at hp; rw [hqb] at hq; cases hp; cases hq
                rw [List.getElem?_zip_eq_some] at hpa hqb
                intro r s hr hs e
                simp only [List.append_assoc, List.cons_append] at e
                obtain ⟨h1, h2⟩ := ihk c.1 c'.1 (hxk _ (List.mem_of_getElem? hpa.1)) (hyk _ (List.mem_of_getElem? hqb.1)) _ _ (stops_cons (by decide) _) (stops_cons (by decide) _) e
                simp only [List.cons.injEq, true_and] at h2
                obtain ⟨h3, h4⟩ := ih c.2 c'.2 (hxv _ (List.mem_of_getElem? hpa.2)) (hyv _ (List.mem_of_getElem? hqb.2)) r s hr hs h2
                exact ⟨Prod.ext h1 h3, h4⟩) (by decide) (by decide) e
          have hm' : ∀ l : List (RV × RV), (l.map fun x => (x, say env (tree x.1) ++ ':' :: ' ' :: say env (tree x.2))).map Prod.fst = l := by
            intro l
            rw [List.map_map]
            exact List.map_id l
          rw [hm', hm'] at h1
          simp only [List.cons.injEq, true_and] at h2
          exact ⟨back hl hl' h1, h2⟩
  | unitStruct n a =>
    have hs : say env (tree (.unitStruct n a)) = (Derive.labelOr a.label n).text := by
      rw [tree, say_tag env _ _ rfl]
    refine ⟨?_, ?_⟩
    · intro x hx
      cases x <;> first | exact (show False from hx).elim | skip
      obtain ⟨rfl, rfl⟩ := hx
      rw [hs]
      simpa using Word.starts hk []
    · intro x y hx hy
      cases x <;> first | exact (show False from hx).elim | skip
      cases y <;> first | exact (show False from hy).elim | skip
      obtain ⟨rfl, rfl⟩ := hx
      obtain ⟨rfl, rfl⟩ := hy
      exact fun r s _ _ e => ⟨rfl, List.append_cancel_left e⟩
  | newtype n a b t ih =>
    obtain ⟨ih0, ih⟩ := ih hk.2
    cases b with
    | true =>
      have hs : ∀ v, say env (tree (.newtype n a true v)) = say env (tree v) := by intro v; rw [tree, if_pos rfl]
      refine ⟨?_, ?_⟩
      · intro x hx
        cases x <;> first | exact (show False from hx).elim | skip
        obtain ⟨rfl, rfl, rfl, hx⟩ := hx
        rw [hs]
        exact ih0 _ hx
      · intro x y hx hy
        cases x <;> first | exact (show False from hx).elim | skip
        cases y <;> first | exact (show False from hy).elim | skip
        rename_i v _ _ _ w
        obtain ⟨rfl, rfl, rfl, hx⟩ := hx
        obtain ⟨rfl, rfl, rfl, hy⟩ := hy
        rw [hs, hs]
        intro r s hr hs e
        obtain ⟨h1, h2⟩ := ih v w hx hy r s hr hs e
        exact ⟨congrArg (RV.newtype _ _ _) h1, h2⟩
    | false =>
      obtain ⟨hw, ht⟩ := hk.1 rfl
      have hs : ∀ v, say env (tree (.newtype n a false v)) = (Derive.labelOr a.label n).text ++ '(' :: (say env (tree v) ++ t! ")") := by
        intro v
        rw [tree, if_neg (by decide), say_tagged env _ _ rfl ht]
      refine ⟨?_, ?_⟩
      · intro x hx
        cases x <;> first | exact (show False from hx).elim | skip
        obtain ⟨rfl, rfl, rfl, hx⟩ := hx
        rw [hs]
        exact hw.starts _
      · intro x y hx hy
        cases x <;> first | exact (show False from hx).elim | skip
        cases y <;> first | exact (show False from hy).elim | skip
        rename_i v _ _ _ w
        obtain ⟨rfl, rfl, rfl, hx⟩ := hx
        obtain ⟨rfl, rfl, rfl, hy⟩ := hy
        rw [hs, hs]
        intro r s hr hs e
        simp only [List.append_assoc] at e
        have e' := List.append_cancel_left e
        simp only [List.cons_append, List.append_assoc, List.nil_append, List.cons.injEq, true_and] at e'
        obtain ⟨h1, h2⟩ := ih v w hx hy _ _ (stops_cons (by decide) r) (stops_cons (by decide) s) e'
        cases h2
        exact ⟨congrArg (RV.newtype _ _ _) h1, rfl⟩
  | struct b n a fs ts ih =>
    obtain ⟨hw, hs, ht⟩ := hk
    obtain ⟨F, hF⟩ := sayStruct env b a fs hs
    have hF' : ∀ vs : List RV, fs.length = vs.length →
        say env (tree (.struct b n a fs vs)) = F.text (Derive.labelOr a.label n).text fs (vs.map fun x => say env (tree x)) := by
      intro vs hv
      rw [tree, hF _ _ _ rfl (by rw [trees_eq, List.length_map]; exact hv), say_map env (fun x => say env (tree x)) (fun _ => rfl)]
    refine ⟨?_, ?_⟩
    · intro x hx
      cases x <;> first | exact (show False from hx).elim | skip
      obtain ⟨rfl, rfl, rfl, rfl, ho, hx⟩ := hx
      rw [hF' _ ho.2.2]
      simpa using F.starts hw _ _ []
    · intro x y hx hy
      cases x <;> first | exact (show False from hx).elim | skip
      cases y <;> first | exact (show False from hy).elim | skip
      obtain ⟨rfl, rfl, rfl, rfl, ho, hx⟩ := hx
      obtain ⟨rfl, rfl, rfl, rfl, ho', hy⟩ := hy
      rw [hF' _ ho.2.2, hF' _ ho'.2.2]
      intro r s hr hs e
      obtain ⟨h1, h2⟩ := F.tells env _ _ _ _ ho.2.2 ho'.2.2 (fun i x y e1 e2 => (ih i (ht i)).2 x y (hx i x e1) (hy i y e2)) e
      exact ⟨congrArg (RV.struct _ _ _ _) h1, h2⟩
  | enum d ts ih =>
    obtain ⟨hd, hu, hv, hi, ht⟩ := hk
    have htree : ∀ i v xs, d.variants[i]? = some v → tree (.enum d i xs) =
        .enum { tag := d.tag, label := some (Derive.labelOr d.label d.ident), index := d.index.map attrIndex }
          (Derive.variantTree d v ((variantIndexes d d.variants)[i]?.getD none) (trees xs)) := by
      intro i v xs h
      simp only [tree, h, hd, Bool.false_eq_true, if_false]
    -- the label comes first
    have first' : ∀ i v xs, d.variants[i]? = some v → okVariant v xs.length →
        ∀ r, Stops r → ∃ t, Stops t ∧ say env (tree (.enum d i xs)) ++ r = (Derive.labelOr v.attrs.label v.ident).text ++ t := by
      intro i v xs h ho r hr
      obtain ⟨_, hn, hs⟩ := hv v (List.mem_of_getElem? h)
      rw [htree i v xs h]
      rcases sayVariant env d v ((variantIndexes d d.variants)[i]?.getD none) hd hu hn hs with ⟨_, h1⟩ | ⟨F, fs, h1, h2⟩
      · rw [h1]; exact ⟨r, hr, rfl⟩
      · rw [say_enum, h2 _ (by rw [h1 _ ho, trees_eq, List.length_map])]
        simp only [Frame.text, List.append_assoc]
        exact ⟨_, stops_append F.hpre F.hpre' _, rfl⟩
    refine ⟨?_, ?_⟩
    · intro x hx
      cases x <;> first | exact (show False from hx).elim | skip
      obtain ⟨rfl, ⟨v, h, ho⟩, hx⟩ := hx
      obtain ⟨t, _, e⟩ := first' _ v _ h ho [] stops_nil
      rw [List.append_nil] at e
      rw [e]
      exact (hv v (List.mem_of_getElem? h)).1.starts _
    · intro x y hx hy
      cases x <;> first | exact (show False from hx).elim | skip
      cases y <;> first | exact (show False from hy).elim | skip
      rename_i i xs d' i' ys
      obtain ⟨rfl, ⟨v, h, ho⟩, hx⟩ := hx
      obtain ⟨rfl, ⟨v', h', ho'⟩, hy⟩ := hy
      intro r s hr hs e
      have hii : i = i' := by
        obtain ⟨t, h1, e1⟩ := first' i v xs h ho r hr
        obtain ⟨t', h1', e1'⟩ := first' i' v' ys h' ho' s hs
        have := e1.symm.trans (e.trans e1')
        exact hi i i' v v' h h' (word_inj (hv v (List.mem_of_getElem? h)).1.2 (hv v' (List.mem_of_getElem? h')).1.2 h1 h1' this).1
      subst hii
      rw [h] at h'
      cases h'
      obtain ⟨_, hn, hsk⟩ := hv v (List.mem_of_getElem? h)
      simp only [htree i v _ h] at e
      rcases sayVariant env d' v ((variantIndexes d' d'.variants)[i]?.getD none) hd hu hn hsk with ⟨h0, h1⟩ | ⟨F, fs, h1, h2⟩
      · rw [h1, h1] at e
        simp only [okVariant, h0] at ho ho'
        rw [List.length_eq_zero_iff.1 ho, List.length_eq_zero_iff.1 ho']
        exact ⟨rfl, List.append_cancel_left e⟩
      · rw [say_enum, say_enum, h2 _ (by rw [h1 _ ho, trees_eq, List.length_map]), h2 _ (by rw [h1 _ ho', trees_eq, List.length_map]),
          say_map env (fun x => say env (tree x)) (fun _ => rfl), say_map env (fun x => say env (tree x)) (fun _ => rfl), List.append_assoc, List.append_assoc] at e
        obtain ⟨h3, h4⟩ := F.tells env _ _ _ _ (h1 _ ho) (h1 _ ho') (fun n x y e1 e2 => (ih i n (ht i n)).2 x y (hx n x e1) (hy n y e2)) e
        subst h3
        exact ⟨rfl, List.append_cancel_left h4⟩

end

end Shown

/-! ## C106 -/

open Shown

/-- What is printed for a Rust value. -/
theorem toString_say (env : Fmt.Env) (x : RV) (hx : ok x) : Fmt.toString env (prog (items x)) = some (say env (tree x)) := by
  have h : Fmt.toString env (prog (items x)) = Fmt.toString env (valueOf (tree x)) := by
    simp only [Fmt.toString, Fmt.toWrite, drive, (C38 _ x hx _).1]
  rw [h, C26_exact]
  rfl

/-- C106, as far as it holds: values that are printed the same are the same. Missing: floats, fields that are skipped, enums whose
variants are not told apart, labels with punctuation in them, and text that is printed as a number, for which it is false: `C106_fails_float`,
`C106_fails_skip`, `C106_fails_dynamic`, `C106_fails_label`, `C106_fails_empty` and `C106_fails_number`. -/
theorem C106_partial (env : Fmt.Env) (ty : Ty) (hk : ty.shown) (x y : RV) (hx : ty.has x) (hy : ty.has y)
    (h : Fmt.toString env (prog (items x)) = Fmt.toString env (prog (items y))) : x = y := by
  rw [toString_say env x (ty.has_ok x hx), toString_say env y (ty.has_ok y hy)] at h
  exact ((tells env ty hk).2 x y hx hy [] [] stops_nil stops_nil (by simpa using h)).1

/-- C106. A value that is printed in front of something else, which does not go on like a word, can be found there: a text begins with one
value of the type at most, and it is known where that ends. -/
theorem C106_prefix_partial (env : Fmt.Env) (ty : Ty) (hk : ty.shown) (x y : RV) (hx : ty.has x) (hy : ty.has y) (a b r s : Text)
    (ha : Fmt.toString env (prog (items x)) = some a) (hb : Fmt.toString env (prog (items y)) = some b)
    (hr : Stops r) (hs : Stops s) (h : a ++ r = b ++ s) : x = y ∧ r = s := by
  rw [toString_say env x (ty.has_ok x hx)] at ha
  rw [toString_say env y (ty.has_ok y hy)] at hb
  cases ha; cases hb
  exact (tells env ty hk).2 x y hx hy r s hr hs h

/-- C106. So there is a function that gives the value back. -/
theorem C106_decoder_partial (env : Fmt.Env) (ty : Ty) (hk : ty.shown) :
    ∃ decode : Text → Option RV, ∀ x, ty.has x → ∃ t, Fmt.toString env (prog (items x)) = some t ∧ decode t = some x := by
  classical
  refine ⟨fun t => if h : ∃ x, ty.has x ∧ Fmt.toString env (prog (items x)) = some t then some h.choose else none, fun x hx => ?_⟩
  have h1 := toString_say env x (ty.has_ok x hx)
  have h : ∃ y, ty.has y ∧ Fmt.toString env (prog (items y)) = some (say env (tree x)) := ⟨x, hx, h1⟩
  refine ⟨_, h1, ?_⟩
  simp only [dif_pos h, Option.some.injEq]
  exact C106_partial env ty hk _ _ h.choose_spec.1 hx (h.choose_spec.2.trans h1.symm)

/-- Identifiers are words. -/
theorem word_ident {w : Text} (hne : w ≠ []) (h : ∀ c ∈ w, c.isAlphanum = true ∨ c = '_' ∨ 128 ≤ c.toNat) : Word w := by
  refine ⟨hne, List.all_eq_true.2 fun c hc => ?_⟩
  simp only [part, Bool.not_eq_true', List.contains_eq_mem, decide_eq_false_iff_not]
  intro hm
  have : ∀ x ∈ ['"', '(', ')', '[', ']', '{', '}', ',', ':', ' '], ¬ (x.isAlphanum = true ∨ x = '_' ∨ 128 ≤ x.toNat) := by decide
  exact this c hm (h c hc)

/-- `struct Order`, as for C104, is such a type, and so is `Vec<Option<Option<()>>>`, which JSON loses. The defect of enums with nothing in
them (C26) loses nothing. -/
example : orderT.shown ∧ (Ty.slice (.option (.option .unit))).shown ∧
    (Ty.slice (.option (.option .unit))).has (.slice [.none, .some .none, .some (.some .unit)]) ∧
    Fmt.toString someEnv (prog (items (.slice [.none, .some .none, .some (.some .unit)]))) = some (t! "[None, Some(None), Some(Some(()))]") ∧
    Fmt.toString someEnv (prog (items (orderR (.enum kindD 1 [.slice []]) (.map [.str (t! "x")] [.some (.int .i32 (-1))])))) =
      some (t! "Order { kind: Other([])Kind, prices: { \"x\": Some(-1) } }") := by
  have ho : okFields {} [{ ident := some (t! "kind") }, { ident := some (t! "prices") }] 2 := by
    refine ⟨rfl, fun f hf => ?_, rfl⟩
    exact .inr (by simp only [List.mem_cons, List.not_mem_nil, or_false] at hf; rcases hf with rfl | rfl <;> rfl)
  refine ⟨⟨⟨nofun, by decide⟩, ?_, ?_⟩, trivial, ?_, ?_, ?_⟩
  · intro f hf
    simp only [List.mem_cons, List.not_mem_nil, or_false] at hf; rcases hf with rfl | rfl <;> exact ⟨rfl, nofun⟩
  · intro i
    match i with
    | 0 =>
      have hi : ∀ i v, kindD.variants[i]? = some v → (i = 0 ∧ v = { ident := t! "Tea", shape := .unit }) ∨ (i = 1 ∧ v = { ident := t! "Other", shape := .newtype }) := by
        intro i v h
        match i with
        | 0 => exact .inl ⟨rfl, (Option.some.inj h).symm⟩
        | 1 => exact .inr ⟨rfl, (Option.some.inj h).symm⟩
        | i + 2 => simp [kindD] at h
      refine ⟨rfl, rfl, ?_, ?_, fun _ _ => trivial⟩
      · intro v hv
        simp only [kindD, List.mem_cons, List.not_mem_nil, or_false] at hv
        rcases hv with rfl | rfl <;> exact ⟨⟨nofun, by decide⟩, nofun, fun f hf => nomatch hf⟩
      · intro i i' v v' h h' e
        rcases hi i v h with ⟨rfl, rfl⟩ | ⟨rfl, rfl⟩ <;> rcases hi i' v' h' with ⟨rfl, rfl⟩ | ⟨rfl, rfl⟩ <;>
          first | rfl | exact absurd e (by decide)
    | i + 1 => exact ⟨trivial, trivial⟩
  · intro x hx
    simp only [List.mem_cons, List.not_mem_nil, or_false] at hx
    rcases hx with rfl | rfl | rfl <;> trivial
  · rw [toString_say _ _ (show ok (.slice [.none, .some .none, .some (.some .unit)]) from ⟨trivial, trivial, trivial, trivial⟩)]; decide +kernel
  · rw [toString_say _ _ (show ok (orderR (.enum kindD 1 [.slice []]) (.map [.str (t! "x")] [.some (.int .i32 (-1))])) from ⟨ho, ⟨⟨_, rfl, rfl⟩, trivial, trivial⟩, ⟨rfl, ⟨trivial, trivial⟩, trivial, trivial⟩, trivial⟩)]; decide +kernel

/-- C106 is false of floats: what is not a number is `NaN`, but there are many. -/
theorem C106_fails_float (env : Fmt.Env) (h : env.f64 0x7ff8000000000000 = env.f64 0x7ff8000000000001) :
    Ty.f64.has (.f64 0x7ff8000000000000) ∧ Ty.f64.has (.f64 0x7ff8000000000001) ∧ RV.f64 0x7ff8000000000000 ≠ .f64 0x7ff8000000000001 ∧
      Fmt.toString env (prog (items (.f64 0x7ff8000000000000))) = Fmt.toString env (prog (items (.f64 0x7ff8000000000001))) := by
  refine ⟨trivial, trivial, by simp, ?_⟩
  rw [toString_say _ _ (show ok (.f64 _) from trivial), toString_say _ _ (show ok (.f64 _) from trivial)]
  simp [tree, say, layout, h]

/-- C106 is false if fields are skipped. -/
theorem C106_fails_skip (env : Fmt.Env) :
    let x (b : Bool) : RV := .struct true (t! "P") {} [{ ident := some (t! "x"), skip := true }] [.bool b]
    (∀ b, ok (x b)) ∧ x true ≠ x false ∧ Fmt.toString env (prog (items (x true))) = Fmt.toString env (prog (items (x false))) := by
  intro x
  have hx : ∀ b, ok (x b) := by
    intro b
    refine ⟨⟨rfl, fun f hf => ?_, rfl⟩, trivial, trivial⟩
    rcases List.mem_singleton.1 hf with rfl
    exact .inr rfl
  refine ⟨hx, nofun, ?_⟩
  rw [toString_say _ _ (hx _), toString_say _ _ (hx _)]
  rfl

/-- C106 is false of dynamic enums: `A(1)` and `B(1)` are both `1`. -/
theorem C106_fails_dynamic (env : Fmt.Env) :
    let d : EnumDef := { ident := t! "E", dyn := true, variants := [{ ident := t! "A", shape := .newtype }, { ident := t! "B", shape := .newtype }] }
    let x (i : Nat) : RV := .enum d i [.int .u8 1]
    ok (x 0) ∧ ok (x 1) ∧ x 0 ≠ x 1 ∧ Fmt.toString env (prog (items (x 0))) = Fmt.toString env (prog (items (x 1))) := by
  intro d x
  have h0 : ok (x 0) := ⟨⟨_, rfl, rfl⟩, trivial, trivial⟩
  have h1 : ok (x 1) := ⟨⟨_, rfl, rfl⟩, trivial, trivial⟩
  refine ⟨h0, h1, nofun, ?_⟩
  rw [toString_say _ _ h0, toString_say _ _ h1]
  rfl

/-- C106 is false of labels with punctuation: `enum E { #[sval(label = "A(1)")] B, A(u8) }`. -/
theorem C106_fails_label (env : Fmt.Env) :
    let d : EnumDef := { ident := t! "E", variants := [{ ident := t! "B", shape := .unit, attrs := { label := some (.const (t! "A(1)")) } }, { ident := t! "A", shape := .newtype }] }
    ok (.enum d 0 []) ∧ ok (.enum d 1 [.int .u8 1]) ∧ Fmt.toString env (prog (items (.enum d 0 []))) = some (t! "A(1)") ∧
      Fmt.toString env (prog (items (.enum d 1 [.int .u8 1]))) = some (t! "A(1)") := by
  intro d
  have h0 : ok (.enum d 0 []) := ⟨⟨_, rfl, rfl⟩, trivial⟩
  have h1 : ok (.enum d 1 [.int .u8 1]) := ⟨⟨_, rfl, rfl⟩, trivial, trivial⟩
  refine ⟨h0, h1, ?_, ?_⟩
  · rw [toString_say _ _ h0]; rfl
  · rw [toString_say _ _ h1]; rfl

/-- C106 is false of empty labels: `vec![]` and `vec![S]`, where `#[sval(label = "")] struct S;`. -/
theorem C106_fails_empty (env : Fmt.Env) :
    let u : RV := .unitStruct (t! "S") { label := some (.const []) }
    ok (.slice []) ∧ ok (.slice [u]) ∧ Fmt.toString env (prog (items (.slice []))) = some (t! "[]") ∧
      Fmt.toString env (prog (items (.slice [u]))) = some (t! "[]") := by
  intro u
  refine ⟨trivial, ⟨trivial, trivial⟩, ?_, ?_⟩
  · rw [toString_say _ _ (show ok (.slice []) from trivial)]; rfl
  · rw [toString_say _ _ (show ok (.slice [u]) from ⟨trivial, trivial⟩)]; rfl

/-- C106 is false of text that is tagged as a number: `struct P(#[sval(data_tag = "NUMBER")] String, #[sval(data_tag = "NUMBER")] String)`. -/
theorem C106_fails_number (env : Fmt.Env) :
    let x (a b : Text) : RV := .struct false (t! "P") {} [{ dataTag := some tags.NUMBER }, { dataTag := some tags.NUMBER }] [.str a, .str b]
    (∀ a b, ok (x a b)) ∧ Fmt.toString env (prog (items (x (t! "1") (t! "2, 3")))) = some (t! "P(1, 2, 3)") ∧
      Fmt.toString env (prog (items (x (t! "1, 2") (t! "3")))) = some (t! "P(1, 2, 3)") := by
  intro x
  have hx : ∀ a b, ok (x a b) := by
    intro a b
    refine ⟨⟨rfl, fun f hf => ?_, rfl⟩, trivial, trivial, trivial⟩
    simp only [List.mem_cons, List.not_mem_nil, or_false] at hf
    rcases hf with rfl | rfl <;> exact .inr rfl
  refine ⟨hx, ?_, ?_⟩
  · rw [toString_say _ _ (hx _ _)]; rfl
  · rw [toString_say _ _ (hx _ _)]; rfl

end Sval
