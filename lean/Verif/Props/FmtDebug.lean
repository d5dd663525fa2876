import Verif.Rust.Debug
import Verif.Props.FmtOptions
import Verif.Props.RustJson

set_option autoImplicit false

/-!
# `ToFmt` and derived `Debug`: C77

`Rust.debug`, in `Rust/Debug`, is what `{:?}` gives for a value whose types derive `core::fmt::Debug`.
-/

namespace Sval

open Nested (prog)
open Rust
open Derive (Field Attrs Shape Variant EnumDef)
open Fmt (Out lay commas brackets parens braces entry layout once twice solid)

namespace FmtDebug

/-! ## Lemmas -/

theorem text_append (a b : Out) : Out.text (a ++ b) = Out.text a ++ Out.text b := by simp [Out.text]
theorem text_lay (k : Fmt.Kind) (t : Text) : Out.text (lay k t) = t := by simp [Out.text, lay, Function.comp_def]

theorem text_commas (xs : List Out) : Out.text (commas xs) = join (xs.map Out.text) := by
  induction xs with
  | nil => rfl
  | cons x xs ih =>
    cases xs with
    | nil => rfl
    | cons y r => simp only [commas, text_append, text_lay, ih, List.map_cons, join]; simp

theorem text_brackets (xs : List Out) : Out.text (brackets xs) = debugList (xs.map Out.text) := by
  simp [brackets, text_append, text_lay, text_commas, debugList]

theorem text_parens (xs : List Out) : Out.text (parens xs) = t! "(" ++ join (xs.map Out.text) ++ t! ")" := by
  simp [parens, text_append, text_lay, text_commas]

theorem text_braces (xs : List Out) (h : xs ≠ []) : Out.text (braces xs) = t! "{ " ++ join (xs.map Out.text) ++ t! " }" := by
  simp [braces, h, text_append, text_lay, text_commas]

theorem text_entry (k v : Out) : Out.text (entry k v) = Out.text k ++ t! ": " ++ Out.text v := by
  simp [entry, text_append, text_lay]

variable (env : Fmt.Env)

/-- The text of a value, in a container. -/
def txt (v : V) : Text := Out.text (layout env once false v)

theorem layoutSeq_eq (xs : List V) : Fmt.layoutSeq env once xs = xs.map (layout env once false) := by
  induction xs with
  | nil => rfl
  | cons x xs ih => rw [Fmt.layoutSeq, ih]; rfl
theorem layoutRec_eq (xs : List (Option Tag × Label × V)) :
    Fmt.layoutRec env once xs = xs.map fun x => entry (lay .ident x.2.1.text) (layout env once false x.2.2) := by
  induction xs with
  | nil => rfl
  | cons x xs ih => rw [Fmt.layoutRec, ih]; rfl
theorem layoutTup_eq (xs : List (Option Tag × Index × V)) :
    Fmt.layoutTup env once xs = xs.map fun x => layout env once false x.2.2 := by
  induction xs with
  | nil => rfl
  | cons x xs ih => rw [Fmt.layoutTup, ih]; rfl
theorem layoutRT_eq (xs : List (Option Tag × Label × Index × V)) :
    Fmt.layoutRT env once xs = xs.map fun x => entry (lay .ident x.2.1.text) (layout env once false x.2.2.2) := by
  induction xs with
  | nil => rfl
  | cons x xs ih => rw [Fmt.layoutRT, ih]; rfl

theorem debugs_eq (D : FloatTexts) (xs : List RV) : debugs env D xs = xs.map (debug env D) := by
  induction xs with
  | nil => rfl
  | cons x xs ih => rw [debugs, ih]; rfl

theorem alikes_iff (P D : FloatTexts) (xs : List RV) : alikes P D xs ↔ ∀ x ∈ xs, alike P D x := by
  induction xs with
  | nil => simp [alikes]
  | cons x xs ih => simp [alikes, ih]

theorem rows_bare {α : Type} (named : Bool) (fs : List Field) (xs : List α) (h : ∀ f ∈ fs, bareField named f) :
    Derive.rows fs xs = fs.zip xs := by
  unfold Derive.rows
  refine List.filter_eq_self.2 fun r hr => ?_
  rw [(h _ (List.of_mem_zip hr).1).1]; rfl

theorem txt_data (f : Field) (v : V) (h : f.dataTag ≠ some tags.NUMBER) : txt env (Derive.data f v) = txt env v := by
  unfold Derive.data
  cases ht : f.dataTag with
  | none => rfl
  | some t =>
    rw [ht] at h
    have : t ≠ tags.NUMBER := fun e => h (by rw [e])
    simp [txt, layout, this]

theorem zip_map_snd {α β γ : Type} (f : β → γ) : ∀ (xs : List α) (ys : List β), xs.length = ys.length →
    (xs.zip ys).map (fun r => f r.2) = ys.map f
  | [], [], _ => rfl
  | x :: xs, y :: ys, h => by simp [zip_map_snd f xs ys (by simpa using h)]

/-- With indexes, what is said of the entries is said of the rows. -/
theorem indexes_length (i : Int) (g : Bool) (l : List (Option Derive.IndexVal)) : (Derive.indexes i g l).length = l.length := by
  induction l generalizing i g with
  | nil => rfl
  | cons x l ih =>
    rcases x with _ | ⟨_ | _⟩ <;> simp [Derive.indexes, ih]

theorem entries_map {γ : Type} (rs : List (Field × V)) (f : Field × V → γ) :
    (Derive.entries rs).map (fun r => f r.1) = rs.map f := by
  unfold Derive.entries
  have := indexes_length 0 false (rs.map (·.1.index))
  rw [List.length_map] at this
  generalize Derive.indexes 0 false (rs.map (·.1.index)) = is at this
  induction rs generalizing is with
  | nil => simp
  | cons r rs ih =>
    cases is with
    | nil => simp at this
    | cons i is => simp [ih is (by simpa using this)]

/-- A struct whose fields are streamed as they are declared is what is derived. -/
theorem txt_struct (named : Bool) (name : Text) (at' : Attrs) (m : Meta) (fs : List Field) (vs : List V) (hm : m.label.map (·.text) = some name)
    (h : bareFields named at' fs) (hl : fs.length = vs.length) :
    txt env (Derive.structTree named at' m fs vs) = debugFields named name fs (vs.map (txt env)) := by
  obtain ⟨hne, hb, hat⟩ := h
  obtain ⟨f, fs', rfl⟩ := List.exists_cons_of_ne_nil hne
  obtain ⟨v, vs', rfl⟩ : ∃ v vs', vs = v :: vs' := by cases vs with | nil => simp at hl | cons v vs' => exact ⟨_, _, rfl⟩
  have hr := rows_bare named _ (v :: vs') hb
  have hf := hb f (by simp)
  have hnm : ∀ r ∈ (f :: fs').zip (v :: vs'), named = true → (Derive.name r.1).text = r.1.ident.getD [] := by
    intro r hr hn
    have h := hb r.1 (List.of_mem_zip hr).1
    unfold Derive.name Derive.nameOf
    rw [h.2.1]
    cases r.1.ident <;> rfl
  have hd : ∀ r ∈ (f :: fs').zip (v :: vs'), txt env (Derive.data r.1 r.2) = txt env r.2 := fun r hr =>
    txt_data env _ _ (hb r.1 (List.of_mem_zip hr).1).2.2.1
  obtain ⟨l, hml, hlt⟩ := Option.map_eq_some_iff.1 hm
  have hrow : named = true → ((f :: fs').zip (v :: vs')).map
      (fun r => Out.text (entry (lay .ident (Derive.name r.1).text) (layout env once false (Derive.data r.1 r.2)))) =
      ((f :: fs').zip (v :: vs')).map fun r => r.1.ident.getD [] ++ t! ": " ++ txt env r.2 := by
    intro hn
    refine List.map_congr_left fun r hr => ?_
    rw [text_entry, text_lay, hnm r hr hn]
    congr 1
    exact hd r hr
  have hzip : ((f :: fs').zip ((v :: vs').map (txt env))).map (fun r => ((r.1.ident.getD [] : Text), r.2)) =
      ((f :: fs').zip (v :: vs')).map fun r => (r.1.ident.getD [], txt env r.2) := by
    rw [List.zip_map_right]; simp
  have hs : Derive.structTree named at' m (f :: fs') (v :: vs') =
      if named then (if at'.unindexed then
          .record m (some (Derive.rows (f :: fs') (v :: vs')).length) ((Derive.rows (f :: fs') (v :: vs')).map fun r => (r.1.tag, Derive.name r.1, Derive.data r.1 r.2))
        else .recordTuple m (some (Derive.rows (f :: fs') (v :: vs')).length)
          ((Derive.entries (Derive.rows (f :: fs') (v :: vs'))).map fun r => (r.1.1.tag, Derive.name r.1.1, r.2, Derive.data r.1.1 r.1.2)))
      else .tuple m (some (Derive.rows (f :: fs') (v :: vs')).length)
        ((Derive.entries (Derive.rows (f :: fs') (v :: vs'))).map fun r => (r.1.1.tag, r.2, Derive.data r.1.1 r.1.2)) := by
    have e1 : Derive.labeled named at' (Derive.rows (f :: fs') (v :: vs')) = named := by
      rw [hr]
      simp only [List.zip_cons_cons, Derive.labeled, Derive.nameOf, hf.2.1, Option.isSome_map, hf.2.2.2]
      cases named with
      | false => simp
      | true => simp only [if_true] at hat; simp [hat]
    have e2 : Derive.indexed at' (Derive.rows (f :: fs') (v :: vs')) = !at'.unindexed := by
      rw [hr]; simp [Derive.indexed]
    unfold Derive.structTree
    simp only [e1, e2]
    cases named with
    | false => simp only [Bool.false_eq_true, if_false] at hat; simp [hat]
    | true => cases at'.unindexed <;> simp
  rw [hs, hr]
  cases named with
  | true =>
    have fin : ∀ xs : List Out, xs.map Out.text = ((f :: fs').zip (v :: vs')).map (fun r => r.1.ident.getD [] ++ t! ": " ++ txt env r.2) →
        Out.text (Fmt.recordOut m xs) = debugFields true name (f :: fs') ((v :: vs').map (txt env)) := by
      intro xs hxs
      have hx : xs ≠ [] := by rintro rfl; simp at hxs
      unfold Fmt.recordOut debugFields debugStruct
      rw [hml, hzip]
      simp only [text_append, text_lay, text_braces _ hx, hxs, hlt, if_true]
      simp [Function.comp_def]
    simp only [if_true]
    cases at'.unindexed with
    | true =>
      simp only [if_true]
      unfold txt
      rw [layout, layoutRec_eq]
      refine fin _ ?_
      rw [← hrow rfl]
      simp
    | false =>
      simp only [Bool.false_eq_true, if_false]
      unfold txt
      rw [layout, layoutRT_eq]
      refine fin _ ?_
      rw [← hrow rfl, List.map_map, List.map_map]
      exact entries_map _ (fun r => Out.text (entry (lay .ident (Derive.name r.1).text) (layout env once false (Derive.data r.1 r.2))))
  | false =>
    simp only [Bool.false_eq_true, if_false]
    show Out.text (layout env once false _) = _
    rw [layout, layoutTup_eq]
    unfold Fmt.labelled debugFields debugTuple
    rw [hml]
    simp only [text_append, text_lay, text_parens, hlt, Bool.false_eq_true, if_false, List.map_map]
    have := entries_map ((f :: fs').zip (v :: vs')) (fun r => Out.text (layout env once false (Derive.data r.1 r.2)))
    simp only [Function.comp_def] at this ⊢
    rw [this]
    have h2 : ((f :: fs').zip (v :: vs')).map (fun r => Out.text (layout env once false (Derive.data r.1 r.2))) = (v :: vs').map (txt env) := by
      rw [← zip_map_snd (txt env) _ _ hl]
      exact List.map_congr_left hd
    rw [h2]
    simp

theorem labelOr_none (name : Text) : (Derive.labelOr none name).text = name := rfl

theorem escape_plain (s : Text) (h : '\'' ∉ s) :
    '"' :: (Fmt.escape env s ++ ['"']) = debugStr env s := by
  have : Fmt.escape env s = s.flatMap fun c => if c = '\'' then [c] else Fmt.escapeDebug env c := by
    unfold Fmt.escape
    induction s with
    | nil => rfl
    | cons c s ih =>
      simp only [List.mem_cons, not_or] at h
      simp only [List.flatMap_cons, ih h.2, if_neg (Ne.symm h.1)]
  rw [debugStr, ← this]; simp

/-- What a tree that is alike is written as. -/
theorem txt_tree (env' : Fmt.Env) (he : Fmt.escapeDebug env = Fmt.escapeDebug env') (D : FloatTexts) (x : RV) (hx : ok x) (ha : alike ⟨env.f32, env.f64⟩ D x) : txt env (tree x) = debug env' D x := by
  induction x using RV.ind with | h x ih => ?_
  have lst : ∀ xs : List RV, (∀ y ∈ xs, y ∈ Rust.parts x) → oks xs → alikes ⟨env.f32, env.f64⟩ D xs →
      (trees xs).map (txt env) = debugs env' D xs := by
    intro xs h1 h2 h3
    rw [trees_eq, debugs_eq, List.map_map]
    exact List.map_congr_left fun y hy => ih y (h1 y hy) ((oks_iff _).1 h2 y hy) ((alikes_iff _ _ _).1 h3 y hy)
  cases x with
  | unit | bool b | int t v => simp [txt, tree, layout, debug, text_lay, Fmt.name, Serde.unitMeta]
  | null | char c | display fs | number fs => exact ha.elim
  | f32 b | f64 b => simp only [txt, tree, layout, debug, text_lay]; exact ha
  | str s => simp only [txt, tree, layout, Bool.false_eq_true, if_false, text_lay, debug]; rw [← escape_plain env' s ha]; simp [fragsText, Frag.content, Fmt.escape, he]
  | bytes b => simp [txt, tree, layout, debug, text_brackets, fragsBytes, Frag.content, Function.comp_def, text_lay]
  | byteArray b => simp [txt, tree, layout, debug, text_brackets, fragsBytes, Frag.content, Function.comp_def, text_lay]
  | none => rfl
  | some v =>
    have := ih v (.head _) hx ha
    have e : ¬ ((variant tags.RUST_OPTION_SOME (t! "Some") 1).tag = some tags.NUMBER) := by decide
    simp only [txt] at this
    simp only [txt, tree, layout, e, decide_false, Bool.or_false, debug, debugTuple]
    simp only [variant, text_append, text_lay, text_parens, List.map_cons, List.map_nil, this, join]
    simp [Label.withTag, Label.new]
  | boxed v => exact ih v (.head _) hx ha
  | slice xs =>
    have := lst xs (fun _ h => h) hx ha
    simp only [txt, tree, layout, layoutSeq_eq, text_brackets, debug, List.map_map, Function.comp_def]
    rw [← this]; rfl
  | array xs =>
    have := lst xs (fun _ h => h) hx ha
    have e : ¬ (some tags.CONSTANT_SIZE = some tags.NUMBER) := by decide
    simp only [txt, tree, layout, layoutSeq_eq, text_brackets, debug, List.map_map, Function.comp_def]
    rw [← this]; rfl
  | tuple xs =>
    have h := lst xs (fun _ h => h) hx ha.2
    have hl : (debugs env' D xs).length ≠ 1 := by rw [debugs_eq, List.length_map]; exact ha.1
    have e : txt env (tree (.tuple xs)) = t! "(" ++ join (debugs env' D xs) ++ t! ")" := by
      rw [← h]
      simp only [txt, tree, layout, layoutTup_eq, Fmt.labelled, text_parens, List.map_map, Function.comp_def]
      congr 3
      have : (trees xs).zipIdx.map (fun x => txt env x.1) = (trees xs).map (txt env) := by
        have h2 := List.map_map (f := Prod.fst) (g := txt env) (l := (trees xs).zipIdx)
        rw [List.zipIdx_map_fst] at h2
        exact h2.symm
      exact this
    rw [e, debug]
    cases hd : debugs env' D xs with
    | nil => rfl
    | cons y ys =>
      cases ys with
      | nil => rw [hd] at hl; exact absurd rfl hl
      | cons z zs => rfl
  | map ks vs => obtain ⟨rfl, rfl⟩ := ha; rfl
  | unitStruct ident at' =>
    have ha : at'.label = Option.none := ha
    simp [txt, tree, layout, debug, Fmt.name, text_lay, ha, labelOr_none]
  | newtype ident at' tr v =>
    obtain ⟨h1, h2, rfl, h3⟩ := ha
    have := ih v (.head _) hx h3
    simp only [txt] at this
    simp only [txt, tree, Bool.false_eq_true, if_false, layout, h1, labelOr_none, h2, decide_false, Bool.or_false, debug, debugTuple,
      text_append, text_lay, text_parens, List.map_cons, List.map_nil, this, join]
    simp
  | struct named ident at' fs vs =>
    obtain ⟨h1, h2, h3⟩ := ha
    obtain ⟨⟨_, _, hl⟩, hx⟩ := hx
    have := lst vs (fun _ h => h) hx h3
    rw [tree, txt_struct env named ident at' _ fs _ (by simp [h1, labelOr_none]) h2 (by simp [trees_eq, hl]), this, debug]
  | enum d i vs =>
    obtain ⟨h1, h3⟩ := ha
    obtain ⟨⟨v, hv, hok⟩, hx⟩ := hx
    have h := lst vs (fun _ h => h) hx h3
    obtain ⟨b1, b2, b3, b4⟩ := h1 v hv
    have hn : Derive.variantName d v = Option.some (Derive.labelOr Option.none v.ident) := by
      simp [Derive.variantName, b1, b2, b3]
    have hl : (trees vs).length = vs.length := by simp [trees_eq]
    rw [tree, hv]
    simp only [b1, Bool.false_eq_true, if_false, debug, hv]
    show Out.text (layout env once false (.enum _ _)) = _
    rw [layout]
    simp only [once, List.append_nil]
    show txt env _ = _
    unfold Derive.variantTree debugVariant
    unfold okVariant at hok
    rw [hn]
    cases hs : v.shape with
    | unit => simp [txt, layout, Fmt.name, text_lay, labelOr_none]
    | newtype =>
      rw [hs] at hok b4
      simp only at hok b4
      obtain ⟨y, rfl⟩ : ∃ y, vs = [y] := List.length_eq_one_iff.1 hok
      simp only [trees, b1, Bool.false_eq_true, if_false]
      simp only [trees, List.map_cons, List.map_nil] at h
      rw [← h]
      simp only [txt, layout, labelOr_none, b4, decide_false, Bool.or_false, debugTuple, text_append, text_lay, text_parens, List.map_cons,
        List.map_nil, join]
      simp
    | named fs =>
      rw [hs] at hok b4
      rw [← h]
      exact txt_struct env true v.ident v.attrs _ fs _ (by simp [labelOr_none]) b4 (by rw [hl]; exact hok.2.2)
    | unnamed fs =>
      rw [hs] at hok b4
      rw [← h]
      exact txt_struct env false v.ident v.attrs _ fs _ (by simp [labelOr_none]) b4 (by rw [hl]; exact hok.2.2)

theorem format_rust (opts : Fmt.Opts) (fl : Fmt.Floats) (x : RV) (hx : ok x) :
    Fmt.format opts fl env (prog (items x)) = Fmt.format opts fl env (valueOf (tree x)) := by
  have h : ∀ {ε σ : Type} (c : Token → σ → Res ε σ) (s : σ), drive c (prog (items x)) s = drive c (valueOf (tree x)) s := by
    intro ε σ c s
    simp only [drive, (C38 (guarded c) x hx (s, false)).1]
  simp only [Fmt.format, Fmt.displayWith, Fmt.toFmt, Fmt.toTokenWrite, Fmt.streamTo, h]

end FmtDebug

open FmtDebug

/-! ## C77 -/

/-- How `Display` writes floats. -/
def plainly (fl : Fmt.Floats) : FloatTexts := ⟨fun b => (fl.f32 {} b).flatten, fun b => (fl.f64 {} b).flatten⟩

/-- C77, as far as it holds: a value that is `alike` is written like `{:?}` writes it if it and all types in it derive
`Debug`, as long as no enum has a variant with nothing in it. Missing: what `alike` leaves out, since each of these is
written differently, see `C77_fails_*`; and types that do not have `Debug`. -/
theorem C77_partial (fl : Fmt.Floats) (env : Fmt.Env) (D : FloatTexts) (x : RV) (hx : ok x) (ha : alike (plainly fl) D x)
    (hs : solid (tree x) = true) : Fmt.format {} fl env (prog (items x)) = some (debug env D x) := by
  rw [format_rust _ _ _ _ hx, C74_exact, C26_exact, Fmt.layout_solid _ _ hs]
  exact congrArg some (txt_tree { env with f32 := fun b => (fl.f32 {} b).flatten, f64 := fun b => (fl.f64 {} b).flatten } env rfl D x hx ha)

/-- C77 for texts: the same exactly if there is no single quote. -/
theorem C77_text (fl : Fmt.Floats) (env : Fmt.Env) (D : FloatTexts) (s : Text) :
    Fmt.format {} fl env (prog (items (.str s))) = some (debug env D (.str s)) ↔ '\'' ∉ s := by
  refine ⟨fun h hq => ?_, fun h => C77_partial fl env D (.str s) trivial h rfl⟩
  rw [format_rust _ _ _ (.str s) trivial, C74_exact, C26_exact] at h
  simp only [Option.some.injEq] at h
  change Out.text (lay .text _) = _ at h
  rw [text_lay] at h
  have h := congrArg List.length h
  have key : ∀ s : Text, (s.flatMap fun c => if c = '\'' then [c] else Fmt.escapeDebug env c).length +
      s.count '\'' = (s.flatMap (Fmt.escapeDebug env)).length := by
    intro s
    induction s with
    | nil => rfl
    | cons c s ih =>
      simp only [List.flatMap_cons, List.length_append, List.count_cons, ← ih]
      by_cases hc : c = '\''
      · subst hc
        have : (Fmt.escapeDebug env '\'').length = 2 := rfl
        simp [this]; omega
      · simp [hc]; omega
  have h1 := key s
  have h2 : 0 < s.count '\'' := List.count_pos_iff.2 hq
  have e : ∀ f : Fmt.Env, (∀ c, Fmt.escapeDebug f c = Fmt.escapeDebug env c) → Fmt.escape f s = s.flatMap (Fmt.escapeDebug env) :=
    fun f hf => by unfold Fmt.escape; exact congrArg (s.flatMap ·) (funext hf)
  rw [show fragsText [Frag.borrowed s] = s by simp [fragsText, Frag.content],
    e { env with f32 := fun b => (fl.f32 {} b).flatten, f64 := fun b => (fl.f64 {} b).flatten } fun c => rfl] at h
  simp only [debug, debugStr, List.length_cons, List.length_append, List.length_nil] at h
  omega

/-- C77 is false for every character: `ToFmt` writes `"a"` for `'a'`. -/
theorem C77_fails_char (fl : Fmt.Floats) (env : Fmt.Env) (D : FloatTexts) (c : Char) :
    ∃ t u, Fmt.format {} fl env (prog (items (.char c))) = some ('"' :: t) ∧ debug env D (.char c) = '\'' :: u := by
  refine ⟨Fmt.escapeDebug env c ++ ['"'], _, ?_, by rw [debug, debugChar]; rfl⟩
  rw [format_rust _ _ _ (.char c) trivial, C74_exact, C26_exact]
  change some (Out.text (lay .text _)) = _
  rw [text_lay]
  simp [fragsText, Frag.content, Fmt.escape]
  rfl

/-- C77 is false for floats that `Display` and `Debug` write differently, like `1.0`: `1` and `1.0`. -/
theorem C77_fails_float (fl : Fmt.Floats) (env : Fmt.Env) (D : FloatTexts) (b : UInt64) :
    Fmt.format {} fl env (prog (items (.f64 b))) = some (debug env D (.f64 b)) ↔ (fl.f64 {} b).flatten = D.f64 b := by
  rw [format_rust _ _ _ (.f64 b) trivial, C74_exact, C26_exact]
  simp only [Option.some.injEq]
  change Out.text (lay .number _) = _ ↔ _
  rw [text_lay]
  rfl

/-- `{:?}` for the floats of the examples. -/
def debugged : FloatTexts := ⟨fun _ => t! "1.0", fun _ => t! "1.0"⟩

/-- What `ToFmt` gives. -/
abbrev fmtOf (x : RV) : Option Text := Fmt.format {} displayed someEnv (prog (items x))
/-- What derived `Debug` gives. -/
abbrev debugOf (x : RV) : Text := debug someEnv debugged x

/-- C77 is false: `it's`, `(1u8,)`, and maps that are not empty, `{"a": 1}`. -/
theorem C77_fails_std :
    fmtOf (.str (t! "it's")) = some (t! "\"it\\'s\"") ∧ debugOf (.str (t! "it's")) = t! "\"it's\"" ∧
    fmtOf (.tuple [.int .u8 1]) = some (t! "(1)") ∧ debugOf (.tuple [.int .u8 1]) = t! "(1,)" ∧
    fmtOf (.map [.str (t! "a")] [.int .u8 1]) = some (t! "{ \"a\": 1 }") ∧ debugOf (.map [.str (t! "a")] [.int .u8 1]) = t! "{\"a\": 1}" ∧
    fmtOf .null = some (t! "()") ∧ debugOf .null = t! "Null" := by
  decide +kernel

/-- `enum E { V(Vec<u8>), U {}, W }` -/
def enumE : EnumDef := { ident := t! "E", variants :=
  [{ ident := t! "V", shape := .newtype }, { ident := t! "U", shape := .named [] }, { ident := t! "W", shape := .unit }] }

/-- C77 is false for derived types without any attributes: `struct S {}`, `E::V(vec![])`, and `E::U {}`. -/
theorem C77_fails_derived :
    fmtOf (.struct true (t! "S") {} [] []) = some (t! "S {}") ∧ debugOf (.struct true (t! "S") {} [] []) = t! "S" ∧
    fmtOf (.enum enumE 0 [.boxed (.slice [])]) = some (t! "V([])E") ∧ debugOf (.enum enumE 0 [.boxed (.slice [])]) = t! "V([])" ∧
    fmtOf (.enum enumE 1 []) = some (t! "U {}E") ∧ debugOf (.enum enumE 1 []) = t! "U" := by
  decide +kernel

/-- `struct S { #[sval(label = "b")] a: u8 }`, `struct S { #[sval(skip)] a: u8, c: u8 }`, `#[sval(unlabeled_fields)] struct S { a: u8 }` and
`#[sval(transparent)] struct S(u8)` -/
theorem C77_fails_attributes :
    fmtOf (.struct true (t! "S") {} [{ ident := some (t! "a"), label := some (.const (t! "b")) }] [.int .u8 1]) = some (t! "S { b: 1 }") ∧
    fmtOf (.struct true (t! "S") {} [{ ident := some (t! "a"), skip := true }, { ident := some (t! "c") }] [.int .u8 1, .int .u8 2]) =
      some (t! "S { c: 2 }") ∧
    fmtOf (.struct true (t! "S") { unlabeled := true } [{ ident := some (t! "a") }] [.int .u8 1]) = some (t! "S(1)") ∧
    fmtOf (.newtype (t! "S") {} true (.int .u8 1)) = some (t! "1") ∧
    debugOf (.struct true (t! "S") {} [{ ident := some (t! "a"), label := some (.const (t! "b")) }] [.int .u8 1]) = t! "S { a: 1 }" ∧
    debugOf (.struct true (t! "S") {} [{ ident := some (t! "a"), skip := true }, { ident := some (t! "c") }] [.int .u8 1, .int .u8 2]) =
      t! "S { a: 1, c: 2 }" ∧
    debugOf (.struct true (t! "S") { unlabeled := true } [{ ident := some (t! "a") }] [.int .u8 1]) = t! "S { a: 1 }" ∧
    debugOf (.newtype (t! "S") {} true (.int .u8 1)) = t! "S(1)" := by
  decide +kernel

/-- `struct R { a: Option<(u8, &str)>, b: [E; 2] }` -/
def sampleR : RV := .struct true (t! "R") {} [{ ident := some (t! "a") }, { ident := some (t! "b") }]
  [.some (.tuple [.int .u8 1, .str (t! "x\n")]), .array [.enum enumE 0 [.boxed (.slice [.int .u8 7])], .enum enumE 2 []]]

example : ok sampleR ∧ alike (plainly displayed) debugged sampleR ∧ solid (tree sampleR) = true ∧
    debugOf sampleR = t! "R { a: Some((1, \"x\\n\")), b: [V([7]), W] }" ∧
    fmtOf sampleR = some (t! "R { a: Some((1, \"x\\n\")), b: [V([7]), W] }") := by
  refine ⟨?_, ?_, by decide +kernel, by decide +kernel, by decide +kernel⟩
  · refine ⟨⟨by decide +kernel, by simp, rfl⟩, ⟨⟨trivial, trivial, trivial⟩, ⟨⟨⟨_, rfl, rfl⟩, ⟨trivial, trivial⟩, trivial⟩, ⟨⟨_, rfl, rfl⟩, trivial⟩, trivial⟩, trivial⟩⟩
  · refine ⟨rfl, ⟨by simp, by simp [bareField], rfl⟩, ⟨⟨by decide, trivial, by simp [alike], trivial⟩, ⟨⟨fun v h => ?_, ⟨trivial, trivial⟩, trivial⟩, ⟨fun v h => ?_, trivial⟩, trivial⟩, trivial⟩⟩
    · cases h; exact ⟨rfl, rfl, rfl, by simp⟩
    · cases h; exact ⟨rfl, rfl, rfl, trivial⟩

end Sval
