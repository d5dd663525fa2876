import Verif.Json.Chars
import Verif.Props.JsonRefuse

set_option autoImplicit false

/-!
# JSON on one line: C102

`sval_json` writes no control character, so no line ends before the document does. This is not so of text that is copied:
what is tagged as JSON, and labels tagged as identifiers.
-/

namespace Sval

open Nested (prog)
open Json (Env toFmt stepP strWriter isSpecialTag)

/-- Control characters, ASCII ones: those before the space. -/
def control (c : Char) : Bool := c.toNat < 32

/-- Text without them. -/
def oneLine (t : Text) : Bool := t.all fun c => !control c

/-- The text in a call: a fragment or a label. -/
def Token.words : Token → Text
  | .textFragment t | .textFragmentComputed t => t
  | .enumBegin m | .enumEnd m | .taggedBegin m | .taggedEnd m | .tag m | .recordBegin m _ | .recordEnd m | .tupleBegin m _
  | .tupleEnd m | .recordTupleBegin m _ | .recordTupleEnd m => (m.label.map (·.text)).getD []
  | .recordValueBegin _ l | .recordTupleValueBegin _ l _ => l.text
  | _ => []

/-- A call that has nothing copied: its tag is not `NUMBER`, `JSON_VALUE`, `JSON_NUMBER` or `JSON_TEXT`, and a label tagged as an
identifier has no control character. -/
def Token.escaped : Token → Bool
  | .taggedBegin m => !(m.tag = some tags.NUMBER || m.tag = some tags.JSON_VALUE || m.tag = some tags.JSON_NUMBER ||
      m.tag = some tags.JSON_TEXT)
  | .recordValueBegin _ l | .recordTupleValueBegin _ l _ => !(l.tag = some tags.VALUE_IDENT) || oneLine l.text
  | _ => true

/-- What floats look like. -/
structure Json.Env.OneLine (env : Env) : Prop where
  f32 : ∀ b, f32Finite b = true → oneLine (env.f32 b) = true
  f64 : ∀ b, f64Finite b = true → oneLine (env.f64 b) = true

namespace Json

theorem hard_oneLine (t : Text) : hard (fun c => control c = false) t ↔ oneLine t = true := by
  simp [hard, oneLine]

theorem soft_oneLine (t : Text) : soft (fun c => control c = false) t := by
  intro c _ h
  cases hc : control c with
  | false => rfl
  | true =>
    have hlt : c.toNat < 32 := by simpa [control] using hc
    have : ∀ n < 32, escapeOf (Char.ofNat n) ≠ 0 := by decide +kernel
    have := this c.toNat hlt
    rw [ofNat_toNat] at this
    exact absurd h this

theorem printable_oneLine (c : Char) (h : printable c = true) : control c = false := by
  simp only [printable, control, Bool.and_eq_true, decide_eq_true_eq, decide_eq_false_iff_not] at h ⊢
  omega

theorem frag_oneLine {raw : Bool} {t : Text} (h : raw = true → oneLine t = true) : fragOk (fun c => control c = false) raw t :=
  ⟨soft_oneLine t, fun e => (hard_oneLine t).2 (h e)⟩

theorem meta_oneLine {raw : Bool} {m : Meta} (h : raw = true → oneLine ((m.label.map (·.text)).getD []) = true) :
    metaOk (fun c => control c = false) raw m := by
  intro l hl
  rw [hl] at h
  exact frag_oneLine h

theorem token_escaped {t : Token} (h : t.escaped = true) : tokenOk (fun c => control c = false) false t := by
  have fls : ∀ {b : Bool}, false = true → b = true := fun e => by cases e
  have lab : ∀ l : Label, (!(l.tag = some tags.VALUE_IDENT) || oneLine l.text) = true → nameOk (fun c => control c = false) l := by
    intro l hl
    refine ⟨soft_oneLine _, fun e => (hard_oneLine _).2 ?_⟩
    simpa [e] using hl
  cases t with
  | taggedBegin m =>
    refine ⟨meta_oneLine fls, fun _ => ?_⟩
    simpa [Token.escaped, isSpecialTag] using h
  | recordValueBegin t l => exact lab l h
  | recordTupleValueBegin t l i => exact lab l h
  | textFragment | textFragmentComputed => exact frag_oneLine fls
  | enumBegin | enumEnd | taggedEnd | tag | recordBegin | recordEnd | tupleBegin | tupleEnd | recordTupleBegin | recordTupleEnd =>
    exact meta_oneLine fls
  | _ => trivial

theorem token_words {t : Token} (h : oneLine t.words = true) : tokenOk (fun c => control c = false) true t := by
  cases t with
  | taggedBegin m => exact ⟨meta_oneLine fun _ => h, fun e => by cases e⟩
  | recordValueBegin t l => exact ⟨soft_oneLine _, fun _ => (hard_oneLine _).2 h⟩
  | recordTupleValueBegin t l i => exact ⟨soft_oneLine _, fun _ => (hard_oneLine _).2 h⟩
  | textFragment | textFragmentComputed => exact frag_oneLine fun _ => h
  | enumBegin | enumEnd | taggedEnd | tag | recordBegin | recordEnd | tupleBegin | tupleEnd | recordTupleBegin | recordTupleEnd =>
    exact meta_oneLine fun _ => h
  | _ => trivial

end Json

/-- C102, as far as it holds: whatever code writes as JSON, whether or not it succeeds, has no control character if nothing is copied.
Missing: calls that have text copied, `C102_fails_json` and `C102_fails_ident`. -/
theorem C102_partial (env : Env) (he : env.OneLine) (p : Prog) (o : Text) (ho : oneLine o = true)
    (h : ∀ t ∈ received (stepP strWriter env) p .base ({ out := o }, false), t.escaped = true) :
    oneLine (toFmt strWriter env p o).2 = true :=
  (Json.hard_oneLine _).1 (Json.toFmt_hard Json.printable_oneLine (fun b hb => (Json.hard_oneLine _).2 (he.f32 b hb))
    (fun b hb => (Json.hard_oneLine _).2 (he.f64 b hb)) p ((Json.hard_oneLine _).2 ho) fun t ht => Json.token_escaped (h t ht))

/-- C102. If there is any, copied or not, it is in the text given. -/
theorem C102_given (env : Env) (he : env.OneLine) (p : Prog) (o : Text) (ho : oneLine o = true)
    (h : ∀ t ∈ received (stepP strWriter env) p .base ({ out := o }, false), oneLine t.words = true) :
    oneLine (toFmt strWriter env p o).2 = true :=
  (Json.hard_oneLine _).1 (Json.toFmt_hard Json.printable_oneLine (fun b hb => (Json.hard_oneLine _).2 (he.f32 b hb))
    (fun b hb => (Json.hard_oneLine _).2 (he.f64 b hb)) p ((Json.hard_oneLine _).2 ho) fun t ht => Json.token_words (h t ht))

/-- Code that looks at what it is told: it writes a sequence, tries to write a key where there cannot be one, and goes on. -/
example : oneLine (toFmt strWriter anyEnv (.call (.seqBegin none) fun _ => .call .mapKeyBegin fun _ => .call (.seqBegin none) fun b =>
      .call (.textFragment (t! "a\n\tb")) fun _ => .ret b) []).2 = true ∧
    (toFmt strWriter anyEnv (.call (.seqBegin none) fun _ => .call .mapKeyBegin fun _ => .call (.seqBegin none) fun b =>
      .call (.textFragment (t! "a\n\tb")) fun _ => .ret b) []) = (.invalidKey, t! "[\"a\\n\\tb") := by
  constructor <;> decide +kernel

/-- C102. What is written has nothing but printable ASCII and characters of the text in the calls received. -/
theorem C102_chars (env : Env) (h32 : ∀ b, f32Finite b = true → (env.f32 b).all Json.printable = true)
    (h64 : ∀ b, f64Finite b = true → (env.f64 b).all Json.printable = true) (p : Prog) (c : Char)
    (h : c ∈ (toFmt strWriter env p []).2) :
    32 ≤ c.toNat ∧ c.toNat ≤ 126 ∨ ∃ t ∈ received (stepP strWriter env) p .base ({ out := [] }, false), c ∈ t.words := by
  let P : Char → Prop := fun c =>
    Json.printable c = true ∨ ∃ t ∈ received (stepP strWriter env) p .base ({ out := [] }, false), c ∈ t.words
  have hP : ∀ c, Json.printable c = true → P c := fun _ h => .inl h
  have hw : ∀ t ∈ received (stepP strWriter env) p .base ({ out := [] }, false), Json.hard P t.words := fun t ht c hc => .inr ⟨t, ht, hc⟩
  have hm : ∀ m : Meta, Json.hard P ((m.label.map (·.text)).getD []) → Json.metaOk P true m := by
    intro m hm l hl
    rw [hl] at hm
    exact ⟨hm.soft, fun _ => hm⟩
  have := Json.toFmt_hard (raw := true) hP (fun b hb => Json.hard_lit hP (h32 b hb)) (fun b hb => Json.hard_lit hP (h64 b hb)) p
    (o := []) (fun _ hc => by cases hc) (fun t ht => by
      have h := hw t ht
      cases t with
      | taggedBegin m => exact ⟨hm m h, fun e => by cases e⟩
      | recordValueBegin t l => exact ⟨Json.hard.soft h, fun _ => h⟩
      | recordTupleValueBegin t l i => exact ⟨Json.hard.soft h, fun _ => h⟩
      | textFragment | textFragmentComputed => exact ⟨Json.hard.soft h, fun _ => h⟩
      | enumBegin m | enumEnd m | taggedEnd m | tag m | recordBegin m _ | recordEnd m | tupleBegin m _ | tupleEnd m
      | recordTupleBegin m _ | recordTupleEnd m => exact hm m h
      | _ => trivial) c h
  refine this.imp (fun h => ?_) id
  simp only [Json.printable, Bool.and_eq_true, decide_eq_true_eq] at h
  omega

/-- A character that is in the text, and one that is not. -/
example : (toFmt strWriter anyEnv (.ofToks [.textBegin none, .textFragment (t! "é\n"), .textEnd]) []).2 = t! "\"é\\n\"" := by decide +kernel

/-! ## Values -/

/-- Calls in which whatever is copied has no control character: labels tagged as identifiers, and text under a tag that says that it is
a number or JSON. -/
inductive Lined : List Token → Prop
  | nil : Lined []
  | cons {t : Token} {ts : List Token} (h : t.escaped = true) (hs : Lined ts) : Lined (t :: ts)
  | copied {m : Meta} {inner ts : List Token} (h : ∀ t ∈ Token.taggedBegin m :: (inner ++ [.taggedEnd m]), oneLine t.words = true)
      (hm : isSpecialTag m.tag = true) (hs : Lined ts) : Lined (.taggedBegin m :: (inner ++ .taggedEnd m :: ts))

namespace Lined

theorem append {a b : List Token} (h : Lined a) (h' : Lined b) : Lined (a ++ b) := by
  induction h with
  | nil => exact h'
  | cons h _ ih => exact .cons h ih
  | copied h hm _ ih => rw [List.cons_append, List.append_assoc]; exact .copied h hm ih

theorem all {ts : List Token} (h : ∀ t ∈ ts, t.escaped = true) : Lined ts := by
  induction ts with
  | nil => exact .nil
  | cons t ts ih => exact .cons (h t (by simp)) (ih fun u hu => h u (by simp [hu]))

theorem wrap {a b : Token} {ts : List Token} (ha : a.escaped = true) (hb : b.escaped = true) (h : Lined ts) : Lined (a :: (ts ++ [b])) :=
  .cons ha (h.append (.cons hb .nil))

theorem seq {n : Option Nat} {xs : List V} (h : ∀ x ∈ xs, Lined (toks x)) : Lined (toks (.seq n xs)) := by
  refine wrap rfl rfl ?_
  induction xs with
  | nil => exact .nil
  | cons x xs ih => exact .cons rfl ((h x (by simp)).append (.cons rfl (ih fun y hy => h y (by simp [hy]))))

theorem map {n : Option Nat} {xs : List (V × V)} (h : ∀ x ∈ xs, Lined (toks x.1) ∧ Lined (toks x.2)) : Lined (toks (.map n xs)) := by
  refine wrap rfl rfl ?_
  induction xs with
  | nil => exact .nil
  | cons x xs ih =>
    exact .cons rfl ((h x (by simp)).1.append (.cons rfl (.cons rfl ((h x (by simp)).2.append (.cons rfl (ih fun y hy => h y (by simp [hy])))))))

theorem tuple {m : Meta} {n : Option Nat} {xs : List (Option Tag × Index × V)} (h : ∀ x ∈ xs, Lined (toks x.2.2)) : Lined (toks (.tuple m n xs)) := by
  refine wrap rfl rfl ?_
  induction xs with
  | nil => exact .nil
  | cons x xs ih => exact .cons rfl ((h x (by simp)).append (.cons rfl (ih fun y hy => h y (by simp [hy]))))

/-- The name of an entry. -/
theorem label {l : Label} (h : (Json.labelText l).isSome = true) : (!(l.tag = some tags.VALUE_IDENT) || oneLine l.text) = true := by
  rw [Json.labelText] at h
  split at h
  · cases h
  · rename_i hl
    by_cases e : l.tag = some tags.VALUE_IDENT
    · have hr : l.text.all Json.rawOk = true := by
        cases hr : l.text.all Json.rawOk with
        | true => rfl
        | false => exact absurd ⟨e, hr⟩ hl
      have : oneLine l.text = true := by
        rw [oneLine, List.all_eq_true]
        rw [List.all_eq_true] at hr
        intro c hc
        have := hr c hc
        simp only [Json.rawOk, Bool.and_eq_true, decide_eq_true_eq] at this
        simp [control]
        omega
      rw [this, Bool.or_true]
    · simp [e]

theorem record {m : Meta} {n : Option Nat} {xs : List (Option Tag × Label × V)}
    (h : ∀ x ∈ xs, (Json.labelText x.2.1).isSome = true ∧ Lined (toks x.2.2)) : Lined (toks (.record m n xs)) := by
  refine wrap rfl rfl ?_
  induction xs with
  | nil => exact .nil
  | cons x xs ih =>
    obtain ⟨h1, h2⟩ := h x (by simp)
    exact .cons (label h1) (h2.append (.cons rfl (ih fun y hy => h y (by simp [hy]))))

theorem recordTuple {m : Meta} {n : Option Nat} {xs : List (Option Tag × Label × Index × V)}
    (h : ∀ x ∈ xs, (Json.labelText x.2.1).isSome = true ∧ Lined (toks x.2.2.2)) : Lined (toks (.recordTuple m n xs)) := by
  refine wrap rfl rfl ?_
  induction xs with
  | nil => exact .nil
  | cons x xs ih =>
    obtain ⟨h1, h2⟩ := h x (by simp)
    exact .cons (label h1) (h2.append (.cons rfl (ih fun y hy => h y (by simp [hy]))))

theorem tagged {m : Meta} {v : V} (hm : isSpecialTag m.tag = false) (h : Lined (toks v)) : Lined (toks (.tagged m v)) := by
  refine wrap ?_ rfl h
  simpa [Token.escaped, isSpecialTag] using hm

end Lined

namespace Json

/-- The end of what is specially tagged: text is escaped again. -/
theorem taggedEnd_reset {P : Char → Prop} (hP : ∀ c, printable c = true → P c) {m : Meta} (hm : isSpecialTag m.tag = true)
    (h : metaOk P false m) (s : St Text) (hs : Good P true s) : Out (Good P false) (taggedEnd strWriter m s) := by
  have h2 : Stays P false fun s => (if s.empty then tagStep strWriter m s else .ok s).bind fun s => tagEnd m s :=
    .bind (.ite (fun s : St Text => s.empty = true) (stays_tagStep hP h) .skip) (.upd fun _ hs => hs)
  have go : ∀ r : Res Unit (St Text), Out (Good P false) r →
      Out (Good P false) (r.bind fun s => (if s.empty then tagStep strWriter m s else .ok s).bind fun s => tagEnd m s) := by
    intro r hr
    cases r with
    | ok s => exact h2 s hr
    | err e s => exact hr
    | panic => trivial
  refine go _ ?_
  split
  · exact ⟨hs.1, fun _ => rfl⟩
  · split
    · exact ⟨hs.1, fun _ => rfl⟩
    · split
      · split
        · rename_i n _
          unfold numEnd
          cases n.atStart
          · exact ⟨hs.1, fun _ => rfl⟩
          · exact ⟨hs.1.append (hard_lit hP rfl), fun _ => rfl⟩
        · exact ⟨hs.1, fun _ => rfl⟩
      · split
        · exact ⟨hs.1, fun _ => rfl⟩
        · rename_i h1 h2 h3 h4
          simp [isSpecialTag, h1, h2, h3, h4] at hm

theorem lined_run {env : Env} (he : env.OneLine) {ts : List Token} (h : Lined ts) (s s' : St Text)
    (hs : Good (fun c => control c = false) false s) (hr : run (call strWriter env) ts s = .ok s') :
    Good (fun c => control c = false) false s' := by
  have h32 : ∀ b, f32Finite b = true → hard (fun c => control c = false) (env.f32 b) := fun b hb => (hard_oneLine _).2 (he.f32 b hb)
  have h64 : ∀ b, f64Finite b = true → hard (fun c => control c = false) (env.f64 b) := fun b hb => (hard_oneLine _).2 (he.f64 b hb)
  have step1 : ∀ {raw : Bool} {t : Token} {ts : List Token} {s s' : St Text}, tokenOk (fun c => control c = false) raw t →
      Good (fun c => control c = false) raw s → run (call strWriter env) (t :: ts) s = .ok s' →
      ∃ s1, Good (fun c => control c = false) raw s1 ∧ run (call strWriter env) ts s1 = .ok s' := by
    intro raw t ts s s' ht hs hr
    rw [run_cons] at hr
    have := stays_call printable_oneLine h32 h64 ht s hs
    cases e : call strWriter env t s with
    | ok s1 => rw [e] at this hr; exact ⟨s1, this, hr⟩
    | err x s1 => rw [e] at hr; cases hr
    | panic => rw [e] at hr; cases hr
  induction h generalizing s with
  | nil => cases hr; exact hs
  | cons ht _ ih =>
    obtain ⟨s1, h1, h2⟩ := step1 (token_escaped ht) hs hr
    exact ih s1 h1 h2
  | @copied m inner ts hw hm _ ih =>
    obtain ⟨s1, h1, h2⟩ := step1 (raw := true) (token_words (hw _ (by simp))) ⟨hs.1, fun e => by cases e⟩ hr
    have inn : ∀ (l : List Token) (s : St Text), (∀ t ∈ l, oneLine t.words = true) → Good (fun c => control c = false) true s →
        run (call strWriter env) (l ++ .taggedEnd m :: ts) s = .ok s' →
        ∃ s1, Good (fun c => control c = false) true s1 ∧ run (call strWriter env) (.taggedEnd m :: ts) s1 = .ok s' := by
      intro l
      induction l with
      | nil => intro s _ hs hr; exact ⟨s, hs, hr⟩
      | cons t l ih =>
        intro s hl hs hr
        obtain ⟨s1, h1, h2⟩ := step1 (token_words (hl t (by simp))) hs hr
        exact ih s1 (fun u hu => hl u (by simp [hu])) h1 h2
    obtain ⟨s2, h3, h4⟩ := inn inner s1 (fun t ht => hw t (by simp [ht])) h1 h2
    have hl : metaOk (fun c => control c = false) false m := meta_oneLine fun e => by cases e
    have := taggedEnd_reset printable_oneLine hm hl s2 h3
    rw [run_cons] at h4
    have hc : call strWriter env (.taggedEnd m) s2 = taggedEnd strWriter m s2 := by
      show run (step strWriter env) [.taggedEnd m] s2 = _
      rw [run_cons]
      show (taggedEnd strWriter m s2).bind _ = _
      cases taggedEnd strWriter m s2 <;> rfl
    rw [hc] at h4
    cases e : taggedEnd strWriter m s2 with
    | ok s3 => rw [e] at this h4; exact ih s3 this h4
    | err x s3 => rw [e] at h4; cases h4
    | panic => rw [e] at h4; cases h4

end Json

/-- C102, for values, and those that have text copied too, as long as it has no control character. -/
theorem C102_values (env : Env) (he : env.OneLine) (v : V) (t : Text) (hv : Lined (toks v))
    (h : Json.toString env (valueOf v) = some t) : oneLine t = true := by
  rw [valueOf, Json.toString_eq] at h
  cases hr : run (Json.call strWriter env) (toks v) { out := [] } with
  | ok s =>
    rw [hr] at h
    have := Json.lined_run he hv _ _ ⟨fun _ hc => (by cases hc), fun _ => rfl⟩ hr
    cases h
    exact (Json.hard_oneLine _).1 this.1
  | err e s => rw [hr] at h; cases h
  | panic => rw [hr] at h; cases h

/-! ## Rust values -/

namespace Json

theorem oneLine_append (a b : Text) : oneLine (a ++ b) = (oneLine a && oneLine b) := by simp [oneLine, List.all_append]

theorem oneLine_digits {s : Text} (h : s.all isDigit = true) : oneLine s = true :=
  (hard_oneLine s).1 (hard_lit printable_oneLine (digits_printable h))

theorem oneLine_number {n : Num} (h : n.IsNumber) : oneLine n.text = true := by
  obtain ⟨h1, h2, h3, h4⟩ := h
  have hs : ∀ s : Text, s = [] ∨ s = ['+'] ∨ s = ['-'] → oneLine s = true := by rintro s (rfl | rfl | rfl) <;> rfl
  have hf : oneLine (Num.fracText n.frac) = true := by
    cases hf : n.frac with
    | none => rfl
    | some d =>
      show oneLine (['.'] ++ d) = true
      rw [oneLine_append, oneLine_digits (h3 d hf).2]; rfl
  have he : oneLine (Num.expText n.exp) = true := by
    match hx : n.exp with
    | none => rfl
    | some (c, s, d) =>
      obtain ⟨g1, g2, g3⟩ := h4 c s d hx
      show oneLine ([c] ++ (s ++ d)) = true
      rw [oneLine_append, oneLine_append, hs s g2, oneLine_digits g3.2]
      rcases g1 with rfl | rfl <;> rfl
  rw [Num.text, oneLine_append, oneLine_append, oneLine_append, hs _ h1, oneLine_digits h2.2, hf, he]
  rfl

theorem oneLine_lower {s : Text} (h : oneLine (s.map lowerC) = true) : oneLine s = true := by
  simp only [oneLine, control, List.all_eq_true, List.mem_map, forall_exists_index, and_imp, forall_apply_eq_imp_iff₂,
    Bool.not_eq_true', decide_eq_false_iff_not] at h ⊢
  intro c hc
  have := h c hc
  rw [lowerC] at this
  split at this
  · omega
  · exact this

theorem oneLine_nan {t : Text} (h : isNan t = true) : oneLine t = true := by
  rw [isNan, decide_eq_true_eq] at h
  have h1 : oneLine (pExpSign t).2 = true := by
    refine oneLine_lower ?_
    simp only [List.mem_cons, List.not_mem_nil, or_false] at h
    rcases h with h | h | h | h <;> rw [h] <;> rfl
  obtain ⟨h2, h3⟩ := pExpSign_sound t
  rw [h3, oneLine_append, h1, Bool.and_true]
  rcases h2 with h2 | h2 | h2 <;> rw [h2] <;> rfl

theorem oneLine_numberOf {t : Text} (h : (numberOf t).isSome = true) : oneLine t = true := by
  unfold numberOf at h
  split at h
  · rename_i n hn
    obtain ⟨h1, h2⟩ := pNumber_sound hn
    rw [← h2]
    exact oneLine_number h1
  · split at h
    · rename_i hn; exact oneLine_nan hn
    · cases h

end Json

namespace Rust

theorem lined_data (f : Derive.Field) (v : V) (h : plainTag f.dataTag = true) (hv : Lined (toks v)) : Lined (toks (Derive.data f v)) := by
  cases hd : f.dataTag with
  | none => simpa [Derive.data, hd] using hv
  | some t =>
    rw [hd] at h
    simp only [Derive.data, hd]
    exact .tagged (plainTag_special _ h) hv

theorem lined_struct (named : Bool) (at' : Derive.Attrs) (m : Meta) (fs : List Derive.Field) (vs : List V)
    (hf : fs.all plainField = true) (hm : plainTag m.tag = true) (h : ∀ v ∈ vs, Lined (toks v)) :
    Lined (toks (Derive.structTree named at' m fs vs)) := by
  have hp := rows_plain hf vs
  have hu : ∀ r ∈ Derive.rows fs vs, Lined (toks (Derive.data r.1 r.2)) := fun r hr =>
    lined_data _ _ (hp r hr).1 (h _ (List.of_mem_zip (List.mem_filter.mp hr).1).2)
  have hl : ∀ r ∈ Derive.rows fs vs, (Json.labelText (Derive.name r.1)).isSome = true := fun r hr => by rw [(hp r hr).2]; rfl
  have he : ∀ r ∈ Derive.entries (Derive.rows fs vs), r.1 ∈ Derive.rows fs vs := fun r h => (List.of_mem_zip h).1
  dsimp only [Derive.structTree]
  cases Derive.labeled named at' (Derive.rows fs vs) <;> cases Derive.indexed at' (Derive.rows fs vs)
  · refine .tagged (plainTag_special _ hm) (.seq ?_)
    rw [List.forall_mem_map]
    exact hu
  · refine .tuple ?_
    rw [List.forall_mem_map]
    exact fun r hr => hu _ (he r hr)
  · refine .record ?_
    rw [List.forall_mem_map]
    exact fun r hr => ⟨hl r hr, hu r hr⟩
  · refine .recordTuple ?_
    rw [List.forall_mem_map]
    exact fun r hr => ⟨hl _ (he r hr), hu _ (he r hr)⟩

theorem lined_tree (x : RV) (hx : ok x) (hc : tidy x = true) (hn : numeric x = true) : Lined (toks (tree x)) := by
  induction x using RV.ind with | h y ih => ?_
  have all : ∀ xs : List RV, (∀ x ∈ xs, x ∈ parts y ∧ ok x ∧ tidy x = true ∧ numeric x = true) → ∀ v ∈ trees xs, Lined (toks v) := by
    intro xs h v hv
    rw [trees_eq] at hv
    obtain ⟨x, hx, rfl⟩ := List.mem_map.mp hv
    obtain ⟨h1, h2, h3, h4⟩ := h x hx
    exact ih x h1 h2 h3 h4
  have txt : ∀ n (fs : List (Frag Text)), Lined (toks (.text n fs)) := by
    intro n fs
    refine .wrap rfl rfl (.all ?_)
    rw [List.forall_mem_map]
    intro f _
    cases f <;> rfl
  cases y with
  | unit | null | bool | int | f32 | f64 | none | unitStruct => exact .cons rfl .nil
  | bytes => exact .all (by simp [tree, toks, binFragTok, Token.escaped])
  | byteArray => exact .tagged rfl (.all (by simp [toks, binFragTok, Token.escaped]))
  | char | str | display => exact txt _ _
  | number fs =>
    rw [numeric] at hn
    have hl := Json.oneLine_numberOf hn
    have : Lined (.taggedBegin { tag := Option.some tags.NUMBER } :: (toks (.text Option.none (fs.map .computed)) ++
        .taggedEnd { tag := Option.some tags.NUMBER } :: [])) := by
      refine .copied ?_ rfl .nil
      intro t ht
      simp only [toks, List.map_map, List.mem_cons, List.mem_append, List.mem_map, List.not_mem_nil, or_false] at ht
      rcases ht with rfl | (rfl | ⟨f, hf, rfl⟩ | rfl) | rfl
      · rfl
      · rfl
      · show oneLine f = true
        rw [oneLine, List.all_eq_true] at hl ⊢
        exact fun c hc => hl c (List.mem_flatten.2 ⟨f, hf, hc⟩)
      · rfl
      · rfl
    exact this
  | some v => exact .tagged rfl (ih v (.head _) hx hc hn)
  | boxed v => exact ih v (.head _) hx hc hn
  | slice xs =>
    rw [ok, oks_iff] at hx
    rw [tidy, tidies_iff] at hc
    rw [numeric, numerics_iff] at hn
    exact .seq (all xs fun x h => ⟨h, hx x h, hc x h, hn x h⟩)
  | array xs =>
    rw [ok, oks_iff] at hx
    rw [tidy, tidies_iff] at hc
    rw [numeric, numerics_iff] at hn
    exact .tagged rfl (.seq (all xs fun x h => ⟨h, hx x h, hc x h, hn x h⟩))
  | tuple xs =>
    rw [ok, oks_iff] at hx
    rw [tidy, tidies_iff] at hc
    rw [numeric, numerics_iff] at hn
    refine .tuple ?_
    rw [List.forall_mem_map]
    exact fun r hr => all xs (fun x h => ⟨h, hx x h, hc x h, hn x h⟩) _ (List.fst_mem_of_mem_zipIdx hr)
  | map ks vs =>
    rw [ok, oks_iff, oks_iff] at hx
    rw [tidy, Bool.and_eq_true, tidies_iff, tidies_iff] at hc
    rw [numeric, Bool.and_eq_true, numerics_iff, numerics_iff] at hn
    refine .map fun r hr => ?_
    obtain ⟨h1, h2⟩ := List.of_mem_zip hr
    exact ⟨all ks (fun x h => ⟨List.mem_append_left _ h, hx.2.1 x h, hc.1 x h, hn.1 x h⟩) _ h1,
      all vs (fun x h => ⟨List.mem_append_right _ h, hx.2.2 x h, hc.2 x h, hn.2 x h⟩) _ h2⟩
  | newtype ident at' transparent v =>
    rw [tidy, Bool.and_eq_true] at hc
    have h := ih v (.head _) hx hc.2 hn
    cases transparent with
    | true => exact h
    | false => exact .tagged (plainTag_special _ hc.1) h
  | struct named ident at' fs vs =>
    rw [ok, oks_iff] at hx
    rw [tidy, Bool.and_eq_true, Bool.and_eq_true, tidies_iff] at hc
    rw [numeric, numerics_iff] at hn
    exact lined_struct _ _ _ _ _ hc.1.2 hc.1.1 (all vs fun x h => ⟨h, hx.2 x h, hc.2 x h, hn x h⟩)
  | enum d i vs =>
    rw [ok, oks_iff] at hx
    obtain ⟨⟨v, hv, hok⟩, hx⟩ := hx
    simp only [tidy, hv, Bool.and_eq_true, tidies_iff, bne_iff_ne] at hc
    rw [numeric, numerics_iff] at hn
    have hall := all vs fun x h => ⟨h, hx x h, hc.2 x h, hn x h⟩
    have hstruct := fun n fs (hfs : fieldsOf v.shape = fs) => lined_struct n v.attrs
        { tag := v.attrs.tag, label := Derive.variantName d v, index := indexOf d i } fs (trees vs) (hfs ▸ hc.1.2) hc.1.1.1 hall
    have inner : Lined (toks (Derive.variantTree d v (indexOf d i) (trees vs))) := by
      rw [okVariant] at hok
      cases hs : v.shape with
      | unit => simp only [Derive.variantTree, hs]; exact .cons rfl .nil
      | newtype =>
        rw [hs] at hok
        obtain ⟨x, rfl⟩ := List.length_eq_one_iff.mp hok
        have h1 := hall (tree x) (.head _)
        simp only [Derive.variantTree, hs, trees]
        split
        · exact h1
        · exact Lined.tagged (m := { tag := v.attrs.tag, label := Derive.variantName d v, index := indexOf d i })
            (plainTag_special v.attrs.tag hc.1.1.1) h1
      | named fs => simp only [Derive.variantTree, hs]; exact hstruct true fs (by rw [hs]; rfl)
      | unnamed fs => simp only [Derive.variantTree, hs]; exact hstruct false fs (by rw [hs]; rfl)
    simp only [tree, hv]
    rw [show (variantIndexes d d.variants)[i]?.getD Option.none = indexOf d i from rfl]
    split
    · exact inner
    · exact .wrap rfl rfl inner

end Rust

open Rust in
/-- C102, for values of Rust types, tidy ones, so that no tag says of text that it is a number or JSON, and whose numbers in text
are numbers: they are written on one line, whatever their text. -/
theorem C102_rust (env : Env) (he : env.OneLine) (x : RV) (t : Text) (hx : ok x) (hc : tidy x = true) (hn : numeric x = true)
    (h : Json.toString env (prog (items x)) = some t) : oneLine t = true := by
  rw [toString_rust env x hx] at h
  exact C102_values env he (tree x) t (lined_tree x hx hc hn) h

open Rust in
/-- A string with lines as a key, another in a field whose name has a tab, and a number in text. -/
example : let x : RV := .map [.str (t! "a\nb")] [.struct true (t! "S") {} [{ ident := some (t! "f"), label := some (.const (t! "g\t")) },
      { ident := some (t! "n") }] [.boxed (.str (t! "\r\n")), .number [t! "1", t! "5"]]]
    ok x ∧ tidy x = true ∧ numeric x = true ∧ anyEnv.OneLine ∧ Json.toString anyEnv (prog (items x)) =
      some (t! "{\"a\\nb\":{\"g\\t\":\"\\r\\n\",\"n\":15}}") := by
  intro x
  have hx : ok x := ⟨rfl, ⟨trivial, trivial⟩, ⟨⟨rfl, by decide, rfl⟩, trivial, trivial, trivial⟩, trivial⟩
  refine ⟨hx, rfl, rfl, ⟨fun _ _ => rfl, fun _ _ => rfl⟩, ?_⟩
  rw [toString_rust _ _ hx]
  decide +kernel

/-- C102 is false: text tagged as JSON is copied, and JSON may have lines. -/
theorem C102_fails_json :
    let v : V := .tagged { tag := some tags.JSON_VALUE } (.text none [.borrowed (t! "[1,\n2]")])
    Json.toString anyEnv (valueOf v) = some (t! "[1,\n2]") ∧ oneLine (t! "[1,\n2]") = false := by
  constructor <;> decide +kernel

/-- C102 is false: a label tagged as an identifier is copied. -/
theorem C102_fails_ident :
    let v : V := .record {} (some 1) [(none, { text := t! "a\nb", tag := some tags.VALUE_IDENT }, .bool true)]
    Json.toString anyEnv (valueOf v) = some (t! "{\"a\nb\":true}") ∧ oneLine (t! "{\"a\nb\":true}") = false := by
  constructor <;> decide +kernel

end Sval
