import Verif.Fmt.Chars
import Verif.Props.Fmt
import Verif.Props.OneLine
import Verif.Props.Rust

set_option autoImplicit false

/-!
# `sval_fmt` on one line: C107

Text is printed escaped, so what is printed has no line break and no other character that `char::escape_debug` would not leave as it
is. This is not so of labels, and of text tagged as a number, which are printed as they are.
-/

namespace Sval

open Fmt (Env toWrite strWriter call St toString)

/-- What a formatter for floats writes: printable ASCII. -/
structure Fmt.Env.Ascii (env : Env) : Prop where
  f32 : ∀ b, ∀ c ∈ env.f32 b, 32 ≤ c.toNat ∧ c.toNat ≤ 126
  f64 : ∀ b, ∀ c ∈ env.f64 b, 32 ≤ c.toNat ∧ c.toNat ≤ 126

/-- What `core` says about control characters: they are not printable. -/
def Fmt.Env.Controls (env : Env) : Prop := ∀ c, control c = true → env.printable c = false

/-- The label a call to `sval_fmt` has printed. -/
def Token.printed : Token → Text
  | .enumEnd m | .taggedBegin m | .tag m | .recordBegin m _ | .tupleBegin m _ | .recordTupleBegin m _ => (m.label.map (·.text)).getD []
  | .recordValueBegin _ l | .recordTupleValueBegin _ l _ => l.text
  | _ => []

/-- The text of a fragment. -/
def Token.said : Token → Text
  | .textFragment t | .textFragmentComputed t => t
  | _ => []

/-- The start of something tagged as a number. -/
def Token.numeral : Token → Prop
  | .taggedBegin m => m.tag = some tags.NUMBER
  | _ => False

namespace Fmt

theorem printable_iff (c : Char) : Json.printable c = true ↔ 32 ≤ c.toNat ∧ c.toNat ≤ 126 := by
  simp only [Json.printable, Bool.and_eq_true, decide_eq_true_eq]
  omega

theorem printed_eq (t : Token) : label t = t.printed := by cases t <;> rfl

theorem said_eq (t : Token) : fragment t = t.said := by cases t <;> rfl

theorem numeral_iff (t : Token) : isNumber t = true ↔ t.numeral := by cases t <;> simp [isNumber, Token.numeral]

end Fmt

/-- The characters that may be in what is printed from these calls. -/
def Fmt.May (env : Env) (ts : List Token) (c : Char) : Prop :=
  32 ≤ c.toNat ∧ c.toNat ≤ 126 ∨ env.printable c = true ∧ env.extended c = false ∨ (∃ t ∈ ts, c ∈ t.printed) ∨
    (∃ t ∈ ts, c ∈ t.said) ∧ ∃ t ∈ ts, t.numeral

theorem Fmt.may_ok {env : Env} {ts : List Token} : ∃ raw, ∀ t ∈ ts, Fmt.TokenOk env (Fmt.May env ts) raw t := by
  by_cases hn : ∃ t ∈ ts, t.numeral
  · refine ⟨true, fun t ht => ⟨fun c hc => ?_, fun c hc _ => ?_, fun _ c hc => ?_, fun e => by cases e⟩⟩
    · exact .inr (.inr (.inl ⟨t, ht, Fmt.printed_eq t ▸ hc⟩))
    · exact .inr (.inr (.inr ⟨⟨t, ht, Fmt.said_eq t ▸ hc⟩, hn⟩))
    · exact .inr (.inr (.inr ⟨⟨t, ht, Fmt.said_eq t ▸ hc⟩, hn⟩))
  · refine ⟨false, fun t ht => ⟨fun c hc => ?_, fun c hc he => ?_, fun e => (by cases e), fun _ => ?_⟩⟩
    · exact .inr (.inr (.inl ⟨t, ht, Fmt.printed_eq t ▸ hc⟩))
    · rcases Fmt.escapeDebug_cases env c with ⟨_, h⟩ | ⟨_, h⟩
      · rw [he] at h; simp at h
      · exact .inr (.inl h)
    · cases h : Fmt.isNumber t with
      | false => rfl
      | true => exact absurd ⟨t, ht, (Fmt.numeral_iff t).1 h⟩ hn

/-- C107. Whatever code prints, whether or not it succeeds, has no character but these: printable ASCII; those `char::escape_debug`
leaves as they are; those of labels; and, if something is tagged as a number, those of text. -/
theorem C107_chars (env : Env) (he : env.Ascii) (p : Prog) (ok : Bool) (o : Text) (h : toWrite strWriter env p [] = .done ok o)
    (c : Char) (hc : c ∈ o) :
    32 ≤ c.toNat ∧ c.toNat ≤ 126 ∨ env.printable c = true ∧ env.extended c = false ∨
    (∃ t ∈ received (guarded (call strWriter env)) p .base (St.new [], false), c ∈ t.printed) ∨
    (∃ t ∈ received (guarded (call strWriter env)) p .base (St.new [], false), c ∈ t.said) ∧
      ∃ t ∈ received (guarded (call strWriter env)) p .base (St.new [], false), t.numeral := by
  obtain ⟨raw, hr⟩ := Fmt.may_ok (env := env) (ts := received (guarded (call strWriter env)) p .base (St.new [], false))
  exact Fmt.toWrite_fine (w := strWriter) (J := fun o => Json.hard _ o) (raw := raw) (fun c hc => .inl ((Fmt.printable_iff c).1 hc))
    (fun _ t o ho ht => show Json.hard _ (o ++ t) from Json.hard.append ho ht) (fun b c hc => .inl (he.f32 b c hc)) (fun b c hc => .inl (he.f64 b c hc)) p
    (fun _ hc => by cases hc) hr h c hc

/-- C107. The same of any writer of tokens: of each it is given. `w` fails when it likes, and keeps what it was given. -/
theorem C107_tokens {ω : Type} (w : Fmt.Writer (ω × List Text)) (hw : ∀ k t o, match w k t o with
      | .ok o' | .err _ o' => o'.2 = o.2 ++ [t]
      | .panic => True)
    (env : Env) (he : env.Ascii) (p : Prog) (ok : Bool) (o : ω) (o' : ω × List Text) (h : toWrite w env p (o, []) = .done ok o')
    (t : Text) (ht : t ∈ o'.2) (c : Char) (hc : c ∈ t) :
    Fmt.May env (received (guarded (call w env)) p .base (St.new (o, []), false)) c := by
  obtain ⟨raw, hr⟩ := Fmt.may_ok (env := env) (ts := received (guarded (call w env)) p .base (St.new (o, []), false))
  refine Fmt.toWrite_fine (J := fun o : ω × List Text => ∀ t ∈ o.2, Json.hard _ t) (raw := raw)
    (fun c hc => .inl ((Fmt.printable_iff c).1 hc)) (fun k t o ho ht => ?_) (fun b c hc => .inl (he.f32 b c hc))
    (fun b c hc => .inl (he.f64 b c hc)) p (fun _ hc => by cases hc) hr h t ht c hc
  have go : ∀ o' : ω × List Text, o'.2 = o.2 ++ [t] → ∀ u ∈ o'.2, u ∈ o.2 ∨ u = t := by
    intro o' e u hu
    rwa [e, List.mem_append, List.mem_singleton] at hu
  have := hw k t o
  cases e : w k t o with
  | ok o' => rw [e] at this; exact fun u hu => (go o' this u hu).elim (ho u) fun e => e ▸ ht
  | err x o' => rw [e] at this; exact fun u hu => (go o' this u hu).elim (ho u) fun e => e ▸ ht
  | panic => trivial

/-- C107, as far as it holds: whatever code prints is on one line, and has no other control character, if labels have none and nothing is
tagged as a number. Missing: `C107_fails_label` and `C107_fails_number`. -/
theorem C107_partial (env : Env) (he : env.Ascii) (hk : env.Controls) (p : Prog) (ok : Bool) (o : Text)
    (h : toWrite strWriter env p [] = .done ok o)
    (hl : ∀ t ∈ received (guarded (call strWriter env)) p .base (St.new [], false), oneLine t.printed = true ∧ ¬ t.numeral) :
    oneLine o = true := by
  rw [oneLine, List.all_eq_true]
  intro c hc
  rcases C107_chars env he p ok o h c hc with h | h | ⟨t, ht, hc⟩ | ⟨_, t, ht, hn⟩
  · simp [control]; omega
  · cases e : control c with
    | false => rfl
    | true => rw [hk c e] at h; cases h.1
  · exact List.all_eq_true.1 (hl t ht).1 c hc
  · exact absurd hn (hl t ht).2

/-- C107. If it is not, the line break is in the text given. -/
theorem C107_given (env : Env) (he : env.Ascii) (hk : env.Controls) (p : Prog) (ok : Bool) (o : Text)
    (h : toWrite strWriter env p [] = .done ok o)
    (hl : ∀ t ∈ received (guarded (call strWriter env)) p .base (St.new [], false), oneLine t.printed = true ∧ oneLine t.said = true) :
    oneLine o = true := by
  rw [oneLine, List.all_eq_true]
  intro c hc
  rcases C107_chars env he p ok o h c hc with h | h | ⟨t, ht, hc⟩ | ⟨⟨t, ht, hc⟩, _⟩
  · simp [control]; omega
  · cases e : control c with
    | false => rfl
    | true => rw [hk c e] at h; cases h.1
  · exact List.all_eq_true.1 (hl t ht).1 c hc
  · exact List.all_eq_true.1 (hl t ht).2 c hc

/-- C107, for values. -/
theorem C107_value_partial (env : Env) (he : env.Ascii) (hk : env.Controls) (v : V) (o : Text) (h : toString env (valueOf v) = some o)
    (hl : ∀ t ∈ toks v, oneLine t.printed = true ∧ ¬ t.numeral) : oneLine o = true := by
  unfold Fmt.toString at h
  split at h
  · rename_i o' h'
    cases h
    refine C107_partial env he hk _ true o h' fun t ht => hl t ?_
    exact (received_ofToks _ _ _).subset ht
  · cases h

/-! ## Values, exactly -/

namespace Fmt

/-- The text of a label. -/
def named (m : Meta) : List Text :=
  match m.label with
  | some l => [l.text]
  | none => []

mutual
/-- The texts in a value that are printed as they are: labels, and text inside something tagged as a number, but not inside
a container inside it. The label of an enum is printed where its variant is empty (C26). -/
def asIs (num : Bool) : V → List Text
  | .text _ fs => if num then [fragsText fs] else []
  | .seq _ xs => asIsSeq xs
  | .map _ kvs => asIsMap kvs
  | .tag m => named m
  | .tagged m v => named m ++ asIs (num || decide (m.tag = some tags.NUMBER)) v
  | .enum m v => asIs num v ++ if hollow true v then named m else []
  | .record m _ fs => named m ++ asIsRec fs
  | .tuple m _ fs => named m ++ asIsTup fs
  | .recordTuple m _ fs => named m ++ asIsRT fs
  | .hint _ v => asIs num v
  | _ => []
def asIsSeq : List V → List Text
  | [] => []
  | x :: xs => asIs false x ++ asIsSeq xs
def asIsMap : List (V × V) → List Text
  | [] => []
  | (k, v) :: r => asIs false k ++ asIs false v ++ asIsMap r
def asIsRec : List (Option Tag × Label × V) → List Text
  | [] => []
  | (_, l, v) :: r => l.text :: asIs false v ++ asIsRec r
def asIsTup : List (Option Tag × Index × V) → List Text
  | [] => []
  | (_, _, v) :: r => asIs false v ++ asIsTup r
def asIsRT : List (Option Tag × Label × Index × V) → List Text
  | [] => []
  | (_, l, _, v) :: r => l.text :: asIs false v ++ asIsRT r
end

/-- No control character in this output. -/
def calm (o : Out) : Bool := oneLine o.text

theorem calm_append (a b : Out) : calm (a ++ b) = (calm a && calm b) := by
  simp [calm, Out.text, oneLine]

theorem calm_lay (k : Kind) (t : Text) : calm (lay k t) = oneLine t := by
  simp [calm, Out.text, lay, List.map_map, Function.comp_def]

theorem oneLine_lit {t : Text} (h : t.all Json.printable = true) : oneLine t = true :=
  (Json.hard_oneLine t).1 (Json.hard_lit Json.printable_oneLine h)

theorem calm_lit (k : Kind) {t : Text} (h : t.all Json.printable = true) : calm (lay k t) = true := by
  rw [calm_lay, oneLine_lit h]

theorem calm_commas (xs : List Out) : calm (commas xs) = xs.all calm := by
  induction xs with
  | nil => rfl
  | cons x xs ih =>
    cases xs with
    | nil => simp [commas]
    | cons y r =>
      rw [commas, calm_append, calm_append, calm_append, ih, calm_lit _ rfl, calm_lit _ rfl]
      simp

theorem calm_brackets (xs : List Out) : calm (brackets xs) = xs.all calm := by
  simp only [brackets, calm_append, calm_commas, calm_lit .punct (t := t! "[") rfl, calm_lit .punct (t := t! "]") rfl, Bool.true_and, Bool.and_true]

theorem calm_parens (xs : List Out) : calm (parens xs) = xs.all calm := by
  simp only [parens, calm_append, calm_commas, calm_lit .punct (t := t! "(") rfl, calm_lit .punct (t := t! ")") rfl, Bool.true_and, Bool.and_true]

theorem calm_braces (xs : List Out) : calm (braces xs) = xs.all calm := by
  rw [braces]
  split
  · rename_i h
    subst h
    exact calm_lit _ rfl
  · simp only [calm_append, calm_commas, calm_lit .punct (t := t! "{") rfl, calm_lit .punct (t := t! "}") rfl,
      calm_lit .ws (t := t! " ") rfl, Bool.true_and, Bool.and_true]

theorem calm_entry (k v : Out) : calm (entry k v) = (calm k && calm v) := by
  simp only [entry, calm_append, calm_lit .punct (t := t! ":") rfl, calm_lit .ws (t := t! " ") rfl, Bool.and_true]

theorem calm_name (m : Meta) : calm (name m) = (named m).all oneLine := by
  unfold name named
  cases m.label with
  | none => exact calm_lit _ rfl
  | some l => simp [calm_lay]

theorem calm_labelled (m : Meta) (x : Out) : calm (labelled m x) = ((named m).all oneLine && calm x) := by
  unfold labelled named
  cases m.label with
  | none => simp
  | some l => simp [calm_lay, calm_append]

theorem calm_recordOut (m : Meta) (fs : List Out) : calm (recordOut m fs) = ((named m).all oneLine && fs.all calm) := by
  unfold recordOut named
  cases m.label with
  | none => simp [calm_braces]
  | some l => simp only [calm_lay, calm_append, calm_braces, show oneLine (t! " ") = true from rfl]; simp

theorem oneLine_escape {env : Env} (hk : env.Controls) (t : Text) : oneLine (escape env t) = true := by
  rw [oneLine, List.all_eq_true]
  intro c hc
  rw [escape, List.mem_flatMap] at hc
  obtain ⟨d, _, hd⟩ := hc
  rcases escapeDebug_cases env d with ⟨h, _⟩ | ⟨h, hp, _⟩
  · exact List.all_eq_true.1 (oneLine_lit h) c hd
  · rw [h, List.mem_singleton] at hd
    subst hd
    cases e : control c with
    | false => rfl
    | true => rw [hk c e] at hp; cases hp

theorem oneLine_ascii {t : Text} (h : ∀ c ∈ t, 32 ≤ c.toNat ∧ c.toNat ≤ 126) : oneLine t = true :=
  oneLine_lit (List.all_eq_true.2 fun c hc => (printable_iff c).2 (h c hc))

theorem calm_layout {env : Env} (he : env.Ascii) (hk : env.Controls) (v : V) (n : Bool) :
    calm (layout env twice n v) = (asIs n v).all oneLine := by
  induction v using V.ind generalizing n with
  | null => exact calm_lit _ rfl
  | bool b => cases b <;> exact calm_lit _ rfl
  | int t v => exact calm_lit _ (Json.intDec_printable v)
  | f32 b => simp only [layout, calm_lay, oneLine_ascii (he.f32 b), asIs, List.all_nil]
  | f64 b => simp only [layout, calm_lay, oneLine_ascii (he.f64 b), asIs, List.all_nil]
  | text h fs =>
    cases n
    · simp only [layout, asIs, Bool.false_eq_true, if_false, calm_lay, List.all_nil]
      have : ∀ u, oneLine ('"' :: (u ++ ['"'])) = oneLine u := by
        intro u
        simp [oneLine, control]
      rw [this, oneLine_escape hk]
    · simp [layout, asIs, calm_lay]
  | binary h fs =>
    simp only [layout, calm_brackets, asIs, List.all_nil, List.all_map, List.all_eq_true, Function.comp_apply]
    intro b _
    exact calm_lit _ (Json.intDec_printable _)
  | seq m xs ih =>
    simp only [layout, calm_brackets, asIs]
    induction xs with
    | nil => rfl
    | cons x xs ih' =>
      simp only [layoutSeq, asIsSeq, List.all_cons, List.all_append, ih x (by simp), ih' (fun y hy => ih y (by simp [hy]))]
  | map m kvs ih =>
    simp only [layout, calm_braces, asIs]
    induction kvs with
    | nil => rfl
    | cons kv r ih' =>
      obtain ⟨k, v⟩ := kv
      simp only [layoutMap, asIsMap, List.all_cons, List.all_append, calm_entry, (ih (k, v) (by simp)).1, (ih (k, v) (by simp)).2,
        ih' (fun y hy => ih y (by simp [hy]))]
  | record m n fs ih =>
    simp only [layout, calm_recordOut, asIs, List.all_append]
    congr 1
    induction fs with
    | nil => rfl
    | cons f r ih' =>
      obtain ⟨t, l, v⟩ := f
      simp only [layoutRec, asIsRec, List.all_cons, List.cons_append, List.all_append, calm_entry, calm_lay, ih (t, l, v) (by simp),
        ih' (fun y hy => ih y (by simp [hy])), Bool.and_assoc]
  | tuple m n fs ih =>
    simp only [layout, calm_labelled, calm_parens, asIs, List.all_append]
    congr 1
    induction fs with
    | nil => rfl
    | cons f r ih' =>
      obtain ⟨t, l, v⟩ := f
      simp only [layoutTup, asIsTup, List.all_cons, List.all_append, ih (t, l, v) (by simp), ih' (fun y hy => ih y (by simp [hy]))]
  | recordTuple m n fs ih =>
    simp only [layout, calm_recordOut, asIs, List.all_append]
    congr 1
    induction fs with
    | nil => rfl
    | cons f r ih' =>
      obtain ⟨t, l, i, v⟩ := f
      simp only [layoutRT, asIsRT, List.all_cons, List.cons_append, List.all_append, calm_entry, calm_lay, ih (t, l, i, v) (by simp),
        ih' (fun y hy => ih y (by simp [hy])), Bool.and_assoc]
  | tag m => exact calm_name m
  | tagged m v ih =>
    simp only [layout, asIs, named]
    cases m.label with
    | none => simp [ih]
    | some l => simp [calm_append, calm_lay, calm_parens, ih]
  | enum m v ih =>
    simp only [layout, asIs, twice, calm_append, ih, List.all_append]
    cases hollow true v
    · rfl
    · simp [calm_name]
  | hint t v ih => simp only [layout, asIs, ih]

end Fmt

/-- C107, exactly: what is printed for a value is on one line if and only if the texts that are printed as they are are. -/
theorem C107_exact (env : Env) (he : env.Ascii) (hk : env.Controls) (v : V) (o : Text) (h : toString env (valueOf v) = some o) :
    oneLine o = true ↔ ∀ t ∈ Fmt.asIs false v, oneLine t = true := by
  rw [C26_exact] at h
  cases h
  rw [← List.all_eq_true, ← Fmt.calm_layout he hk v false]
  rfl

/-- C107. The same of any other value that makes calls, in whatever way, that make up this one. -/
theorem C107_fragments (env : Env) (he : env.Ascii) (hk : env.Controls) (v v' : V) (hv : merge v = merge v') (o : Text)
    (h : toString env (valueOf v') = some o) : oneLine o = true ↔ ∀ t ∈ Fmt.asIs false v, oneLine t = true := by
  rw [C26_exact, ← Fmt.layout_merge, ← hv, Fmt.layout_merge, ← C26_exact] at h
  exact C107_exact env he hk v o h

/-- C107, for the values of Rust types. -/
theorem C107_rust (env : Env) (he : env.Ascii) (hk : env.Controls) (x : Rust.RV) (hx : Rust.ok x) (o : Text)
    (h : toString env (Nested.prog (Rust.items x)) = some o) : oneLine o = true ↔ ∀ t ∈ Fmt.asIs false (Rust.tree x), oneLine t = true := by
  have h' : toString env (Nested.prog (Rust.items x)) = toString env (valueOf (Rust.tree x)) := by
    simp only [Fmt.toString, Fmt.toWrite, drive, (C38 _ x hx _).1]
  rw [h'] at h
  exact C107_exact env he hk _ o h

/-- An environment of this kind. -/
def asciiFmt : Env where
  f32 _ := t! "1.0"
  f64 _ := t! "1.0"
  extended _ := false
  printable c := 32 ≤ c.toNat

example : asciiFmt.Ascii ∧ asciiFmt.Controls := by
  have hf : ∀ c ∈ t! "1.0", 32 ≤ c.toNat ∧ c.toNat ≤ 126 := by decide
  refine ⟨⟨fun _ => hf, fun _ => hf⟩, fun c h => ?_⟩
  simp only [control, decide_eq_true_eq] at h
  simp only [asciiFmt, decide_eq_false_iff_not]
  omega

/-- Code that goes on after it was told to stop prints a line break escaped. -/
example : (let p : Prog := .call (.recordBegin { label := some { text := t! "A" } } none) fun _ =>
      .call (.recordValueBegin none { text := t! "b" }) fun b => .call (.textBegin none) fun _ => .call (.textFragment (t! "é\nc")) fun _ => .ret b
    toWrite strWriter asciiFmt p [] = .done true (t! "A { b: \"é\\nc") ∧
    (received (guarded (call strWriter asciiFmt)) p .base (St.new [], false)).all (fun t => oneLine t.printed) = true) := by
  constructor <;> decide +kernel

/-- Text, and a number that is none. -/
example : Fmt.asIs false (Rust.tree (.tuple [.str (t! "a\nb"), .some (.number [t! "1", t! "\n"])])) = [t! "Some", t! "1\n"] := by decide +kernel

/-- Text in a list inside a number is not printed as it is. -/
example : Fmt.asIs false (.tagged { tag := some tags.NUMBER, label := some { text := t! "N" } }
      (.seq none [.text none [.computed (t! "a\nb")], .tagged { tag := some tags.NUMBER } (.text none [.computed (t! "1e5")])])) =
    [t! "N", t! "1e5"] := by decide +kernel

/-- C107 fails: a label is printed as it is. -/
theorem C107_fails_label : toString asciiFmt (valueOf (.tagged { label := some { text := t! "A\nB" } } (.bool true))) =
    some (t! "A\nB(true)") := by decide +kernel

/-- C107 fails: so is text tagged as a number. -/
theorem C107_fails_number : toString asciiFmt (valueOf (.tagged { tag := some tags.NUMBER } (.text none [.computed (t! "1\n2")]))) =
    some (t! "1\n2") := by decide +kernel

end Sval
