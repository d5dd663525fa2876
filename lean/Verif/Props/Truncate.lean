import Verif.Json.Ends
import Verif.Json.Bytes
import Verif.Props.JsonIo
import Verif.Props.JsonRefuse

set_option autoImplicit false

/-!
# C103. Where a document ends can be seen

A file that was not written to its end, a connection that was closed too early: what there is of the document is not
a document, so that whoever reads it can tell. And documents that are written one after the other can be taken apart.
It holds of all documents but numbers.
-/

namespace Sval

open Json
open Nested (prog)

/-! ## Texts and bytes -/

namespace Json

/-- Bytes begin with one character at most. -/
theorem utf8_first {c d : Char} {a b : Bytes} (h : String.utf8EncodeChar c ++ a = String.utf8EncodeChar d ++ b) : c = d ∧ a = b := by
  have key : ∀ (c : Char) (a : Bytes), ByteArray.utf8DecodeChar? (String.utf8EncodeChar c ++ a).toByteArray 0 = some c := by
    intro c a
    rw [List.toByteArray_append]
    exact ByteArray.utf8DecodeChar?_utf8EncodeChar_append
  have h1 := key c a
  rw [h, key d b] at h1
  cases h1
  exact ⟨rfl, List.append_cancel_left h⟩

/-- A text whose bytes are the first of those of another is the beginning of it. -/
theorem utf8_prefix {p t : Text} (h : utf8 p <+: utf8 t) : p <+: t := by
  induction p generalizing t with
  | nil => exact List.nil_prefix
  | cons c p ih =>
    obtain ⟨r, hr⟩ := h
    rw [Reader.Bytes.utf8_cons, List.append_assoc] at hr
    cases t with
    | nil =>
      have := congrArg List.length hr
      have hc := Char.utf8Size_pos c
      rw [List.length_append, String.length_utf8EncodeChar] at this
      simp [utf8] at this
      omega
    | cons d t =>
      rw [Reader.Bytes.utf8_cons] at hr
      obtain ⟨rfl, h⟩ := utf8_first hr
      exact (List.prefix_cons_inj _).2 (ih ⟨r, h⟩)

end Json

/-! ## Values -/

/-- C103, as far as it holds: of what is written for a value that is not a number, no beginning is a document, but for space at
the end. -/
theorem C103_partial (env : Env) (v : V) (j : J) (hj : value env v = some j) (hs : safe v = true) (hn : NotNumber j) :
    ∃ t, Json.toString env (valueOf v) = some t ∧ Doc j t ∧
      ∀ p j', p <+: t → Doc j' p → j' = j ∧ ∃ w, Ws w ∧ t = p ++ w := by
  obtain ⟨h1, h2⟩ := toString_text_of env v j hj hs
  have h3 := (parse_iff _ _).1 h2
  exact ⟨_, h1, h3, fun p j' hp hd => ended_prefix hn h3 hd hp⟩

/-- C103. There is space at the end only in text tagged as JSON: of any other value, no beginning is a document. -/
theorem C103_whole (env : Env) (v : V) (j : J) (hj : value env v = some j) (hs : safe v = true) (hn : NotNumber j)
    (hb : allJson v = false) :
    ∃ t, Json.toString env (valueOf v) = some t ∧ ∀ p, p <+: t → ((∃ j', Doc j' p) ↔ p = t) := by
  obtain ⟨h1, h2⟩ := toString_val env v j hj hs hn hb
  have h3 : Doc j (valueT env v) := ⟨[], _, [], rfl, h2, rfl, by simp⟩
  refine ⟨_, h1, fun p hp => ⟨fun ⟨j', hd⟩ => ?_, fun h => ⟨j, h ▸ h3⟩⟩⟩
  obtain ⟨_, w, hw, e⟩ := ended_prefix hn h3 hd hp
  rcases List.eq_nil_or_concat w with rfl | ⟨a, c, rfl⟩
  · simpa using e.symm
  · have := ((tights env v hb).1 j hj hn).2 c (by rw [e, List.concat_eq_append, ← List.append_assoc, List.getLast?_concat])
    rw [Ws, List.concat_eq_append, List.all_append] at hw
    simp [this] at hw

/-- C103. Values written one after the other, with nothing in between, can be taken apart: the same text is written only for
values with the same documents, each spelled the same. -/
theorem C103_concat (env : Env) (vs vs' : List V)
    (h : ∀ v ∈ vs ++ vs', safe v = true ∧ allJson v = false ∧ ∃ j, value env v = some j ∧ NotNumber j)
    (ts ts' : List Text) (ht : vs.map (fun v => Json.toString env (valueOf v)) = ts.map some)
    (ht' : vs'.map (fun v => Json.toString env (valueOf v)) = ts'.map some) (e : ts.flatten = ts'.flatten) :
    ts = ts' ∧ vs.map (value env) = vs'.map (value env) := by
  have key : ∀ (vs : List V) (ts : List Text), (∀ v ∈ vs, safe v = true ∧ allJson v = false ∧ ∃ j, value env v = some j ∧ NotNumber j) →
      vs.map (fun v => Json.toString env (valueOf v)) = ts.map some →
      (∀ t ∈ ts, ∃ j, NotNumber j ∧ Val j t) ∧ vs.map (value env) = ts.map parse := by
    intro vs
    induction vs with
    | nil => intro ts _ h; cases ts with
      | nil => exact ⟨by simp, rfl⟩
      | cons _ _ => cases h
    | cons v vs ih =>
      intro ts hv h
      cases ts with
      | nil => cases h
      | cons t ts =>
        simp only [List.map_cons, List.cons.injEq] at h
        obtain ⟨h1, h2⟩ := ih ts (fun v hm => hv v (.tail _ hm)) h.2
        obtain ⟨hs, hb, j, hj, hn⟩ := hv v (.head _)
        obtain ⟨h3, h4⟩ := toString_val env v j hj hs hn hb
        rw [h3] at h
        cases h.1
        refine ⟨fun t ht => ?_, by rw [List.map_cons, List.map_cons, h2, hj, (toString_text_of env v j hj hs).2]⟩
        rcases List.mem_cons.1 ht with rfl | ht
        · exact ⟨j, hn, h4⟩
        · exact h1 t ht
  obtain ⟨h1, h2⟩ := key vs ts (fun v hv => h v (List.mem_append_left _ hv)) ht
  obtain ⟨h3, h4⟩ := key vs' ts' (fun v hv => h v (List.mem_append_right _ hv)) ht'
  have := ended_split ts ts' h1 h3 e
  subst this
  exact ⟨rfl, by rw [h2, h4]⟩

/-- Two objects, then a string; and `null`, inside of an enum. -/
example : let a : V := .record { label := some { text := t! "P" } } (some 1) [(none, { text := t! "x" }, .int .i32 12)]
    let b : V := .text none [.borrowed (t! "{")]
    let c : V := .enum {} (.tag { tag := some tags.RUST_OPTION_NONE, label := some { text := t! "None" } })
    (∀ v ∈ [a, a, b, c], safe v = true ∧ allJson v = false ∧ ∃ j, value anyEnv v = some j ∧ NotNumber j) ∧
      Json.toString anyEnv (valueOf a) = some (t! "{\"x\":12}") ∧ Json.toString anyEnv (valueOf b) = some (t! "\"{\"") := by
  intro a b c
  refine ⟨?_, by decide +kernel, by decide +kernel⟩
  intro v hv
  simp only [List.mem_cons, List.not_mem_nil, or_false] at hv
  rcases hv with rfl | rfl | rfl | rfl <;> exact ⟨rfl, rfl, _, rfl, trivial⟩

/-! ## Writers that fail -/

namespace Json

theorem toFmt_some {env : Env} {p : Prog} {t : Text} (ht : Json.toString env p = some t) : toFmt strWriter env p [] = (.ok, t) := by
  simp only [Json.toString] at ht
  split at ht
  · next heq => cases ht; exact heq
  · cases ht

/-- A failed writer has not got a document. -/
theorem io_not_doc (env : Env) (p : Prog) (hp : p.Propagates) (answers : List Ans) (hz : .wrote 0 ∉ given env p answers) (t : Text)
    (ht : Json.toString env p = some t) (hd : ∀ p, p <+: t → (∃ j', Doc j' p) → p = t) :
    match toIo env p answers with
    | (.ok, got) => got = utf8 t
    | (_, got) => got <+: utf8 t ∧ ∀ q j', utf8 q = got → ¬ Doc j' q := by
  have h := C25_exact env p hp answers
  have ht' := toFmt_some ht
  simp only [ht'] at h
  generalize hr : toIo env p answers = r at h ⊢
  obtain ⟨r, got⟩ := r
  cases r with
  | ok =>
    obtain ⟨t', h1, h2⟩ := h
    rw [ht] at h1; cases h1
    exact h2.2.2.2 hz
  | io e =>
    obtain ⟨_, h⟩ := h
    obtain ⟨_, h2, h3⟩ := h (by simp)
    refine ⟨h3 hz, fun q j' hq hd' => ?_⟩
    subst hq
    rw [hd q (utf8_prefix (h3 hz)) ⟨j', hd'⟩] at h2
    omega
  | invalidKey => cases h.1
  | generic => cases h.1
  | panic => cases h

end Json

/-- C103, for `stream_to_io_write`: a writer that never answers `Ok(0)` has got all of the document if streaming reports success,
and otherwise what it has got is the beginning of the document, but no document. -/
theorem C103_io (env : Env) (v : V) (j : J) (hj : value env v = some j) (hs : safe v = true) (hn : NotNumber j)
    (hb : allJson v = false) (answers : List Ans) (hz : (.wrote 0 : Ans) ∉ Json.given env (valueOf v) answers) :
    ∃ t, Json.toString env (valueOf v) = some t ∧ match toIo env (valueOf v) answers with
    | (.ok, got) => got = utf8 t
    | (_, got) => got <+: utf8 t ∧ ∀ q j', utf8 q = got → ¬ Doc j' q := by
  obtain ⟨t, h1, h2⟩ := C103_whole env v j hj hs hn hb
  exact ⟨t, h1, io_not_doc env _ (ofToks_propagates _) answers hz t h1 fun p hp h => (h2 p hp).1 h⟩

/-- The writer takes three bytes, then fails. -/
example : let v : V := .seq none [.int .i32 12, .int .i32 3]
    (.wrote 0 : Ans) ∉ Json.given anyEnv (valueOf v) [.wrote 1, .wrote 2, .error 5] ∧
      toIo anyEnv (valueOf v) [.wrote 1, .wrote 2, .error 5] = (.io 5, utf8 (t! "[12")) := by
  constructor <;> decide +kernel

/-! ## Values that stop early -/

/-- C103, for values that stop early and report success: after the first calls of a value there is a document just if the calls
that are missing would write nothing. -/
theorem C103_early (env : Env) (v : V) (j : J) (hj : value env v = some j) (hs : safe v = true) (hn : NotNumber j)
    (hb : allJson v = false) (a b : List Token) (h : toks v = a ++ b) :
    ∃ p t, Json.toString env (.ofToks a) = some p ∧ Json.toString env (valueOf v) = some t ∧ p <+: t ∧ ((∃ j', Doc j' p) ↔ p = t) := by
  obtain ⟨t, h1, h2⟩ := C103_whole env v j hj hs hn hb
  have h3 := h1
  rw [valueOf, toString_eq, h, run_append] at h3
  cases hr : run (call strWriter env) a { out := [] } with
  | ok s =>
    have hp := C44_prefix env a b []
    have e1 : Json.toString env (.ofToks a) = some s.out := by rw [toString_eq, hr]; rfl
    rw [(toFmt_some e1), (toFmt_some (p := .ofToks (a ++ b)) (by rw [← h]; exact h1))] at hp
    exact ⟨s.out, t, e1, h1, hp, h2 _ hp⟩
  | err e s => rw [hr] at h3; cases h3
  | panic => rw [hr] at h3; cases h3

/-- An array without its end, and an option without its end: nothing is written for that. -/
example : let v : V := .tagged { tag := some tags.RUST_OPTION_SOME } (.seq none [.int .i32 1])
    toks v = [.taggedBegin { tag := some tags.RUST_OPTION_SOME }, .seqBegin none, .seqValueBegin, .int .i32 1, .seqValueEnd] ++
      [.seqEnd, .taggedEnd { tag := some tags.RUST_OPTION_SOME }] ∧
    Json.toString anyEnv (.ofToks ((toks v).take 5)) = some (t! "[1") ∧ Json.toString anyEnv (.ofToks ((toks v).take 6)) = some (t! "[1]") ∧
    safe v = true ∧ allJson v = false := by
  refine ⟨rfl, ?_, ?_, rfl, rfl⟩ <;> decide +kernel

/-! ## Rust values -/

namespace Rust

theorem allJson_data (f : Derive.Field) (v : V) (h : plainTag f.dataTag = true) : allJson (Derive.data f v) = allJson v := by
  unfold Derive.data
  cases hd : f.dataTag with
  | none => rfl
  | some t =>
    simp only [allJson, hd, plainTag] at h ⊢
    simp at h
    simp [h]

theorem plainTag_json (t : Option Tag) (h : plainTag t = true) : t ≠ some tags.JSON_VALUE := by
  rintro rfl
  simp [plainTag] at h

theorem allJson_tree (x : RV) (hx : ok x) (hc : tidy x = true) : allJson (tree x) = false := by
  induction x using RV.ind with | h y ih => ?_
  have hstruct : ∀ named at' m fs vs, plainTag m.tag = true → allJson (Derive.structTree named at' m fs vs) = false := by
    intro named at' m fs vs hm
    dsimp only [Derive.structTree]
    cases Derive.labeled named at' (Derive.rows fs vs) <;> cases Derive.indexed at' (Derive.rows fs vs) <;>
      simp [allJson, plainTag_json _ hm]
  cases y with
  | unit | null | bool | int | f32 | f64 | none | unitStruct | bytes | byteArray | char | str | display | number => rfl
  | some v => exact ih v (.head _) hx hc
  | boxed v => exact ih v (.head _) hx hc
  | slice | array | tuple | map => rfl
  | newtype ident at' transparent v =>
    rw [tidy, Bool.and_eq_true] at hc
    have h := ih v (.head _) hx hc.2
    cases transparent with
    | true => exact h
    | false => simp only [tree, Bool.false_eq_true, if_false, allJson, h, Bool.or_false, decide_eq_false_iff_not]; exact plainTag_json _ hc.1
  | struct named ident at' fs vs =>
    rw [tidy, Bool.and_eq_true, Bool.and_eq_true] at hc
    exact hstruct _ _ _ _ _ hc.1.1
  | enum d i vs =>
    rw [ok, oks_iff] at hx
    obtain ⟨⟨v, hv, hok⟩, hx⟩ := hx
    simp only [tidy, hv, Bool.and_eq_true, tidies_iff, bne_iff_ne] at hc
    have inner : allJson (Derive.variantTree d v (indexOf d i) (trees vs)) = false := by
      rw [okVariant] at hok
      cases hs : v.shape with
      | unit => simp only [Derive.variantTree, hs]; rfl
      | newtype =>
        rw [hs] at hok
        obtain ⟨x, rfl⟩ := List.length_eq_one_iff.mp hok
        have h1 := ih x (.head _) (hx x (.head _)) (hc.2 x (.head _))
        simp only [Derive.variantTree, hs, trees]
        split
        · exact h1
        · simp only [allJson, h1, Bool.or_false, decide_eq_false_iff_not]; exact plainTag_json _ hc.1.1.1
      | named fs => simp only [Derive.variantTree, hs]; exact hstruct _ _ _ _ _ hc.1.1.1
      | unnamed fs => simp only [Derive.variantTree, hs]; exact hstruct _ _ _ _ _ hc.1.1.1
    simp only [tree, hv]
    rw [show (variantIndexes d d.variants)[i]?.getD Option.none = indexOf d i from rfl]
    split
    · exact inner
    · exact inner

end Rust

open Rust in
/-- C103, for values of Rust types that are written as they should be, C68, and not as numbers: no beginning of what is written
is a document, and a writer that fails has not got one. -/
theorem C103_rust (env : Env) (x : RV) (j : J) (hx : ok x) (hj : doc env x = some j) (hc : clear x = true) (hn : NotNumber j) :
    ∃ t, Json.toString env (prog (items x)) = some t ∧ (∀ p, p <+: t → ((∃ j', Doc j' p) ↔ p = t)) ∧
      ∀ answers, (.wrote 0 : Ans) ∉ answers → match toIo env (prog (items x)) answers with
        | (.ok, got) => got = utf8 t
        | (_, got) => got <+: utf8 t ∧ ∀ q j', utf8 q = got → ¬ Doc j' q := by
  rw [toString_rust env x hx]
  obtain ⟨h1, h2⟩ := doc_tree env x hx hc
  have hb : allJson (tree x) = false := allJson_tree x hx (by rw [clear, Bool.and_eq_true] at hc; exact hc.1)
  obtain ⟨t, h3, h4⟩ := C103_whole env (tree x) j (by rw [h1, hj]) h2 hn hb
  refine ⟨t, h3, h4, fun answers hz => ?_⟩
  have e : toIo env (prog (items x)) answers = toIo env (valueOf (tree x)) answers := by
    simp only [toIo, toFmt, (C38 (Json.stepP ioWriter env) x hx ({ out := ⟨answers, [], none⟩ }, false)).1]
  rw [e]
  exact io_not_doc env _ (ofToks_propagates _) answers (fun h => hz (List.take_subset _ _ h)) t h3 fun p hp h => (h4 p hp).1 h

open Rust in
/-- An option of a map from strings to points. -/
example : let x : RV := .some (.map [.str (t! "a"), .str (t! "b")] [pointR 1, pointR 2])
    ok x ∧ clear x = true ∧ ∃ j, doc anyEnv x = some j ∧ NotNumber j :=
  ⟨⟨rfl, ⟨trivial, trivial, trivial⟩, point_ok 1, point_ok 2, trivial⟩, rfl, _, rfl, trivial⟩

/-! ## Numbers, and space -/

/-- C103 is false of numbers: the beginning of a number is a number. -/
theorem C103_fails : Json.toString anyEnv (valueOf (.int .i32 12)) = some (t! "12") ∧ t! "1" <+: t! "12" ∧
    Doc (.num 1) (t! "1") ∧ Doc (.num 12) (t! "12") ∧
    toIo anyEnv (valueOf (.int .i32 12)) [.wrote 1, .error 5] = (.io 5, utf8 (t! "1")) := by
  refine ⟨by decide +kernel, ⟨t! "2", rfl⟩, ?_, ?_, by decide +kernel⟩
  · exact (parse_iff _ _).1 (toString_text_of anyEnv (.int .i32 1) (.num 1) rfl rfl).2
  · exact (parse_iff _ _).1 (toString_text_of anyEnv (.int .i32 12) (.num 12) rfl rfl).2

/-- C103 is false of numbers one after the other: `1` and `23`, or `12` and `3`. -/
theorem C103_fails_concat : [Json.toString anyEnv (valueOf (.int .i32 1)), Json.toString anyEnv (valueOf (.int .i32 23))] =
      [t! "1", t! "23"].map some ∧
    [Json.toString anyEnv (valueOf (.int .i32 12)), Json.toString anyEnv (valueOf (.int .i32 3))] = [t! "12", t! "3"].map some ∧
    [t! "1", t! "23"].flatten = [t! "12", t! "3"].flatten := by
  refine ⟨?_, ?_, rfl⟩ <;> decide +kernel

/-- C103 is false of JSON in text: it may end with space, and without it is the same document. -/
theorem C103_fails_space :
    let v : V := .tagged { tag := some tags.JSON_VALUE } (.text none [.borrowed (t! "[] ")])
    value anyEnv v = some (.arr []) ∧ safe v = true ∧ Json.toString anyEnv (valueOf v) = some (t! "[] ") ∧ Doc (.arr []) (t! "[]") := by
  exact ⟨rfl, rfl, by decide +kernel, (parse_iff _ _).1 rfl⟩

/-! ## Exactly -/

namespace Json

/-- A number with one digit, and space before it. -/
def OneDigit (t : Text) : Prop := ∃ w s d, Ws w ∧ (s = [] ∨ s = ['-']) ∧ isDigit d = true ∧ t = w ++ (s ++ [d])

theorem digit_solid {d : Char} (h : isDigit d = true) : isWs d = false ∧ d ≠ '-' := by
  have hm : ∀ e : Char, isDigit e = false → d ≠ e := fun e he hd => by rw [hd, he] at h; cases h
  refine ⟨?_, hm _ (by decide)⟩
  simp only [isWs, beq_eq_false_iff_ne.2 (hm ' ' (by decide)), beq_eq_false_iff_ne.2 (hm '\t' (by decide)),
    beq_eq_false_iff_ne.2 (hm '\n' (by decide)), beq_eq_false_iff_ne.2 (hm '\r' (by decide)), Bool.or_self]

/-- The last character of a document is not space and no sign. -/
theorem val_last {j : J} {u : Text} (h : Val j u) : ∃ a c, u = a ++ [c] ∧ isWs c = false ∧ c ≠ '-' := by
  have dig : ∀ {b d : Text}, Num.IsDigits d → ∃ a c, b ++ d = a ++ [c] ∧ isWs c = false ∧ c ≠ '-' := by
    intro b d hd
    rcases List.eq_nil_or_concat d with rfl | ⟨a, c, rfl⟩
    · exact absurd rfl hd.1
    · refine ⟨b ++ a, c, by simp [List.concat_eq_append], digit_solid ?_⟩
      have := hd.2
      rw [List.concat_eq_append, List.all_append, Bool.and_eq_true] at this
      simpa using this.2
  cases j with
  | null => simp only [Val] at h; exact ⟨t! "nul", 'l', h, rfl, by decide⟩
  | bool b =>
    simp only [Val] at h
    cases b
    · exact ⟨t! "fals", 'e', h, rfl, by decide⟩
    · exact ⟨t! "tru", 'e', h, rfl, by decide⟩
  | str s => simp only [Val] at h; obtain ⟨v, _, rfl⟩ := h; exact ⟨'"' :: v, '"', rfl, rfl, by decide⟩
  | arr s => simp only [Val] at h; obtain ⟨v, _, rfl⟩ := h; exact ⟨'[' :: v, ']', rfl, rfl, by decide⟩
  | obj s => simp only [Val] at h; obtain ⟨v, _, rfl⟩ := h; exact ⟨'{' :: v, '}', rfl, rfl, by decide⟩
  | num q =>
    simp only [Val] at h
    obtain ⟨n, ⟨_, hi, _, hf, he⟩, rfl, _⟩ := h
    rw [Num.text]
    cases hx : n.exp with
    | some x =>
      obtain ⟨c, s, d⟩ := x
      have := dig (b := n.sign ++ (n.int ++ (Num.fracText n.frac ++ (c :: s)))) (he c s d hx).2.2
      simpa [Num.expText] using this
    | none =>
      cases hy : n.frac with
      | some d =>
        have := dig (b := n.sign ++ (n.int ++ ['.'])) (hf d hy)
        simpa [Num.expText, Num.fracText] using this
      | none =>
        have := dig (b := n.sign) hi
        simpa [Num.expText, Num.fracText] using this

/-- No beginning of a document is a document exactly if there is no space at its end and it is not a number of more than one digit. -/
theorem doc_cut {j : J} {t : Text} (h : Doc j t) :
    (∀ p j', p <+: t → Doc j' p → p = t) ↔ (∀ c, t.getLast? = some c → isWs c = false) ∧ (NotNumber j ∨ OneDigit t) := by
  constructor
  · intro hp
    obtain ⟨w, u, w', hw, hu, hw', rfl⟩ := h
    have e : w' = [] := by
      have := hp (w ++ (u ++ [])) j ⟨w', by simp⟩ ⟨w, u, [], hw, hu, rfl, rfl⟩
      simpa using this
    subst e
    refine ⟨?_, ?_⟩
    · obtain ⟨a, c, rfl, hc, _⟩ := val_last hu
      intro c' h'
      rw [List.append_nil, ← List.append_assoc, List.getLast?_concat] at h'
      cases h'
      exact hc
    · cases j with
      | num q =>
        refine .inr ?_
        simp only [Val] at hu
        obtain ⟨n, ⟨hs, hi, _, _, _⟩, rfl, _⟩ := hu
        obtain ⟨d, r, hd⟩ := List.exists_cons_of_ne_nil hi.1
        have hdig : isDigit d = true := by
          have := hi.2
          rw [hd, List.all_cons, Bool.and_eq_true] at this
          exact this.1
        have hv : Val (.num (Num.val { sign := n.sign, int := [d], frac := none, exp := none })) (n.sign ++ [d]) := by
          simp only [Val]
          refine ⟨{ sign := n.sign, int := [d], frac := none, exp := none }, ⟨hs, ⟨by simp, by simp [hdig]⟩, ?_, ?_, ?_⟩, ?_, rfl⟩
          · intro h; simp only [List.head?_cons, Option.some.injEq] at h; rw [h]
          · intro _ h; cases h
          · intro _ _ _ h; cases h
          · simp [Num.text, Num.fracText, Num.expText]
        have := hp (w ++ (n.sign ++ [d])) _
          ⟨r ++ (Num.fracText n.frac ++ Num.expText n.exp), by simp [Num.text, hd]⟩ ⟨w, _, [], hw, hv, rfl, by simp⟩
        exact ⟨w, n.sign, d, hw, hs, hdig, this.symm⟩
      | _ => exact .inl trivial
  · rintro ⟨hl, hn | ⟨w, s, d, hw, hs, _, rfl⟩⟩ p j' hp hd
    · obtain ⟨_, x, hx, e⟩ := ended_prefix hn h hd hp
      rcases List.eq_nil_or_concat x with rfl | ⟨a, c, rfl⟩
      · simpa using e.symm
      · have := hl c (by rw [e, List.concat_eq_append, ← List.append_assoc, List.getLast?_concat])
        rw [Ws, List.concat_eq_append, List.all_append, Bool.and_eq_true] at hx
        simp [this] at hx
    · rw [← List.append_assoc] at hp ⊢
      rcases List.prefix_concat_iff.1 hp with e | hp
      · exact e
      · exfalso
        obtain ⟨x, u, x', _, hu, _, rfl⟩ := hd
        obtain ⟨a, c, rfl, hc, hm⟩ := val_last hu
        have : c ∈ w ++ s := hp.subset (List.mem_append_right _ (List.mem_append_left _ (List.mem_append_right _ (List.mem_singleton.2 rfl))))
        rcases List.mem_append.1 this with hc' | hc'
        · rw [List.all_eq_true.1 hw c hc'] at hc; cases hc
        · rcases hs with rfl | rfl
          · cases hc'
          · exact hm (by simpa using hc')

end Json

/-- C103, exactly: no beginning of what is written for a value is a document if and only if there is no space at the end and it is not
a number of more than one digit. -/
theorem C103_exact (env : Env) (v : V) (j : J) (hj : value env v = some j) (hs : safe v = true) :
    ∃ t, Json.toString env (valueOf v) = some t ∧
      ((∀ p j', p <+: t → Doc j' p → p = t) ↔ (∀ c, t.getLast? = some c → isWs c = false) ∧ (NotNumber j ∨ OneDigit t)) := by
  obtain ⟨h1, h2⟩ := toString_text_of env v j hj hs
  exact ⟨_, h1, doc_cut ((parse_iff _ _).1 h2)⟩

/-- `-5` is a number whose end can be seen, `-56` is not. -/
example : value anyEnv (.int .i32 (-5)) = some (.num (-5)) ∧ safe (.int .i32 (-5)) = true ∧ OneDigit (t! "-5") ∧ ¬ OneDigit (t! "-56") := by
  refine ⟨rfl, rfl, ⟨[], ['-'], '5', rfl, .inr rfl, rfl, rfl⟩, ?_⟩
  rintro ⟨w, s, d, hw, hs, hd, e⟩
  cases w with
  | cons c w =>
    injection e with e _
    subst e
    cases hw
  | nil => rcases hs with rfl | rfl <;> cases e

end Sval
