import Verif.Json.Splits
import Verif.Json.Io
import Verif.Json.ZeroExp

set_option autoImplicit false

/-!
# Properties of `sval_json`: C19 to C25, C44
-/

namespace Sval
open Json

/-- How a finite float is spelled makes no difference in the examples below. -/
def anyEnv : Env := { f32 := fun _ => t! "0.5", f64 := fun _ => t! "-1e300" }

/-- A named variant. -/
def variantOf (l : Text) (v : V) : V := .tagged { label := some (Label.new l), index := some ⟨0, none⟩ } v

def num1 : V := .int .i32 1
def textV (s : Text) : V := .text (some s.length) [.borrowed s]

/-! ## C19, C20 -/

/-- C19, as far as it holds. If a value has a meaning as JSON (`value`) and avoids the defects below
(`safe`), then streaming it to a string succeeds and gives one JSON document.

Missing: the values of the theorems `C19_fails_*`, for which it is false. -/
theorem C19_well_formed_partial (env : Env) (v : V) (j : J) (hj : value env v = some j) (hs : safe v = true) :
    ∃ t, Json.toString env (valueOf v) = some t ∧ ∃ j, Doc j t := by
  obtain ⟨t, s, h1, h2, h3⟩ := run_value env v j hj hs
  exact ⟨t, by rw [valueOf, toString_eq, h1]; simp [Res.toOption, h2], j, h3⟩

/-- C20, as far as it holds (see `C19_well_formed_partial`): the document is the one the value means,
and it is what any correct parser reads. -/
theorem C20_round_trip_partial (env : Env) (v : V) (j : J) (hj : value env v = some j) (hs : safe v = true) :
    ∃ t, Json.toString env (valueOf v) = some t ∧ parse t = some j ∧ ∀ j', Doc j' t → j' = j := by
  obtain ⟨t, s, h1, h2, h3⟩ := run_value env v j hj hs
  refine ⟨t, by rw [valueOf, toString_eq, h1]; simp [Res.toOption, h2], (parse_iff j t).2 h3, fun j' hj' => ?_⟩
  have e1 := (parse_iff j t).2 h3
  have e2 := (parse_iff j' t).2 hj'
  rw [e1] at e2
  exact (Option.some.inj e2).symm

/-- A document with most kinds of values in it. -/
def jsonSample : V :=
  .record { label := some (Label.new (t! "R")) } (some 4)
    [(none, Label.new (t! "a\"b"), .seq none [.null, .bool true, .f64 0, .int .i128 (-(2 ^ 100))]),
     (none, Label.new (t! "e"), .enum {} (variantOf (t! "V") (.tuple {} none [(none, ⟨0, none⟩, num1), (none, ⟨1, none⟩, textV (t! "x\n"))]))),
     (none, Label.new (t! "m"), .map none [(.bool false, .binary none [.borrowed [1, 255]]), (.int .u8 7, .enum {} (.tag { index := some ⟨3, none⟩ }))]),
     (none, Label.new (t! "n"), .tagged { tag := some tags.NUMBER } (.text none [.computed (t! "-00"), .computed (t! "12.50e+3")]))]

example : (value anyEnv jsonSample).isSome = true ∧ safe jsonSample = true ∧
    Json.toString anyEnv (valueOf jsonSample) = some (t! "{\"a\\\"b\":[null,true,-1e300,-1267650600228229401496703205376],\"e\":{\"V\":[1,\"x\\n\"]},\"m\":{\"false\":[1,255],\"7\":3},\"n\":-12.50e+3}") := by
  decide +kernel

theorem not_doc {t : Text} (h : (parse t).isNone = true) : ¬ ∃ j, Doc j t := by
  rintro ⟨j, hj⟩
  rw [(parse_iff j t).2 hj] at h
  cases h

/-- C19 is false: an enum inside an enum, the inner one without a label. -/
theorem C19_fails_nested_enum : ∃ v t, Json.toString anyEnv (valueOf v) = some t ∧ ¬ ∃ j, Doc j t :=
  ⟨.enum {} (.enum {} (variantOf (t! "A") num1)), t! "{\"A\":1}}", by decide +kernel, not_doc (by decide +kernel)⟩

/-- C19 is false: a labelled key before a labelled value. -/
theorem C19_fails_labelled_key : ∃ v t, Json.toString anyEnv (valueOf v) = some t ∧ ¬ ∃ j, Doc j t :=
  ⟨.map none [(variantOf (t! "K") (textV (t! "k")), variantOf (t! "B") num1)], t! "{\"k\":{\"B\":1}", by decide +kernel,
    not_doc (by decide +kernel)⟩

/-- C19 is false: a `JsonStr` as a key. -/
theorem C19_fails_raw_key : ∃ v t, Json.toString anyEnv (valueOf v) = some t ∧ ¬ ∃ j, Doc j t :=
  ⟨.map none [(.tagged { tag := some tags.JSON_VALUE } (textV (t! "\"a\"")), num1)], t! "{\"\"a\"\":1}", by decide +kernel,
    not_doc (by decide +kernel)⟩

/-- C19 is false: an enum around something that is not a variant; around a scalar in a key. -/
theorem C19_fails_enum_scalar : ∃ v w t u,
    Json.toString anyEnv (valueOf v) = some t ∧ (¬ ∃ j, Doc j t) ∧
    Json.toString anyEnv (valueOf w) = some u ∧ Doc (.obj [(t! "1}", .null)]) u :=
  ⟨.enum {} num1, .map none [(.enum {} num1, .null)], t! "1}", t! "{\"1}\":null}", by decide +kernel, not_doc (by decide +kernel),
    by decide +kernel, (parse_iff _ _).1 rfl⟩

/-- C19 is false: a number, in the grammar of NUMBER, whose integral part is zero and that has an
exponent. -/
theorem C19_fails_number : ∃ v t, Json.toString anyEnv (valueOf v) = some t ∧ ¬ ∃ j, Doc j t :=
  ⟨.tagged { tag := some tags.NUMBER } (textV (t! "0e5")), t! "e5", by decide +kernel, not_doc (by decide +kernel)⟩

/-- C20 is false even where the output is a document: a native integer tagged NUMBER is multiplied by
ten. -/
theorem C20_fails_number_tag : Json.toString anyEnv (valueOf (.tagged { tag := some tags.NUMBER } num1)) = some (t! "10") := by
  decide +kernel

/-- Text tagged NUMBER that is not a number can make the formatter panic: it slices inside a character. -/
theorem C23_panics : (toFmt strWriter anyEnv (valueOf (.tagged { tag := some tags.NUMBER } (textV (t! "é0")))) []).1 = .panic ∧
    (toFmt strWriter anyEnv (valueOf (.tagged { tag := some tags.NUMBER } (textV (t! "é-")))) []).1 = .panic := by
  decide +kernel

/-! ## C21 -/

theorem StrLit.unique {u s s' : Text} (h : StrLit u s) (h' : StrLit u s') : s = s' := by
  have e1 := pStr_complete h (u.length + 1) [] (by omega)
  have e2 := pStr_complete h' (u.length + 1) [] (by omega)
  rw [e1] at e2
  exact (Prod.mk.inj (Option.some.inj e2)).1

theorem toString_text (env : Env) (n : Option Nat) (fs : List (Frag Text)) :
    Json.toString env (valueOf (.text n fs)) = some ('"' :: (escape (fragsText fs) ++ ['"'])) := by
  obtain ⟨s, h1, h2⟩ : ∃ s, run (call strWriter env) (toks (.text n fs)) { out := [] } = .ok s ∧
      s.out = '"' :: (escape (fragsText fs) ++ ['"']) := by
    have e : call strWriter env (.textBegin n) { out := [] } = .ok { empty := false, out := ['"'] } := rfl
    rw [toks, run_cons, e]
    simp only [Res.bind]
    rw [run_append, run_frags_plain env fs _ rfl]
    exact ⟨_, rfl, rfl⟩
  rw [valueOf, toString_eq, h1, ← h2]
  rfl

/-- C21. Any text, in any fragments, is written as a quote, a JSON string literal that stands for exactly
that text, and a quote; literals of different texts differ; a text that needs no escaping is its own
literal. (That a literal has no raw control character, no raw quote and no lone backslash is part of
`StrLit`, the grammar.) -/
theorem C21_escape_exact (env : Env) (n : Option Nat) (fs : List (Frag Text)) :
    ∃ u, Json.toString env (valueOf (.text n fs)) = some ('"' :: (u ++ ['"'])) ∧ StrLit u (fragsText fs) ∧
      (∀ s, StrLit u s → s = fragsText fs) ∧ ((fragsText fs).all rawOk = true → u = fragsText fs) :=
  ⟨escape (fragsText fs), toString_text env n fs, escape_lit _, fun _ h => StrLit.unique h (escape_lit _), escape_raw _⟩

theorem C21_injective (env : Env) (n n' : Option Nat) (fs fs' : List (Frag Text))
    (h : Json.toString env (valueOf (.text n fs)) = Json.toString env (valueOf (.text n' fs'))) : fragsText fs = fragsText fs' := by
  rw [toString_text, toString_text] at h
  have h := List.append_cancel_right (List.cons.inj (Option.some.inj h)).2
  exact StrLit.unique (escape_lit _) (h ▸ escape_lit _)

/-- C21, in bytes. The loop over the UTF-8 bytes of a text writes, to any writer, exactly the UTF-8 of the
pieces `ps`: it never splits a character, never panics, and never treats a byte of a longer character
as special. -/
theorem C21_bytes (v : Text) :
    ∃ ps : List Text, piecesB [] (utf8 v) = some (ps.map utf8) ∧ StrLit ps.flatten v ∧
      ∀ (ω : Type) (w : Writer ω) (o : ω), escapeStr w v o = writes w ps o :=
  ⟨pieces [] v, piecesB_utf8 v [], by rw [pieces_flatten]; exact escape_lit v, fun ω w o => escapeLoop_writes w v [] o⟩

example : Json.toString anyEnv (valueOf (textV (t! "é\"\\/\u0001\n\u007f"))) = some (t! "\"é\\\"\\\\/\\u0001\\n\u007f\"") ∧
    pieces [] (t! "é\u0001a") = [t! "é", t! "\\u00", t! "0", t! "1", t! "a"] := by
  decide +kernel

/-! ## C22 -/

/-- C22, as far as it holds. Two values that differ only in how their texts and binaries are split into
fragments, which fragments are borrowed, and their size hints (`join`) give the same JSON, or fail in the
same way.

Missing: text tagged NUMBER that is not a number, or is one of the numbers the formatter gets wrong (`numOk`), for which
`C22_fails_number` shows it is false. -/
theorem C22_fragments_partial (env : Env) (v v' : V) (h : join v = join v') :
    Json.toString env (valueOf v) = Json.toString env (valueOf v') ∧
      (toFmt strWriter env (valueOf v) []).1 = (toFmt strWriter env (valueOf v') []).1 := by
  have h1 := (same_join (env := env) v { out := [] } (fun n h => by cases h)).1
  have h2 := (same_join (env := env) v' { out := [] } (fun n h => by cases h)).1
  exact toFmt_congr _ _ (by rw [← h1, ← h2, h])

example : join (.map none [(.text none [.borrowed (t! "a"), .computed (t! "b")], .tagged { tag := some tags.JSON_VALUE }
      (.text none [.borrowed (t! "[1"), .borrowed (t! ",2]")]))]) =
    join (.map none [(textV (t! "ab"), .tagged { tag := some tags.JSON_VALUE } (.text (some 9) [.computed (t! "[1,2]")]))]) := rfl

example : join (.tagged { tag := some tags.NUMBER } (.text none [.borrowed (t! "-0"), .computed (t! "07."), .borrowed (t! "5")])) =
    join (.tagged { tag := some tags.NUMBER } (.text (some 6) [.computed (t! "-007.5")])) := by
  simp only [join]
  rw [if_neg (by decide +kernel), if_neg (by decide +kernel)]
  rfl

/-- C22 is false for numbers: the same number in one and in two fragments. -/
theorem C22_fails_number : ∃ fs fs' : List (Frag Text), fragsText fs = fragsText fs' ∧
    Json.toString anyEnv (valueOf (.tagged { tag := some tags.NUMBER } (.text none fs))) = some (t! "00") ∧
    Json.toString anyEnv (valueOf (.tagged { tag := some tags.NUMBER } (.text none fs'))) = some (t! "e0") :=
  ⟨[.computed (t! "0e0")], [.computed (t! "0e"), .computed (t! "0")], by decide +kernel⟩

/-- C22 for text tagged NUMBER, exactly. How the text `t` is split makes no difference if and only if it is `splittable`: after
zeroes and signs there is nothing; or a digit other than zero, or a point, with none of the letters `s`, `n` and `i` after it; or
one of these letters; or only characters that have no meaning in a number, with, if there was no minus, a digit other than zero
after them and none of these letters after that. -/
theorem C22_number_exact (env : Env) (t : Text) :
    (∀ (m m' : Meta) (n n' : Option Nat) (fs fs' : List (Frag Text)), m.tag = some tags.NUMBER → m'.tag = some tags.NUMBER →
      fragsText fs = t → fragsText fs' = t →
      Json.toString env (valueOf (.tagged m (.text n fs))) = Json.toString env (valueOf (.tagged m' (.text n' fs')))) ↔
    splittable t = true := by
  rw [← splittable_iff]
  constructor
  · intro h fs fs' h1 h2
    have he : ∀ fs : List Text, (fs.map Frag.computed).map Frag.content = fs := fun fs => by
      rw [List.map_map]; exact List.map_id fs
    have := h { tag := some tags.NUMBER } { tag := some tags.NUMBER } none none (fs.map .computed) (fs'.map .computed) rfl rfl
      (by rw [fragsText, he, h1]) (by rw [fragsText, he, h2])
    rw [valueOf, valueOf, number_json env _ rfl, number_json env _ rfl, he, he] at this
    exact this
  · intro h m m' n n' fs fs' hm hm' h1 h2
    rw [valueOf, valueOf, number_json env m hm, number_json env m' hm']
    exact h _ _ h1 h2

/-- Numbers are, but for some with a zero before an exponent; so is some text that is no number. -/
example : splittable (t! "-007.50e+3") = true ∧ splittable (t! "-Infinity") = true ∧ splittable (t! "+00") = true ∧
    splittable (t! "xyz") = true ∧ splittable (t! "0x1F") = true ∧ splittable (t! "0e5") = true ∧ splittable [] = true := by
  decide +kernel
example : splittable (t! "0e0") = false ∧ splittable (t! "-0e5") = false ∧ splittable (t! "1 inch") = false ∧ splittable (t! "x.5") = false ∧
    splittable (t! "é-1") = false := by decide +kernel

/-! ## C23 -/

theorem pNumber_complete (n : Num) (h : n.IsNumber) : pNumber n.text = some n := by
  obtain ⟨h1, h2, h4, h5⟩ := h
  have hf : Follow [] := fun c hc => by cases hc
  have hi := takeWhile_append isDigit n.int (Num.fracText n.frac ++ (Num.expText n.exp ++ [])) h2.2
    (fun c hc => fracText_head n.frac n.exp [] h5 hf c hc)
  obtain ⟨x, xs, hx⟩ : ∃ x xs, n.int = x :: xs := by
    cases h : n.int with
    | nil => exact absurd h h2.1
    | cons x xs => exact ⟨x, xs, rfl⟩
  have hxd : isDigit x = true := by have := h2.2; rw [hx] at this; simp at this; exact this.1
  have hs : pExpSign n.text = (n.sign, n.int ++ (Num.fracText n.frac ++ (Num.expText n.exp ++ []))) := by
    rw [Num.text, List.append_nil]
    apply pExpSign_eq _ _ h1
    intro c hc
    rw [hx] at hc
    simp at hc
    subst hc
    exact ⟨digit_ne hxd _ (by decide), digit_ne hxd _ (by decide)⟩
  have hp := pFrac_eq n.frac n.exp [] h4 h5 hf
  have he := pExp_eq n.exp [] h5 hf
  unfold pNumber
  simp only [hs, hi.1, hi.2, hp, he, h2.1, if_false]

/-- C23, as far as it holds. Text tagged NUMBER, in any fragments, that is in the grammar of NUMBER is
written as a number of JSON with the same value.

Missing: the numbers with a zero integral part, no fraction and an exponent (`Num.ZeroExp`), such as
`0e5`: see `C19_fails_number`. -/
theorem C23_number_partial (env : Env) (n : Num) (hn : n.IsNumber) (hz : ¬ n.ZeroExp) :
    ∃ k : Num, k.IsJson ∧ k.val = n.val ∧ ∀ (m : Meta) (h : Option Nat) (fs : List (Frag Text)),
      m.tag = some tags.NUMBER → fragsText fs = n.text →
      Json.toString env (valueOf (.tagged m (.text h fs))) = some k.text := by
  refine ⟨n.norm, Num.norm_isJson n hn, Num.norm_val n, fun m h fs hm hf => ?_⟩
  have hp := pNumber_complete n hn
  have hk : numberKey n.text = some n.norm.text := by simp [numberKey, hp]
  have hz' : zeroExp n.text = false := by
    rw [Bool.eq_false_iff]
    exact fun h => hz ((Json.zeroExp_iff hp).1 h)
  have := special_number env m (.text h fs) { out := [] } n.text n.norm.text hm (by simp [textOf, hf]) hk hz' rfl (.inl rfl)
  rw [valueOf, toString_eq, this]
  rfl

/-- C23, the other side: the numbers `C23_number_partial` leaves out, in one fragment, never come out as a number of
JSON, let alone as the same one. -/
theorem C23_number_fails (env : Env) (n : Num) (hn : n.IsNumber) (hz : n.ZeroExp) (m : Meta)
    (hm : m.tag = some tags.NUMBER) (h : Option Nat) (f : Frag Text) (hf : f.content = n.text) :
    ∃ t, Json.toString env (valueOf (.tagged m (.text h [f]))) = some t ∧ ¬ ∃ k : Num, k.IsJson ∧ k.text = t := by
  obtain ⟨st, o, h1, h2⟩ := zeroExp_frags n hn hz
  have := special_number_of env m (.text h [f]) { out := [] } (o ++ (if st.atStart then ['0'] else [])) h [f] hm
    (fun _ => rfl) ⟨st, o, by simpa [hf] using h1, rfl⟩ rfl (.inl rfl)
  refine ⟨o ++ (if st.atStart then ['0'] else []), by rw [valueOf, toString_eq, this]; rfl, ?_⟩
  rintro ⟨k, h3, h4⟩
  exact h2 k h3 h4

/-- C23, exactly: the numbers that come out as a number of JSON with the same value, however the text is
split, are those with a digit other than zero before the point, a point, or no exponent. -/
theorem C23_exact (env : Env) (n : Num) (hn : n.IsNumber) :
    (∀ (m : Meta) (h : Option Nat) (fs : List (Frag Text)), m.tag = some tags.NUMBER → fragsText fs = n.text →
      ∃ k : Num, k.IsJson ∧ k.val = n.val ∧ Json.toString env (valueOf (.tagged m (.text h fs))) = some k.text) ↔
    n.int.any (· != '0') = true ∨ n.frac ≠ none ∨ n.exp = none := by
  have hz : ¬ n.ZeroExp ↔ n.int.any (· != '0') = true ∨ n.frac ≠ none ∨ n.exp = none := by
    have : n.int.all (· == '0') = !n.int.any (· != '0') := by
      rw [List.all_eq_not_any_not]; rfl
    simp only [Num.ZeroExp, this]
    cases n.int.any (· != '0') <;> cases n.frac <;> cases n.exp <;> simp
  rw [← hz]
  constructor
  · intro hk hzn
    obtain ⟨k, h1, _, h3⟩ := hk { tag := some tags.NUMBER } none [.borrowed n.text] rfl (by simp [fragsText, Frag.content])
    obtain ⟨t, h4, h5⟩ := C23_number_fails env n hn hzn { tag := some tags.NUMBER } rfl none (.borrowed n.text) rfl
    rw [h3] at h4
    cases h4
    exact h5 ⟨k, h1, rfl⟩
  · intro hzn m h fs hm hf
    obtain ⟨k, h1, h2, h3⟩ := C23_number_partial env n hn hzn
    exact ⟨k, h1, h2, h3 m h fs hm hf⟩

/-- `-00E-05` is such a number: what comes out is `-05`. In two fragments `0e-0` happens to come out as a
number with its value. -/
example : ({ sign := ['-'], int := t! "00", frac := none, exp := some ('E', ['-'], t! "05") } : Num).ZeroExp ∧
    Json.toString anyEnv (valueOf (.tagged { tag := some tags.NUMBER } (.text none [.borrowed (t! "-00E-05")]))) = some (t! "-05") ∧
    Json.toString anyEnv (valueOf (.tagged { tag := some tags.NUMBER } (.text none [.borrowed (t! "-00E-5")]))) = some (t! "--5") ∧
    Json.toString anyEnv (valueOf (.tagged { tag := some tags.NUMBER } (.text none [.borrowed (t! "0e-"), .borrowed (t! "0")]))) =
      some (t! "-0") :=
  ⟨⟨by decide, rfl, by simp⟩, by decide +kernel, by decide +kernel, by decide +kernel⟩

/-- `-007.50E+3` as a number. -/
def numSample : Num := { sign := ['-'], int := t! "007", frac := some (t! "50"), exp := some ('E', ['+'], ['3']) }

example : numSample.IsNumber ∧ ¬ numSample.ZeroExp ∧ numSample.text = t! "-007.50E+3" ∧
    Json.toString anyEnv (valueOf (.tagged { tag := some tags.NUMBER } (.text none [.computed (t! "-0"), .borrowed (t! "07."), .computed (t! "50E+3")]))) =
      some (t! "-7.50E+3") := by
  refine ⟨⟨.inr (.inr rfl), by unfold Num.IsDigits; decide, fun d hd => ?_, fun c s d hd => ?_⟩, ?_, by decide +kernel, by decide +kernel⟩
  · cases hd; unfold Num.IsDigits; decide
  · cases hd; exact ⟨.inr rfl, .inr (.inl rfl), by unfold Num.IsDigits; decide⟩
  · rintro ⟨h, _⟩; revert h; decide

/-! ## C24 -/

/-- C24. A key that is, below any tags, enums and hints, a map, sequence, record, tuple or binary, is refused
with the error `InvalidKey`, whatever was written before and whatever follows. -/
theorem C24_complex_key (env : Env) (o : Text) (pre post : List Token) (k : V) (hk : complexKey k = true)
    (hp : (toFmt strWriter env (.ofToks pre) o).1 = .ok) :
    (toFmt strWriter env (.ofToks (pre ++ .mapKeyBegin :: (toks k ++ post))) o).1 = .invalidKey := by
  obtain ⟨s, hs⟩ := (toFmt_ok_iff strWriter env pre o).1 hp
  obtain ⟨s1, h1, h2⟩ : ∃ s1, call strWriter env .mapKeyBegin s = .ok s1 ∧ s1.quoted = false := by
    rw [call_one' strWriter env .mapKeyBegin s rfl]
    simp only [step, mapKeyBegin]
    split <;> exact ⟨_, rfl, rfl⟩
  obtain ⟨s2, h3, h4⟩ := complexKey_run strWriter env k hk s1 h2 post
  have : run (call strWriter env) (pre ++ .mapKeyBegin :: (toks k ++ post)) { out := o } = .err () s2 := by
    rw [run_append, hs]
    show run _ (_ :: _) s = _
    rw [run_cons, h1]
    exact h3
  rw [toFmt_err _ _ _ _ _ this, h4]
  rfl

/-- Specification: the values that are one token of JSON and not text. -/
def scalarV : V → Bool
  | .null | .bool _ | .int _ _ | .f32 _ | .f64 _ => true
  | _ => false

/-- C24. A null, boolean or number as a key is written as a JSON string whose content is the JSON text of
that value. -/
theorem C24_scalar_key (env : Env) (k : V) (hk : scalarV k = true) (jk : J) (hjk : value env k = some jk) :
    ∃ t, Json.toString env (valueOf k) = some t ∧
      ∀ (n : Option Nat) (v : V) (j : J), value env v = some j → safe v = true →
        ∃ u, Json.toString env (valueOf (.map n [(k, v)])) = some u ∧ parse u = some (.obj [(t, j)]) := by
  obtain ⟨t, h1, h2⟩ : ∃ t, Json.toString env (valueOf k) = some t ∧ keyText env k = some t := by
    cases k with
    | null => exact ⟨_, rfl, rfl⟩
    | bool b => exact ⟨_, rfl, by cases b <;> rfl⟩
    | int t v => exact ⟨intDec v, by cases t <;> rfl, rfl⟩
    | f32 b =>
      simp only [value] at hjk
      simp only [keyText]
      refine ⟨if f32Finite b then env.f32 b else t! "null", rfl, ?_⟩
      split
      · rename_i h; rw [if_pos h] at hjk; rw [hjk]; rfl
      · rfl
    | f64 b =>
      simp only [value] at hjk
      simp only [keyText]
      refine ⟨if f64Finite b then env.f64 b else t! "null", rfl, ?_⟩
      split
      · rename_i h; rw [if_pos h] at hjk; rw [hjk]; rfl
      · rfl
    | _ => cases hk
  refine ⟨t, h1, fun n v j hj hs => ?_⟩
  have hv : value env (.map n [(k, v)]) = some (.obj [(t, j)]) := by
    simp [value, entries, h2, hj, consO, pairO]
  have hs' : safe (.map n [(k, v)]) = true := by
    have : named k = false ∧ safeKey k = true := by cases k <;> first | exact ⟨rfl, rfl⟩ | cases hk
    simp [safe, safeEntries, this.1, this.2, hs]
  obtain ⟨u, g1, g2, _⟩ := C20_round_trip_partial env _ _ hv hs'
  exact ⟨u, g1, g2⟩

/-- C24. A text as a key is written as the JSON string of that text, whatever it contains. -/
theorem C24_text_key (env : Env) (h : Option Nat) (fs : List (Frag Text)) (n : Option Nat) (v : V) (j : J)
    (hj : value env v = some j) (hs : safe v = true) :
    ∃ u, Json.toString env (valueOf (.map n [(.text h fs, v)])) = some u ∧ parse u = some (.obj [(fragsText fs, j)]) := by
  obtain ⟨u, g1, g2, _⟩ := C20_round_trip_partial env (.map n [(.text h fs, v)]) (.obj [(fragsText fs, j)])
    (by simp [value, entries, keyText, hj, consO, pairO]) (by simp [safe, safeEntries, safeKey, named, hs])
  exact ⟨u, g1, g2⟩

example : complexKey (.tagged {} (.enum {} (.tuple {} none []))) = true ∧
    (toFmt strWriter anyEnv (valueOf (.seq none [.map none [(.null, .null), (.tagged {} (.enum {} (.tuple {} none [])), .null)]])) []) =
      (.invalidKey, t! "[{\"null\":null,\"") ∧
    Json.toString anyEnv (valueOf (.map none [(.f64 0, .map none [(textV (t! "\""), num1)])])) = some (t! "{\"-1e300\":{\"\\\"\":1}}") := by
  decide +kernel

/-! ## C25 -/

/-- C25, as far as it holds. Let a writer make short writes, be interrupted and fail as it likes, but never
answer `Ok(0)` for bytes it was given. For code that uses `?`:
- if `stream_to_io_write` reports success, the writer has got the UTF-8 of the string that `stream_to_string`
  gives;
- if it reports an I/O error, the writer did answer with that error, and what it has got is a prefix of the
  UTF-8 of what streaming to a string writes;
- if it reports any other error, streaming to a string ends with the same error, having written the same.

Missing: writers that answer `Ok(0)`, see `C25_fails_zero`. -/
theorem C25_io_partial (env : Env) (p : Prog) (hp : p.Propagates) (answers : List Ans) (hz : .wrote 0 ∉ answers) :
    let s := toFmt strWriter env p []
    match toIo env p answers with
    | (.ok, got) => ∃ t, Json.toString env p = some t ∧ got = utf8 t
    | (.io e, got) => .error e ∈ answers ∧ (s.1 ≠ .panic → got <+: utf8 s.2)
    | (.invalidKey, got) => s.1 = .invalidKey ∧ got = utf8 s.2
    | (.generic, got) => s.1 = .generic ∧ got = utf8 s.2
    | (.panic, _) => s.1 = .panic := by
  have h := both_exec env (sim_io answers hz) p hp .base { out := ⟨answers, [], none⟩ } { out := [] }
    ⟨rfl, rfl, rfl, rfl, rfl, List.suffix_refl _, rfl, rfl⟩
  simp only [toIo, Json.toString, toFmt]
  generalize exec (stepP ioWriter env) p .base ({ out := ⟨answers, [], none⟩ }, false) = r at h
  generalize exec (stepP strWriter env) p .base ({ out := [] }, false) = q at h
  obtain ⟨⟨a, pa⟩, ra⟩ := r
  obtain ⟨⟨b, pb⟩, rb⟩ := q
  rcases h with ⟨h1, h2⟩ | ⟨h1, h2, h3, h4⟩ | ⟨h1, h2, h3⟩
  · cases h1; cases h2; simp
  · cases h1; cases h2; cases h3
    obtain ⟨_, _, _, _, e5, _, e6, e7⟩ := h4
    simp only at e5 e6 e7
    cases ra <;> cases hb : b.badKey <;> simp [e5, e6, e7, hb]
  · cases h1; cases h2
    obtain ⟨⟨b', e, g1, g2, g3⟩, h4⟩ := h3
    simp only at g2
    have hx : (if a.badKey = true then Ended.invalidKey else Ended.generic) = .invalidKey ∨
        (if a.badKey = true then Ended.invalidKey else Ended.generic) = .generic := by split <;> simp
    have hfin : .error e ∈ answers ∧ ((if pb = true then (Ended.panic, b.out) else if rb = true then (Ended.ok, b.out) else
        (if b.badKey = true then Ended.invalidKey else Ended.generic, b.out)).1 ≠ .panic → a.out.got <+: utf8
        (if pb = true then (Ended.panic, b.out) else if rb = true then (Ended.ok, b.out) else
        (if b.badKey = true then Ended.invalidKey else Ended.generic, b.out)).2) := by
      refine ⟨g1, fun hne => ?_⟩
      cases pb with
      | true => simp at hne
      | false =>
        obtain ⟨e', _, _, k3⟩ := h4 rfl
        cases rb <;> simpa using k3
    rcases hx with hx | hx <;> simp only [hx, g2, Bool.false_eq_true, if_false] <;> exact hfin

/-- C25. If the writer only makes short writes and is only interrupted, then any code whatever ends as it
does streaming to a string, and the writer has got the UTF-8 of what that writes. -/
theorem C25_io_short_writes (env : Env) (p : Prog) (answers : List Ans) (hz : .wrote 0 ∉ answers) (he : ∀ e, .error e ∉ answers) :
    toIo env p answers = (match (toFmt strWriter env p []).1 with
      | .ok => .ok | .invalidKey => .invalidKey | .generic => .generic | .panic => .panic,
      utf8 (toFmt strWriter env p []).2) := by
  have h := lock_exec env (sim_io_ok answers hz he) p .base ({ out := ⟨answers, [], none⟩ }, false) ({ out := [] }, false) rfl
    ⟨rfl, rfl, rfl, rfl, rfl, List.suffix_refl _, rfl, rfl⟩
  simp only [toIo, toFmt]
  generalize exec (stepP ioWriter env) p .base ({ out := ⟨answers, [], none⟩ }, false) = r at h
  generalize exec (stepP strWriter env) p .base ({ out := [] }, false) = q at h
  obtain ⟨⟨a, pa⟩, ra⟩ := r
  obtain ⟨⟨b, pb⟩, rb⟩ := q
  obtain ⟨h1, h2, _, _, _, _, e5, _, e6, e7⟩ := h
  simp only at h1 h2 e5 e6 e7
  subst h1 h2
  cases pa <;> cases ra <;> cases hb : b.badKey <;> simp [e5, e6, e7, hb]

/-- C25. `stream_to_vec` gives the UTF-8 of what `stream_to_string` gives. -/
theorem C25_to_vec (env : Env) (p : Prog) : toVec env p = (Json.toString env p).map utf8 := by
  have h := C25_io_short_writes env p [] (by simp) (by simp)
  unfold toVec
  rw [h]
  unfold Json.toString
  generalize toFmt strWriter env p [] = r
  obtain ⟨e, o⟩ := r
  cases e <;> rfl

/-- C25 is false: a writer that answers `Ok(0)` has its bytes dropped, and success is reported. -/
theorem C25_fails_zero : toIo anyEnv (valueOf (.seq none [.bool true, .bool false])) [.wrote 1, .wrote 0, .wrote 9] = (.ok, utf8 (t! "[,false]")) ∧
    Json.toString anyEnv (valueOf (.seq none [.bool true, .bool false])) = some (t! "[true,false]") := by
  decide +kernel

example : toIo anyEnv (valueOf (.seq none [.bool true, textV (t! "é")])) [.interrupted, .wrote 3, .wrote 2, .interrupted, .wrote 1] =
      (.ok, utf8 (t! "[true,\"é\"]")) ∧
    toIo anyEnv (valueOf (.seq none [.bool true, textV (t! "é")])) [.wrote 1, .wrote 2, .error 5] = (.io 5, utf8 (t! "[tr")) := by
  decide +kernel

/-! ## C44 -/

theorem exec_prefix (env : Env) (p : Prog) (W : Wrapper) (s : St Text × Bool) :
    s.1.out <+: (exec (stepP strWriter env) p W s).1.1.out := by
  refine exec_inv _ (fun s' => s.1.out <+: s'.1.out) (fun t s' h => h.trans ?_) p W s (List.prefix_refl _)
  unfold stepP
  split
  · exact List.prefix_refl _
  · have := prefix_closed.call env t (fun _ _ _ => rfl) s'.1
    cases hc : call strWriter env t s'.1 with
    | ok s1 => rw [hc] at this; exact this
    | err e s1 => rw [hc] at this; exact this
    | panic => exact List.prefix_refl _

theorem exec_ofToks_append {σ : Type} (S : Token → σ → σ × Bool) (a b : List Token) (s : σ) :
    exec S (.ofToks (a ++ b)) .base s = if (exec S (.ofToks a) .base s).2 then
      exec S (.ofToks b) .base (exec S (.ofToks a) .base s).1 else exec S (.ofToks a) .base s := by
  induction a generalizing s with
  | nil => rfl
  | cons t a ih =>
    simp only [List.cons_append, Prog.ofToks, exec, Wrapper.tok]
    cases (S t s).2 with
    | true => exact ih _
    | false => rfl

theorem toFmt_out {ω : Type} (w : Writer ω) (env : Env) (p : Prog) (o : ω) :
    (toFmt w env p o).2 = (exec (stepP w env) p .base ({ out := o }, false)).1.1.out := by
  simp only [toFmt]
  split
  · rfl
  · split <;> rfl

/-- C44. Streaming any code whatever to a `fmt::Write` that has text in it, successfully or not, only appends. -/
theorem C44_append_only (env : Env) (p : Prog) (o : Text) : o <+: (toFmt strWriter env p o).2 := by
  rw [toFmt_out]
  exact exec_prefix env p .base ({ out := o }, false)

/-- C44. What has been written after some calls, well-formed or not, is a prefix of what has been written
after more calls. -/
theorem C44_prefix (env : Env) (a b : List Token) (o : Text) :
    (toFmt strWriter env (.ofToks a) o).2 <+: (toFmt strWriter env (.ofToks (a ++ b)) o).2 := by
  rw [toFmt_out, toFmt_out, exec_ofToks_append]
  split
  · exact exec_prefix env _ _ _
  · exact List.prefix_refl _

example : toFmt strWriter anyEnv (.ofToks [.seqEnd, .mapKeyBegin, .mapValueBegin, .seqBegin none, .null]) (t! "x") =
    (.invalidKey, t! "x],\"") := by
  decide +kernel

end Sval
