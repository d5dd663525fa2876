import Verif.Reader.Docs
import Verif.Json.Main
import Verif.Json.Link

set_option autoImplicit false

/-!
# Documents that were read, written by the JSON formatter
-/

namespace Sval.Reader

open Json (J Env strWriter value safe keyText values entries safes safeEntries safeKey named consO pairO call_one numOf pNum_complete
  IsJson.isNumber)

section
variable (env : Env)

/-- The formatter cannot tell two values apart. -/
def SameRun (v v' : V) : Prop :=
  ∀ s, run (Json.call strWriter env) (toks v) s = run (Json.call strWriter env) (toks v') s

/-- A number with only one of its tags. -/
def num1V (t : Text) : V := .tagged { tag := some tags.JSON_NUMBER } (.text (some (utf8Len t)) [.borrowed t])

theorem tagBegin_none (t : Option Tag) (s : Json.St Text) :
    Json.tagBegin strWriter { tag := t } s = .ok { s with tagged := false } := by
  obtain ⟨tg, em, q, hd, bk, o⟩ := s
  cases tg <;> rfl

theorem num_same (t : Text) : SameRun env (numV t) (num1V t) := by
  intro s
  rw [num1V, Json.special_raw env _ _ s t (.inr rfl) (by simp [Json.textOf, fragsText, Frag.content]) (.inr rfl)]
  obtain ⟨tg, em, q, hd, bk, o⟩ := s
  have hA : Json.call strWriter env (.taggedBegin { tag := some tags.JSON_NUMBER }) ⟨tg, em, q, hd, bk, o⟩ =
      .ok ⟨false, true, false, some .native, bk, o⟩ := by
    rw [call_one env (.taggedBegin _) _ rfl]
    simp only [Json.step, Json.taggedBegin, Option.some.injEq, show ¬ tags.JSON_NUMBER = tags.JSON_TEXT by decide,
      show ¬ tags.JSON_NUMBER = tags.JSON_VALUE by decide, show ¬ tags.JSON_NUMBER = tags.NUMBER by decide, if_false, if_true,
      tagBegin_none, Res.bind]
  have hB : Json.call strWriter env (.taggedBegin { tag := some tags.NUMBER }) ⟨false, true, false, some .native, bk, o⟩ =
      .ok ⟨false, true, false, some .native, bk, o⟩ := by
    rw [call_one env (.taggedBegin _) _ rfl]
    simp only [Json.step, Json.taggedBegin, Option.some.injEq, show ¬ tags.NUMBER = tags.JSON_TEXT by decide,
      show ¬ tags.NUMBER = tags.JSON_VALUE by decide, if_false, if_true, tagBegin_none, Res.bind, Option.isNone,
      Bool.false_eq_true]
  have hT : run (Json.call strWriter env) (toks (.text (some (utf8Len t)) [.borrowed t])) ⟨false, true, false, some .native, bk, o⟩ =
      .ok ⟨false, false, false, some .native, bk, o ++ t⟩ := by
    simp only [toks, run_cons]
    rw [call_one env (.textBegin _) _ rfl]
    simp only [Json.step, Json.textBegin, Bool.false_eq_true, if_false, Res.bind]
    rw [run_append, Json.run_native']
    simp only [run_cons, run_nil, Res.bind]
    rw [call_one env .textEnd _ rfl]
    simp [Json.step, Json.textEnd, fragsText, Frag.content]
  have hC : Json.call strWriter env (.taggedEnd { tag := some tags.NUMBER }) ⟨false, false, false, some .native, bk, o ++ t⟩ =
      .ok ⟨false, false, true, none, bk, o ++ t⟩ := by
    rw [call_one env (.taggedEnd _) _ rfl]
    simp only [Json.step, Json.taggedEnd, Option.some.injEq, show ¬ tags.NUMBER = tags.JSON_TEXT by decide,
      show ¬ tags.NUMBER = tags.JSON_VALUE by decide, if_false, if_true, Res.bind, Bool.false_eq_true, Json.tagEnd_eq]
    rfl
  have hD : Json.call strWriter env (.taggedEnd { tag := some tags.JSON_NUMBER }) ⟨false, false, true, none, bk, o ++ t⟩ =
      .ok ⟨false, false, true, none, bk, o ++ t⟩ := by
    rw [call_one env (.taggedEnd _) _ rfl]
    simp only [Json.step, Json.taggedEnd, Option.some.injEq, show ¬ tags.JSON_NUMBER = tags.JSON_TEXT by decide,
      show ¬ tags.JSON_NUMBER = tags.JSON_VALUE by decide, show ¬ tags.JSON_NUMBER = tags.NUMBER by decide, if_false, if_true,
      Res.bind, Bool.false_eq_true, Json.tagEnd_eq]
    rfl
  rw [numV, toks, run_cons, hA, toks]
  simp only [Res.bind, List.cons_append, run_cons, hB]
  rw [run_append, run_append, hT]
  simp only [Res.bind, run_cons, run_nil, hC, hD]
  rfl

theorem numOf_lit {t : Text} {q : Rat} (h : Json.NumLit t q) : numOf t = some (.num q) := by
  obtain ⟨n, hn, rfl, rfl⟩ := h
  have := pNum_complete n [] hn (by intro c h; cases h)
  rw [List.append_nil] at this
  rw [numOf, this]

theorem strV_text {k : Text} {v : V} (h : StrV k v) : ∃ n fs, v = .text n fs ∧ fragsText fs = k := by
  obtain ⟨fs, rfl, rfl⟩ := h
  refine ⟨_, _, rfl, ?_⟩
  simp only [fragsText, List.map_map]
  induction fs with
  | nil => rfl
  | cons f fs ih => simp only [List.map_cons, List.flatten_cons, ih]; rfl

theorem run_congr {f : Token → Json.St Text → Res Unit (Json.St Text)} {a a' b b' : List Token} (h1 : ∀ s, run f a s = run f a' s)
    (h2 : ∀ s, run f b s = run f b' s) (s : Json.St Text) : run f (a ++ b) s = run f (a' ++ b') s := by
  rw [run_append, run_append, h1]
  cases run f a' s <;> simp [Res.bind, h2]

/-- What was read, up to a tag the formatter does not need, is a value it gets right. -/
theorem same_tree (j : J) : ∀ v, Tree j v → ∃ v', SameRun env v v' ∧ value env v' = some j ∧ safe v' = true ∧ named v' = false ∧
    Json.valueT env v' = spell v := by
  induction j using J.ind with
  | null => intro v h; simp only [Tree] at h; subst h; exact ⟨_, fun _ => rfl, rfl, rfl, rfl, rfl⟩
  | bool b => intro v h; simp only [Tree] at h; subst h; exact ⟨_, fun _ => rfl, rfl, rfl, rfl, rfl⟩
  | num q =>
    intro v h
    simp only [Tree] at h
    obtain ⟨t, ht, rfl⟩ := h
    refine ⟨_, num_same env t, ?_, ?_, rfl, ?_⟩
    · simp only [num1V, value, Json.isSpecialTag, Json.textOf, fragsText, List.map_cons, List.map_nil, Frag.content,
        List.flatten_cons, List.flatten_nil, List.append_nil, Option.bind_some]
      rw [if_pos (by decide), Json.specialJ, if_neg (by decide), if_neg (by decide), if_pos rfl, numOf_lit ht]
    · simp only [num1V, safe, Json.isSpecialTag, Json.safeText, Json.textOf]
      rw [if_pos (by decide)]
      simp [show ¬ tags.JSON_NUMBER = tags.NUMBER by decide]
    · simp only [num1V, numV, spell, Json.valueT, Json.isSpecialTag, Json.textOf, Json.specialT, Json.specialKeyT]
      rw [if_pos (by decide), if_neg (by decide), if_neg (by decide)]
      rfl
  | str k =>
    intro v h
    simp only [Tree] at h
    obtain ⟨n, fs, rfl, rfl⟩ := strV_text h
    exact ⟨_, fun _ => rfl, rfl, rfl, rfl, rfl⟩
  | arr xs ih =>
    intro v h
    simp only [Tree] at h
    obtain ⟨vs, rfl, h⟩ := h
    obtain ⟨vs', h1, h2, h3, h4⟩ : ∃ vs', (∀ s, run (Json.call strWriter env) (toksSeq vs) s =
        run (Json.call strWriter env) (toksSeq vs') s) ∧ values env vs' = some xs ∧ safes vs' = true ∧ Json.valuesT env vs' = spells vs := by
      induction xs generalizing vs with
      | nil => simp only [Trees] at h; subst h; exact ⟨[], fun _ => rfl, rfl, rfl, rfl⟩
      | cons x xs ihx =>
        simp only [Trees] at h
        obtain ⟨v, vs, rfl, h1, h2⟩ := h
        obtain ⟨v', a1, a2, a3, _, a4⟩ := ih x (by simp) v h1
        obtain ⟨vs', b1, b2, b3, b4⟩ := ihx (fun y hy => ih y (by simp [hy])) vs h2
        refine ⟨v' :: vs', fun s => ?_, by simp [values, a2, b2, consO], by simp [safes, a3, b3],
          by simp [Json.valuesT, spells, a4, b4]⟩
        simp only [toksSeq]
        exact run_congr (a := [_]) (a' := [_]) (fun _ => rfl)
          (fun s => run_congr a1 (fun s => run_congr (a := [_]) (a' := [_]) (fun _ => rfl) b1 s) s) s
    refine ⟨.seq none vs', fun s => ?_, by simp [value, h2], by simp [safe, h3], rfl, by simp [Json.valueT, spell, h4]⟩
    simp only [toks]
    exact run_congr (a := [_]) (a' := [_]) (fun _ => rfl) (fun s => run_congr h1 (fun _ => rfl) s) s
  | obj kvs ih =>
    intro v h
    simp only [Tree] at h
    obtain ⟨vs, rfl, h⟩ := h
    obtain ⟨vs', h1, h2, h3, h4⟩ : ∃ vs', (∀ s, run (Json.call strWriter env) (toksMap vs) s =
        run (Json.call strWriter env) (toksMap vs') s) ∧ entries env vs' = some kvs ∧ safeEntries vs' = true ∧ Json.entriesT env vs' = spellsM vs := by
      induction kvs generalizing vs with
      | nil => simp only [TreesM] at h; subst h; exact ⟨[], fun _ => rfl, rfl, rfl, rfl⟩
      | cons x xs ihx =>
        obtain ⟨k, x⟩ := x
        simp only [TreesM] at h
        obtain ⟨kv, v, vs, rfl, hk, h1, h2⟩ := h
        obtain ⟨n, fs, rfl, rfl⟩ := strV_text hk
        obtain ⟨v', a1, a2, a3, _, a4⟩ := ih (_, x) List.mem_cons_self v h1
        obtain ⟨vs', b1, b2, b3, b4⟩ := ihx (fun y hy => ih y (by simp [hy])) vs h2
        refine ⟨(.text n fs, v') :: vs', fun s => ?_, by simp [entries, keyText, pairO, a2, b2, consO],
          by simp [safeEntries, safeKey, named, a3, b3],
          by simp [Json.entriesT, spellsM, a4, b4, Json.keyT, Json.keyLit, spell, Json.quoteT]⟩
        simp only [toksMap]
        exact run_congr (a := [_]) (a' := [_]) (fun _ => rfl) (fun s => run_congr (a := toks (.text n fs)) (a' := toks (.text n fs)) (fun _ => rfl)
          (fun s => run_congr (a := [_, _]) (a' := [_, _]) (fun _ => rfl)
            (fun s => run_congr a1 (fun s => run_congr (a := [_]) (a' := [_]) (fun _ => rfl) b1 s) s) s) s) s
    refine ⟨.map none vs', fun s => ?_, by simp [value, h2], by simp [safe, h3], rfl, by simp [Json.valueT, spell, h4]⟩
    simp only [toks]
    exact run_congr (a := [_]) (a' := [_]) (fun _ => rfl) (fun s => run_congr h1 (fun _ => rfl) s) s

/-- The formatter on what was read. -/
theorem format_tree (j : J) (v : V) (h : Tree j v) :
    ∃ t, Json.toString env (Prog.ofToks (toks v)) = some t ∧ Json.Doc j t := by
  obtain ⟨v', h1, h2, h3, _, _⟩ := same_tree env j v h
  obtain ⟨t, s, a1, a2, a3⟩ := Json.run_value env v' j h2 h3
  refine ⟨t, ?_, a3⟩
  rw [Json.toString_eq, h1, a1]
  simp [Res.toOption, a2]

end

end Sval.Reader
