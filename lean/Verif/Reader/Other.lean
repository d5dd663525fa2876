import Verif.Reader.Docs
import Verif.Serde.Back
import Verif.Json.Norm
import Verif.Fmt.Spec
import Verif.Nested.Spec
import Verif.Core.Guard

set_option autoImplicit false

/-!
# JSON text as a value for other streams

`JsonSlice` as a program, and what documents are to `sval_serde`, `sval_nested`, `sval_buffer` and `sval_fmt`.
-/

namespace Sval.Reader

open Json (J NumLit)
open Serde (SV svOf svsOf svMap)

/-- Calls made with `?`, and then an error. -/
def failing : List Token → Prog
  | [] => .ret false
  | t :: ts => .call t fun
    | true => failing ts
    | false => .ret false

/-- `<JsonSlice as Value>::stream`, `experiments/src/json/from_slice.rs:16-24`, as a program. Texts on which the reader
panics have none. -/
def prog (checks : Bool) (t : Text) : Option Prog :=
  match (read checks t).res with
  | .ok _ => some (.ofToks (read checks t).calls)
  | .err => some (failing (read checks t).calls)
  | .panic => none

theorem drive_failing {ε σ : Type} (c : Token → σ → Res ε σ) (ts : List Token) (s : σ) :
    drive c (failing ts) s = match run c ts s with
      | .ok s => .done false s
      | .err _ s => .done false s
      | .panic => .panicked := by
  induction ts generalizing s with
  | nil => rfl
  | cons t ts ih =>
    simp only [drive, failing, exec, Wrapper.tok, guarded, Bool.false_eq_true, if_false] at ih ⊢
    cases h : c t s with
    | ok s' => simpa [run, h] using ih s'
    | err e s' => simp [run, h, exec]
    | panic => simp [run, h, exec]

/-! ## Specification -/

mutual
/-- The serde value that a document is. There is none for documents with numbers. -/
def svJ : J → Option SV
  | .null => some .none
  | .bool b => some (.bool b)
  | .num _ => none
  | .str s => some (.str s)
  | .arr xs => (svJs xs).map (.seq none)
  | .obj kvs => (svJM kvs).map (.map none)
def svJs : List J → Option (List SV)
  | [] => some []
  | x :: xs => Json.consO (svJ x) (svJs xs)
def svJM : List (Text × J) → Option (List (SV × SV))
  | [] => some []
  | (k, x) :: xs => Json.consO ((svJ x).map (.str k, ·)) (svJM xs)
end

mutual
/-- Is there a number in a document? -/
def numbers : J → Bool
  | .num _ => true
  | .arr xs => numberss xs
  | .obj kvs => numbersM kvs
  | _ => false
def numberss : List J → Bool
  | [] => false
  | x :: xs => numbers x || numberss xs
def numbersM : List (Text × J) → Bool
  | [] => false
  | (_, x) :: xs => numbers x || numbersM xs
end

/-- Texts separated by `, `. -/
def listed : List Text → Text
  | [] => []
  | [x] => x
  | x :: y :: r => x ++ (t! ", ") ++ listed (y :: r)

/-- A string as Rust's `Debug` writes it. -/
def quoted (env : Fmt.Env) (s : Text) : Text := (t! "\"") ++ Fmt.escape env s ++ (t! "\"")

mutual
/-- `Shown env j t`: the text `t` is the document `j` as `sval_fmt` should write it, in the way of Rust's `Debug`. -/
def Shown (env : Fmt.Env) : J → Text → Prop
  | .null, t => t = t! "()"
  | .bool b, t => t = if b then t! "true" else t! "false"
  | .num q, t => NumLit t q
  | .str s, t => t = quoted env s
  | .arr xs, t => ∃ ts, ShownAll env xs ts ∧ t = (t! "[") ++ listed ts ++ (t! "]")
  | .obj kvs, t => ∃ ts, ShownM env kvs ts ∧ t = if kvs = [] then t! "{}" else (t! "{ ") ++ listed ts ++ (t! " }")
def ShownAll (env : Fmt.Env) : List J → List Text → Prop
  | [], ts => ts = []
  | x :: xs, ts => ∃ t ts', ts = t :: ts' ∧ Shown env x t ∧ ShownAll env xs ts'
def ShownM (env : Fmt.Env) : List (Text × J) → List Text → Prop
  | [], ts => ts = []
  | (k, x) :: xs, ts => ∃ t ts', ts = (quoted env k ++ (t! ": ") ++ t) :: ts' ∧ Shown env x t ∧ ShownM env xs ts'
end

/-! ## Trees of documents -/

theorem content_borrowed (fs : List Text) : ((fs.map (Frag.borrowed (α := Text))).map Frag.content).flatten = fs.flatten := by
  induction fs with
  | nil => rfl
  | cons x xs ih => simp_all [Frag.content]

theorem svOf_str (s : Text) (v : V) (h : StrV s v) : svOf v = some (.str s) := by
  obtain ⟨fs, rfl, rfl⟩ := h
  simp only [svOf, content_borrowed]

theorem svOf_tree (j : J) : ∀ v, Tree j v → svOf v = svJ j := by
  induction j using J.ind with
  | null => intro v h; simp only [Tree] at h; subst h; rfl
  | bool b => intro v h; simp only [Tree] at h; subst h; rfl
  | num q =>
    intro v h
    simp only [Tree] at h
    obtain ⟨t, -, rfl⟩ := h
    rfl
  | str s => intro v h; simp only [Tree] at h; exact svOf_str s v h
  | arr xs ih =>
    intro v h
    simp only [Tree] at h
    obtain ⟨vs, rfl, h⟩ := h
    simp only [svOf, svJ]
    congr 1
    induction xs generalizing vs with
    | nil => simp only [Trees] at h; subst h; rfl
    | cons x xs ihx =>
      simp only [Trees] at h
      obtain ⟨v, vs', rfl, h1, h2⟩ := h
      rw [svsOf, svJs, ih x (.head _) v h1, ihx (fun y hy => ih y (.tail _ hy)) vs' h2]
  | obj kvs ih =>
    intro v h
    simp only [Tree] at h
    obtain ⟨vs, rfl, h⟩ := h
    simp only [svOf, svJ]
    congr 1
    induction kvs generalizing vs with
    | nil => simp only [TreesM] at h; subst h; rfl
    | cons x xs ihx =>
      obtain ⟨k, x⟩ := x
      simp only [TreesM] at h
      obtain ⟨kv, v, vs', rfl, h0, h1, h2⟩ := h
      rw [svMap, svJM, svOf_str k kv h0, ih (k, x) (.head _) v h1, ihx (fun y hy => ih y (.tail _ hy)) vs' h2]
      rfl

theorem svJ_none (j : J) : svJ j = none ↔ numbers j = true := by
  have c {α : Type} (x : Option α) (y : Option (List α)) : Json.consO x y = none ↔ x = none ∨ y = none := by
    cases x <;> cases y <;> simp [Json.consO]
  induction j using J.ind with
  | null => simp [svJ, numbers]
  | bool b => simp [svJ, numbers]
  | num q => simp [svJ, numbers]
  | str s => simp [svJ, numbers]
  | arr xs ih =>
    simp only [svJ, numbers, Option.map_eq_none_iff]
    induction xs with
    | nil => simp [svJs, numberss]
    | cons x xs ihx =>
      rw [svJs, numberss, c, Bool.or_eq_true]
      exact or_congr (ih x (.head _)) (ihx (fun y hy => ih y (.tail _ hy)))
  | obj kvs ih =>
    simp only [svJ, numbers, Option.map_eq_none_iff]
    induction kvs with
    | nil => simp [svJM, numbersM]
    | cons x xs ihx =>
      obtain ⟨k, x⟩ := x
      rw [svJM, numbersM, c, Option.map_eq_none_iff, Bool.or_eq_true]
      exact or_congr (ih (k, x) (.head _)) (ihx (fun y hy => ih y (.tail _ hy)))

theorem supported_tree (j : J) : ∀ v, Tree j v → Nested.supported v = true ∧ Json.steady false v = true := by
  induction j using J.ind with
  | null => intro v h; simp only [Tree] at h; subst h; exact ⟨rfl, rfl⟩
  | bool b => intro v h; simp only [Tree] at h; subst h; exact ⟨rfl, rfl⟩
  | num q =>
    intro v h
    simp only [Tree] at h
    obtain ⟨t, -, rfl⟩ := h
    exact ⟨rfl, by simp [numV, Json.steady]⟩
  | str s =>
    intro v h
    simp only [Tree] at h
    obtain ⟨fs, -, rfl⟩ := h
    exact ⟨rfl, rfl⟩
  | arr xs ih =>
    intro v h
    simp only [Tree] at h
    obtain ⟨vs, rfl, h⟩ := h
    simp only [Nested.supported, Json.steady]
    induction xs generalizing vs with
    | nil => simp only [Trees] at h; subst h; exact ⟨rfl, rfl⟩
    | cons x xs ihx =>
      simp only [Trees] at h
      obtain ⟨v, vs', rfl, h1, h2⟩ := h
      obtain ⟨a1, a2⟩ := ih x (.head _) v h1
      obtain ⟨b1, b2⟩ := ihx (fun y hy => ih y (.tail _ hy)) vs' h2
      exact ⟨by rw [Nested.supportedSeq, a1, b1]; rfl, by rw [Json.steadys, a2, b2]; rfl⟩
  | obj kvs ih =>
    intro v h
    simp only [Tree] at h
    obtain ⟨vs, rfl, h⟩ := h
    simp only [Nested.supported, Json.steady]
    induction kvs generalizing vs with
    | nil => simp only [TreesM] at h; subst h; exact ⟨rfl, rfl⟩
    | cons x xs ihx =>
      obtain ⟨k, x⟩ := x
      simp only [TreesM] at h
      obtain ⟨kv, v, vs', rfl, ⟨fs, -, rfl⟩, h1, h2⟩ := h
      obtain ⟨a1, a2⟩ := ih (k, x) (.head _) v h1
      obtain ⟨b1, b2⟩ := ihx (fun y hy => ih y (.tail _ hy)) vs' h2
      exact ⟨by rw [Nested.supportedMap, a1, b1]; rfl, by rw [Json.steadyKVs, a2, b2]; rfl⟩

open Fmt (Out lay)

theorem text_append (a b : Out) : (a ++ b).text = a.text ++ b.text := by simp [Out.text]
theorem text_lay (k : Fmt.Kind) (t : Text) : (lay k t).text = t := by
  induction t with
  | nil => rfl
  | cons c r ih => simp_all [lay, Out.text]

theorem text_commas (xs : List Out) : (Fmt.commas xs).text = listed (xs.map Out.text) := by
  induction xs with
  | nil => rfl
  | cons x xs ih =>
    cases xs with
    | nil => rfl
    | cons y ys => simp only [Fmt.commas, text_append, text_lay, ih, List.map_cons, listed]; simp

theorem layout_str (env : Fmt.Env) (again : Meta → V → Out) (s : Text) (v : V) (h : StrV s v) :
    (Fmt.layout env again false v).text = quoted env s := by
  obtain ⟨fs, rfl, rfl⟩ := h
  simp only [Fmt.layout, Bool.false_eq_true, if_false, text_lay, fragsText, content_borrowed, quoted]
  simp

theorem layout_tree (env : Fmt.Env) (again : Meta → V → Out) (j : J) : ∀ v, Tree j v →
    Shown env j (Fmt.layout env again false v).text := by
  induction j using J.ind with
  | null => intro v h; simp only [Tree] at h; subst h; simp only [Shown, Fmt.layout, text_lay]
  | bool b => intro v h; simp only [Tree] at h; subst h; simp only [Shown, Fmt.layout, text_lay]
  | num q =>
    intro v h
    simp only [Tree] at h
    obtain ⟨t, ht, rfl⟩ := h
    simpa only [Shown, numV, Fmt.layout, decide_true, Bool.or_true, if_true, text_lay, fragsText, List.map_cons, List.map_nil,
      Frag.content, List.flatten_cons, List.flatten_nil, List.append_nil] using ht
  | str s => intro v h; simp only [Tree] at h; simp only [Shown]; exact layout_str env again s v h
  | arr xs ih =>
    intro v h
    simp only [Tree] at h
    obtain ⟨vs, rfl, h⟩ := h
    simp only [Shown, Fmt.layout, Fmt.brackets, text_append, text_lay, text_commas]
    refine ⟨_, ?_, rfl⟩
    induction xs generalizing vs with
    | nil => simp only [Trees] at h; subst h; simp only [ShownAll, Fmt.layoutSeq, List.map_nil]
    | cons x xs ihx =>
      simp only [Trees] at h
      obtain ⟨v, vs', rfl, h1, h2⟩ := h
      exact ⟨_, _, rfl, ih x (.head _) v h1, ihx (fun y hy => ih y (.tail _ hy)) vs' h2⟩
  | obj kvs ih =>
    intro v h
    simp only [Tree] at h
    obtain ⟨vs, rfl, h⟩ := h
    have he : kvs = [] ↔ Fmt.layoutMap env again vs = [] := by
      cases kvs with
      | nil => simp only [TreesM] at h; subst h; simp [Fmt.layoutMap]
      | cons x xs =>
        obtain ⟨k, x⟩ := x
        simp only [TreesM] at h
        obtain ⟨kv, v, vs', rfl, -⟩ := h
        simp [Fmt.layoutMap]
    refine ⟨(Fmt.layoutMap env again vs).map Out.text, ?_, ?_⟩
    · clear he
      induction kvs generalizing vs with
      | nil => simp only [TreesM] at h; subst h; simp only [ShownM, Fmt.layoutMap, List.map_nil]
      | cons x xs ihx =>
        obtain ⟨k, x⟩ := x
        simp only [TreesM] at h
        obtain ⟨kv, v, vs', rfl, h0, h1, h2⟩ := h
        refine ⟨_, _, ?_, ih (k, x) (.head _) v h1, ihx (fun y hy => ih y (.tail _ hy)) vs' h2⟩
        simp only [Fmt.layoutMap, Fmt.entry, List.map_cons, text_append, text_lay, layout_str env again k kv h0]
        simp
    · simp only [Fmt.layout, Fmt.braces, he]
      split
      · rw [text_lay]
      · simp only [text_append, text_lay, text_commas]; simp

end Sval.Reader
