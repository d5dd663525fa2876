import Verif.Fmt.Lemmas

set_option autoImplicit false

/-!
# Properties of `sval_fmt`: C26, C27, C48 to C50
-/

namespace Sval

open Fmt

/-- Some `Env`, for examples. -/
def someEnv : Fmt.Env where
  f32 := fun _ => t! "1.5"
  f64 := fun _ => t! "NaN"
  extended := fun c => c.toNat = 0xfe0f
  printable := fun c => 32 ≤ c.toNat

def lab (l : Text) : Meta := { label := some (Label.new l) }
def ix (n : Int) : Index := { val := n, tag := none }
def one : V := .int .u8 1

/-! ## C26 -/

/-- C26, as far as it holds. If no enum in a value has a variant with nothing in it, then the value is written
in its documented layout: to any writer, the same writes are made until one fails; they spell the layout, with
every character in a token of its kind; and `stream_to_string` gives its text.

Missing: the other values, for which `C26_fails` shows it is false. `C26_exact` says what they give. -/
theorem C26_layout_partial (env : Fmt.Env) (v : V) (h : solid v = true) :
    (∃ L : List (Kind × Text), (L.flatMap fun x => lay x.1 x.2) = layout env once false v ∧
      ∀ (ω : Type) (w : Fmt.Writer ω) (o : ω), toWrite w env (valueOf v) o = (puts w L o).outcome) ∧
    Fmt.toString env (valueOf v) = some (layout env once false v).text := by
  obtain ⟨L, h1, h2⟩ := does_value (env := env) v true false
  rw [layout_solid env v h] at h1
  have hw : ∀ (ω : Type) (w : Fmt.Writer ω) (o : ω), toWrite w env (valueOf v) o = (puts w L o).outcome := by
    intro ω w o
    have := h2 ω w o
    simp only [toWrite, valueOf, drive_ofToks, St.new]
    cases hr : run (call w env) (toks v) ⟨true, false, o⟩ with
    | ok s => rw [hr] at this; cases hq : puts w L o <;> rw [hq] at this <;> simp only [Agrees] at this; subst this; rfl
    | err e s => rw [hr] at this; cases hq : puts w L o <;> rw [hq] at this <;> simp only [Agrees] at this; subst this; rfl
    | panic => rw [hr] at this; cases hq : puts w L o <;> rw [hq] at this <;> simp only [Agrees] at this; rfl
  refine ⟨⟨L, h1, hw⟩, ?_⟩
  rw [Fmt.toString, hw, puts_str, h1]
  simp [Res.outcome]

/-- C26. What is written for any value: the documented layout, but an enum whose variant has nothing in it is
followed by its own label. -/
theorem C26_exact (env : Fmt.Env) (v : V) :
    Fmt.toString env (valueOf v) = some (layout env twice false v).text := by
  obtain ⟨L, h1, h2⟩ := does_value (env := env) v true false
  have := h2 Text strWriter []
  rw [puts_str, h1] at this
  simp only [Fmt.toString, toWrite, valueOf, drive_ofToks, St.new]
  cases hr : run (call strWriter env) (toks v) ⟨true, false, []⟩ with
  | ok s => rw [hr] at this; simp only [Agrees] at this; subst this; simp [Res.outcome]
  | err e s => rw [hr] at this; exact this.elim
  | panic => rw [hr] at this; exact this.elim

/-- C26 is false: `enum E { V(Vec<u8>), U {} }`. `E::V(vec![])` gives `V([])E`, and `E::U {}` gives `U {}E`. -/
theorem C26_fails :
    Fmt.toString someEnv (valueOf (.enum (lab (t! "E")) (.tagged (lab (t! "V")) (.seq (some 0) [])))) = some (t! "V([])E") ∧
    (layout someEnv once false (.enum (lab (t! "E")) (.tagged (lab (t! "V")) (.seq (some 0) [])))).text = t! "V([])" ∧
    Fmt.toString someEnv (valueOf (.enum (lab (t! "E")) (.record (lab (t! "U")) (some 0) []))) = some (t! "U {}E") ∧
    (layout someEnv once false (.enum (lab (t! "E")) (.record (lab (t! "U")) (some 0) []))).text = t! "U {}" := by
  decide +kernel

example : solid (.map none [(.text none [.borrowed (t! "a")], .enum (lab (t! "E")) (.tagged (lab (t! "V")) (.tuple {} none [(none, ix 0, one), (none, ix 1, .null)]))),
      (one, .record (lab (t! "R")) none [(none, Label.new (t! "x"), .map none []), (none, Label.new (t! "y"), .seq none [])])]) = true ∧
    Fmt.toString someEnv (valueOf (.map none [(.text none [.borrowed (t! "a")], .enum (lab (t! "E")) (.tagged (lab (t! "V")) (.tuple {} none [(none, ix 0, one), (none, ix 1, .null)]))),
      (one, .record (lab (t! "R")) none [(none, Label.new (t! "x"), .map none []), (none, Label.new (t! "y"), .seq none [])])])) =
      some (t! "{ \"a\": V((1, ())), 1: R { x: {}, y: [] } }") := by
  decide +kernel

/-! ## C27 -/

/-- C27. A text, however it is split, is written as one string literal that reads back as that text. -/
theorem C27_recoverable (env : Fmt.Env) (n : Option Nat) (fs : List (Frag Text)) :
    ∃ u, Fmt.toString env (valueOf (.text n fs)) = some ('"' :: u) ∧ ∀ r, readLit .plain (u ++ r) = some (fragsText fs, r) := by
  refine ⟨escape env (fragsText fs) ++ ['"'], ?_, fun r => ?_⟩
  · rw [C26_exact]
    simp [layout, Out.text, lay, Function.comp_def]
  · rw [List.append_assoc]
    exact readLit_escape _ _

/-- C27. So different texts are written differently. -/
theorem C27_injective (env : Fmt.Env) (n n' : Option Nat) (fs fs' : List (Frag Text))
    (h : Fmt.toString env (valueOf (.text n fs)) = Fmt.toString env (valueOf (.text n' fs'))) : fragsText fs = fragsText fs' := by
  obtain ⟨u, h1, h2⟩ := C27_recoverable env n fs
  obtain ⟨u', h1', h2'⟩ := C27_recoverable env n' fs'
  rw [h1, h1'] at h
  simp only [Option.some.injEq, List.cons.injEq, true_and] at h
  subst h
  have := (h2 []).symm.trans (h2' [])
  simpa using this

/-- C27. How the texts and binaries anywhere in a value are split makes no difference. -/
theorem C27_fragments (env : Fmt.Env) (v v' : V) (h : merge v = merge v') :
    Fmt.toString env (valueOf v) = Fmt.toString env (valueOf v') := by
  rw [C26_exact, C26_exact, ← layout_merge v, ← layout_merge v', h]

/-- A writer together with a note that it has failed. -/
def noting {ω : Type} (w : Fmt.Writer ω) : Fmt.Writer (ω × Bool) := fun k t o =>
  match w k t o.1 with
  | .ok o' => .ok (o', o.2)
  | .err e o' => .err e (o', true)
  | .panic => .panic

/-- C27. A failure of the writer is not swallowed: if `stream_to_write` reports success for code that uses `?`,
then no write has failed. -/
theorem C27_errors {ω : Type} (w : Fmt.Writer ω) (env : Fmt.Env) (p : Prog) (hp : p.Propagates) (o o' : ω) (b : Bool)
    (h : toWrite (noting w) env p (o, false) = .done true (o', b)) : b = false := by
  have hw : ∀ k t, Keeps (fun o : ω × Bool => o.2 = false) (noting w k t) := by
    intro k t o ho o1 h1
    unfold noting at h1
    cases hc : w k t o.1 with
    | ok o2 => rw [hc] at h1; cases h1; exact ho
    | err e o2 => rw [hc] at h1; cases h1
    | panic => rw [hc] at h1; cases h1
  have := keeps_exec (env := env) hw p hp .base (St.new (o, false)) rfl
  simp only [toWrite, drive] at h
  generalize exec (guarded (call (noting w) env)) p .base (St.new (o, false), false) = r at h this
  obtain ⟨⟨s, pn⟩, b'⟩ := r
  cases pn with
  | true => simp at h
  | false =>
    simp only [Bool.false_eq_true, if_false, Outcome.done.injEq] at h
    have := this (s, false) (by rw [h.1])
    simpa [h.2] using this

/-- A writer with room for `n` characters, that refuses what does not fit. -/
def room (n : Nat) : Fmt.Writer Text := fun _ t o => if o.length + t.length ≤ n then .ok (o ++ t) else .err () o

example : Fmt.toString someEnv (valueOf (.text none [.computed (t! "a\"\x00"), .borrowed (t! "é\ufe0f'\n")])) =
      some (t! "\"a\\\"\\0é\\u{fe0f}\\'\\n\"") ∧
    readLit .plain (t! "a\\\"\\0é\\u{fe0f}\\'\\n\"!") = some (t! "a\"\x00é\ufe0f'\n", t! "!") ∧
    merge (.tagged { tag := some tags.NUMBER } (.text none [.computed (t! "1"), .borrowed (t! "2")])) =
      merge (.tagged { tag := some tags.NUMBER } (.text (some 9) [.computed (t! "12")])) ∧
    toWrite (noting (room 4)) someEnv (valueOf (.seq none [one, one])) ([], false) = .done false (t! "[1, ", true) := by
  refine ⟨by decide +kernel, by decide +kernel, by simp [merge, fragsText, Frag.content], by decide +kernel⟩

/-! ## C48 -/

/-- A stream all of whose calls succeed. -/
def yes (_ : Token) (_ : Unit) : Unit × Bool := ((), true)

theorem exec_yes {σ : Type} (S : Token → σ → σ × Bool) (I : σ → Prop) (hS : ∀ t s, I s → (S t s).2 = true ∧ I (S t s).1)
    (p : Prog) (W : Wrapper) (s : σ) (h : I s) : (exec S p W s).2 = (exec yes p W ()).2 := by
  have hI := exec_inv S I (fun t s h => (hS t s h).2)
  induction p generalizing W s with
  | ret ok => rfl
  | call t k ih => simp only [exec, (hS _ s h).1]; exact ih true W _ (hS _ s h).2
  | value v k ihv ih => simp only [exec, ihv W.valueTarget s h]; exact ih _ W _ (hI v _ s h)
  | valueComputed v k ihv ih => simp only [exec, ihv W.computedTarget s h]; exact ih _ W _ (hI v _ s h)

theorem toWrite_sure {ω : Type} (w : Fmt.Writer ω) (hw : ∀ k t, Sure (w k t)) (env : Fmt.Env) (p : Prog) (o : ω) :
    ∃ o', toWrite w env p o = .done (exec yes p .base ()).2 o' := by
  have h1 := drive_no_panic (call w env) (fun t s => by obtain ⟨s', h⟩ := sure_call (env := env) hw t s; rw [h]; simp) p (St.new o)
  have h2 := exec_yes (guarded (call w env)) (fun s => s.2 = false) (fun t s hs => by
    obtain ⟨s', h⟩ := sure_call (env := env) hw t s.1
    simp [guarded, hs, h]) p .base (St.new o, false) rfl
  simp only [toWrite]
  simp only [drive] at h1 ⊢
  split at h1
  · simp at h1
  · rename_i h; rw [if_neg h, h2]; exact ⟨_, rfl⟩

/-- C48. `sval_fmt::stream_to_string` panics exactly when the value reports an error although every call it
made has succeeded. -/
theorem C48_to_string_panics (env : Fmt.Env) (p : Prog) :
    Fmt.toString env p = none ↔ (exec yes p .base ()).2 = false := by
  obtain ⟨o, h⟩ := toWrite_sure strWriter (fun k t o => ⟨_, rfl⟩) env p []
  simp only [Fmt.toString, h]
  cases (exec yes p .base ()).2 <;> simp

example : Fmt.toString someEnv (.call .null fun _ => .ret false) = none ∧
    Fmt.toString someEnv (.call .seqEnd fun b => if b then .ret true else .ret false) = some (t! "]") := by
  decide +kernel

/-! ## C49 -/

/-- C49, as far as it holds. Formatting a value with `{}` fails only if the writer does; to a `String` it always
succeeds, whatever the value does. If the value (or the writer) fails and the message can be written, the
formatting succeeds.

Missing: that a failed write is reported; `C49_fails`. -/
theorem C49_display_partial (env : Fmt.Env) (p : Prog) (o : Text) : ∃ o', display strWriter env p o = .done true o' := by
  obtain ⟨o1, h⟩ := toWrite_sure strWriter (fun k t o => ⟨_, rfl⟩) env p o
  simp only [display, h]
  cases (exec yes p .base ()).2 with
  | true => exact ⟨_, rfl⟩
  | false => exact ⟨_, rfl⟩

/-- C49. Formatting with `{}` to any writer fails only if a write has failed. -/
theorem C49_display_error {ω : Type} (w : Fmt.Writer ω) (env : Fmt.Env) (p : Prog) (o o' : ω) (b : Bool)
    (h : display (noting w) env p (o, false) = .done false (o', b)) : b = true := by
  have hw : ∀ k t (q q' : ω × Bool) e, noting w k t q = .err e q' → q'.2 = true := by
    intro k t q q' e h
    unfold noting at h
    cases hc : w k t q.1 with
    | ok o2 => rw [hc] at h; cases h
    | err e o2 => rw [hc] at h; cases h; rfl
    | panic => rw [hc] at h; cases h
  have h2 : ∀ (f g : ω × Bool → Res Unit (ω × Bool)), (∀ q q' e, f q = .err e q' → q'.2 = true) →
      (∀ q q' e, g q = .err e q' → q'.2 = true) → ∀ q q' e, (f q).bind g = .err e q' → q'.2 = true := by
    intro f g hf hg q q' e h
    cases hc : f q with
    | ok q1 => rw [hc] at h; exact hg _ _ _ h
    | err e1 q1 => rw [hc] at h; cases h; exact hf _ _ _ hc
    | panic => rw [hc] at h; cases h
  have h3 := h2 _ _ (hw .text (t! "<")) (h2 _ _ (hw .text (t! "an error occurred when formatting an argument")) (hw .text (t! ">")))
  simp only [display] at h
  split at h
  · cases h
  · rename_i o1 _
    split at h
    · cases h
    · rename_i e o2 heq; cases h; exact h3 _ _ _ heq
    · cases h
  · cases h

example : display (noting (room 5)) someEnv (valueOf (.seq none [one, one, one])) ([], false) = .done false (t! "[1, 1", true) ∧
    display strWriter someEnv (.call (.seqBegin none) fun _ => .ret false) [] =
      .done true (t! "[<an error occurred when formatting an argument>") := by
  decide +kernel

/-- C49 is false for writers that can write again after a failed write, such as a buffer of a fixed size in
which a long token does not fit but the message does: the output is cut, and success reported. -/
theorem C49_fails : display (noting (room 60)) someEnv
    (valueOf (.seq none [one, .text none [.computed (t! "aaaaaaaaaaaaaaaaaaaaaaaaaaaaaaaaaaaaaaaaaaaaaaaaaaaaaaaaaaaaaaaaaaaaa")]])) ([], false) =
    .done true (t! "[1, \"<an error occurred when formatting an argument>", true) := by
  decide +kernel

/-! ## C50 -/

/-- A `Display` or `Debug` implementation: it writes text, and goes on as it likes after each answer. -/
inductive Disp where
  | ret (ok : Bool)
  | write (t : Text) (k : Bool → Disp)

/-- The calls `write!(Writer(stream), "{}", value)` makes, and what follows it:
`fmt/src/to_value.rs:77-89,97-109`. -/
def Disp.prog (k : Bool → Prog) : Disp → Prog
  | .ret ok => k ok
  | .write t f => .call (.textFragmentComputed t) fun b => (f b).prog k

/-- `Value for DebugToValue`, `Value for DisplayToValue`: `fmt/src/to_value.rs:73-91,93-111`. -/
def Disp.value (d : Disp) : Prog :=
  .call (.textBegin none) fun b =>
    if b then d.prog fun ok => if ok then .call .textEnd .ret else .ret false
    else .ret false

/-- Format to a string: what is written, and success. -/
def Disp.string : Disp → Text × Bool
  | .ret ok => ([], ok)
  | .write t f => let r := (f true).string; (t ++ r.1, r.2)

/-- An implementation that uses `?`. -/
def Disp.Propagates : Disp → Prop
  | .ret _ => True
  | .write _ f => f false = .ret false ∧ (f true).Propagates

/-- C50. Streaming something formattable, by an implementation that uses `?` and does not fail of itself, is to
any stream the same as streaming a text whose content is what formatting to a string gives. -/
theorem C50_display_value (d : Disp) (hd : d.Propagates) (hok : d.string.2 = true) :
    ∃ fs, fragsText fs = d.string.1 ∧ ∀ (σ : Type) (S : Token → σ → σ × Bool) (W : Wrapper) (s : σ),
      exec S d.value W s = exec S (valueOf (.text none fs)) W s := by
  suffices h : ∃ fs, fragsText fs = d.string.1 ∧ ∀ (σ : Type) (S : Token → σ → σ × Bool) (W : Wrapper) (s : σ),
      exec S (d.prog fun ok => if ok then .call .textEnd .ret else .ret false) W s =
        exec S (.ofToks (fs.map textFragTok ++ [.textEnd])) W s by
    obtain ⟨fs, h1, h2⟩ := h
    refine ⟨fs, h1, fun σ S W s => ?_⟩
    simp only [Disp.value, valueOf, toks, Prog.ofToks, exec]
    cases (S (W.tok (.textBegin none)) s).2 with
    | true => exact h2 σ S W _
    | false => rfl
  induction d with
  | ret ok =>
    simp only [Disp.string] at hok
    subst hok
    refine ⟨[], rfl, fun σ S W s => ?_⟩
    simp only [Disp.prog, if_true, List.map_nil, List.nil_append, Prog.ofToks, exec]
    cases (S (W.tok .textEnd) s).2 <;> rfl
  | write t f ih =>
    obtain ⟨hf, ht⟩ := hd
    obtain ⟨fs, h1, h2⟩ := ih true ht hok
    refine ⟨.computed t :: fs, by simp [fragsText, Disp.string, ← h1, Frag.content], fun σ S W s => ?_⟩
    simp only [Disp.prog, List.map_cons, textFragTok, List.cons_append, Prog.ofToks, exec]
    cases (S (W.tok (.textFragmentComputed t)) s).2 with
    | true => exact h2 σ S W _
    | false => simp only [hf, Disp.prog]; rfl

/-- C50. An implementation that fails makes the value fail: nobody takes the text for complete. -/
theorem C50_display_error (d : Disp) (hd : d.Propagates) (hok : d.string.2 = false) (σ : Type) (S : Token → σ → σ × Bool) (W : Wrapper) (s : σ) :
    (exec S d.value W s).2 = false := by
  simp only [Disp.value, exec]
  cases (S (W.tok (.textBegin none)) s).2 with
  | false => rfl
  | true =>
    simp only [if_true]
    generalize (S (W.tok (.textBegin none)) s).1 = s1
    induction d generalizing s1 with
    | ret ok => simp only [Disp.string] at hok; subst hok; rfl
    | write t f ih =>
      obtain ⟨hf, ht⟩ := hd
      simp only [Disp.prog, exec]
      cases (S (W.tok (.textFragmentComputed t)) s1).2 with
      | true => exact ih true ht hok _
      | false => simp only [hf, Disp.prog]; rfl

/-- A program of the kind `?` makes. -/
def twoParts : Disp := .write (t! "a") fun b => if b then .write (t! "\"") .ret else .ret false

example : twoParts.Propagates ∧ twoParts.string = (t! "a\"", true) ∧
    Fmt.toString someEnv twoParts.value = some (t! "\"a\\\"\"") := by
  refine ⟨⟨rfl, rfl, trivial⟩, rfl, by decide +kernel⟩

end Sval
