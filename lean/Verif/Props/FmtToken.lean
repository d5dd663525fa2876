import Verif.Fmt.TokenPlain
import Verif.Props.Fmt

set_option autoImplicit false

/-!
# Properties of `sval_fmt` with a custom `TokenWrite`: C60
-/

namespace Sval

open Fmt

/-- A `TokenWrite` that records its calls. -/
def callLog : Impl (List Call) where
  over := fun c => some fun o => .ok (o ++ [c])
  str := fun _ o => .ok o

theorem calls_log (env : Fmt.Env) (L o : List Call) : calls (invoke callLog env) L o = .ok (o ++ L) := by
  induction L generalizing o with
  | nil => simp [calls]
  | cons c L ih =>
    have : invoke callLog env c o = .ok (o ++ [c]) := by rw [invoke_eq]; rfl
    simp only [calls, this, Res.bind_ok, ih]
    simp

/-- C60. Whatever methods of `TokenWrite` are overridden, and whatever they do: a value makes the same calls to them,
until one fails. They are those that follow the structure of the value, except that
an enum whose variant has nothing in it is followed by its own label, and that
`write_map_value_begin` may be wrong about which entry is the first. -/
theorem C60_exact {ω : Type} (W : Impl ω) (env : Fmt.Env) (v : V) (o : ω) :
    toTokenWrite W env (valueOf v) o = (calls (invoke W env) (made v) o).outcome :=
  streamTo_value _ v o

/-- C60, as far as it holds. The calls follow the structure of the value, with every method told correctly if it is
at the first element and if the container was empty, in just these cases: no enum in the value has a variant with
nothing in it, and in every map the first key is a scalar without a tag or an empty container, and no later key is an
empty container. A tag around a container makes no difference.

Missing: the other values, for which it is false. `C60_exact` says what they give. -/
theorem C60_calls_partial (env : Fmt.Env) (v : V) :
    (∀ (ω : Type) (W : Impl ω) (o : ω), toTokenWrite W env (valueOf v) o = (calls (invoke W env) (due v) o).outcome) ↔
      solid v = true ∧ keysOk v = true := by
  have h := (over_value v false).2
  rw [Bool.and_eq_true] at h
  rw [← h]
  constructor
  · intro H
    have := (C60_exact callLog env v []).symm.trans (H _ callLog [])
    rw [calls_log, calls_log] at this
    have h' : made v = due v := by simpa [Res.outcome] using this
    exact h'
  · intro H ω W o
    rw [C60_exact]
    have : made v = due v := H
    rw [this]

/-- A sequence as a value. -/
def seqV (xs : List V) : V := .seq none xs

/-- C60 is false: in the map `{[1]: (), []: ()}`, `write_map_value_begin` is told that the first entry is not the first,
and that the second is. -/
theorem C60_fails :
    toTokenWrite callLog someEnv (valueOf (.map none [(seqV [one], .null), (seqV [], .null)])) [] = .done true
      [.mapBegin, .mapKeyBegin true, .seqBegin, .seqValueBegin true, .int .u8 1, .seqEnd false, .mapValueBegin false, .null,
        .mapKeyBegin false, .seqBegin, .seqEnd true, .mapValueBegin true, .null, .mapEnd false] ∧
    due (.map none [(seqV [one], .null), (seqV [], .null)]) =
      [.mapBegin, .mapKeyBegin true, .seqBegin, .seqValueBegin true, .int .u8 1, .seqEnd false, .mapValueBegin true, .null,
        .mapKeyBegin false, .seqBegin, .seqEnd true, .mapValueBegin false, .null, .mapEnd false] := by
  decide +kernel

/-- A record with a map, a text, and a number in pieces. -/
def sampleT : V :=
  .record (lab (t! "R")) (some 2) [(none, Label.new (t! "x"), .map none [(.text none [.borrowed (t! "k\n")], seqV [one, .null]), (one, .bool true)]),
    (none, Label.new (t! "y"), .tagged { tag := some tags.NUMBER } (.text none [.computed (t! "1"), .computed (t! "e5")]))]

example : solid sampleT = true ∧ keysOk sampleT = true ∧
    toTokenWrite callLog someEnv (valueOf sampleT) [] = .done true
      [.recordType (t! "R"), .recordBegin, .recordValueBegin (t! "x") true, .mapBegin, .mapKeyBegin true, .textQuote, .text (t! "k\n"), .textQuote,
        .mapValueBegin true, .seqBegin, .seqValueBegin true, .int .u8 1, .seqValueBegin false, .null, .seqEnd false, .mapKeyBegin false,
        .int .u8 1, .mapValueBegin false, .bool true, .mapEnd false, .recordValueBegin (t! "y") false, .number (t! "1"), .number (t! "e5"), .recordEnd false] := by
  decide +kernel

/-! ## The provided methods -/

/-- A `TokenWrite` that overrides `write_token` only. -/
def onlyToken {ω : Type} (w : Fmt.Writer ω) (str : Text → ω → Res Unit ω) : Impl ω where
  over
    | .token k t => some (w k t)
    | _ => none
  str := str

/-- C60. A writer that overrides `write_token` only is given the tokens of C26. -/
theorem C60_token {ω : Type} (w : Fmt.Writer ω) (str : Text → ω → Res Unit ω) (env : Fmt.Env) (p : Prog) (o : ω) :
    toTokenWrite (onlyToken w str) env p o = toWrite w env p o := by
  have ht : ∀ k t o, invoke (onlyToken w str) env (.token k t) o = w k t o := fun k t o => by rw [invoke_eq]; rfl
  have hn : ∀ t o, invoke (onlyToken w str) env (.number t) o = w .number t o := fun t o => by
    rw [invoke_eq]; exact (calls_one _ _ _).trans (ht _ _ _)
  refine Plain.toWrite (w := w) ⟨ht, fun t v o => ?_, fun b o => ?_, fun b o => ?_, fun c hc => ?_⟩ p o
  · rw [invoke_eq]; exact (calls_one _ _ _).trans (hn _ _)
  · rw [invoke_eq]; exact (calls_one _ _ _).trans (hn _ _)
  · rw [invoke_eq]; exact (calls_one _ _ _).trans (hn _ _)
  · cases c <;> first | rfl | simp [Call.derived] at hc

/-- C60. `stream_to_write` and `stream_to_string`, that write numbers without going through a token, write the same
text as that of C26. -/
theorem C60_generic {ω : Type} (str : Text → ω → Res Unit ω) (env : Fmt.Env) (p : Prog) (o : ω) :
    toTokenWrite (generic env str) env p o = toWrite (fun _ => str) env p o := by
  refine Plain.toWrite (w := fun _ => str) ⟨fun k t o => ?_, fun t v o => ?_, fun b o => ?_, fun b o => ?_, fun c hc => ?_⟩ p o
  · rw [invoke_eq]; rfl
  · rw [invoke_eq]; rfl
  · rw [invoke_eq]; rfl
  · rw [invoke_eq]; rfl
  · cases c <;> first | rfl | simp [Call.derived] at hc

/-- C60. Formatting to `&mut W` is formatting to `W`: no override is lost. -/
theorem C60_byRef {ω : Type} (W : Impl ω) (env : Fmt.Env) (p : Prog) (o : ω) :
    toTokenWrite (byRef W env) env p o = toTokenWrite W env p o := by
  have : invoke (byRef W env) env = invoke W env := by
    funext c o
    rw [invoke_eq (byRef W env)]
    cases c <;> rfl
  simp only [toTokenWrite, this]

/-- What the calls for a value write is its layout. -/
theorem made_text (env : Fmt.Env) (v : V) : (made v).flatMap (spelled env) = (layout env twice false v).text := by
  have h1 := C26_exact env v
  have h2 := C60_generic (fun t o => Res.ok (o ++ t)) env (valueOf v) []
  rw [C60_exact] at h2
  unfold Fmt.toString at h1
  change _ = toWrite strWriter env _ _ at h2
  rw [← h2] at h1
  cases hc : calls (invoke (generic env fun t o => Res.ok (o ++ t)) env) (made v) [] with
  | ok o1 =>
    rw [hc] at h1
    simp only [Res.outcome, Option.some.injEq] at h1
    have := spelled_calls (generic env fun t o => Res.ok (o ++ t)) env id
      (fun t o o' h => by simp only [generic, Res.ok.injEq] at h; exact h.symm)
      (fun c f hf o o' h => by
        cases c <;> simp only [generic, Option.some.injEq, reduceCtorEq] at hf <;> subst hf <;>
          simp only [Res.ok.injEq] at h <;> exact h.symm)
      (made v) [] o1 hc
    simp only [id, List.nil_append] at this
    rw [← this, h1]
  | err e o1 => rw [hc] at h1; simp [Res.outcome] at h1
  | panic => rw [hc] at h1; simp [Res.outcome] at h1

/-- C60. Decoration is harmless. If each overridden method, as far as some view of the output goes, adds just the text
that the provided one would write, then so does formatting as a whole: what is seen is the layout of the value, whichever
methods are overridden. -/
theorem C60_decorate {ω : Type} (W : Impl ω) (env : Fmt.Env) (view : ω → Text)
    (hs : ∀ t o o', W.str t o = .ok o' → view o' = view o ++ t)
    (ho : ∀ c f, W.over c = some f → ∀ o o', f o = .ok o' → view o' = view o ++ spelled env c)
    (v : V) (o o' : ω) (h : toTokenWrite W env (valueOf v) o = .done true o') :
    view o' = view o ++ (layout env twice false v).text := by
  rw [C60_exact] at h
  cases hc : calls (invoke W env) (made v) o with
  | ok o1 =>
    rw [hc] at h
    simp only [Res.outcome, Outcome.done.injEq, true_and] at h
    subst h
    rw [spelled_calls W env view hs ho _ o o1 hc, made_text]
  | err e o1 => rw [hc] at h; simp [Res.outcome] at h
  | panic => rw [hc] at h; simp [Res.outcome] at h

/-- C60. The provided methods for containers and numbers go through the methods for the parts: a writer that overrides
only (some of) `write_number`, `write_atom`, `write_type`, `write_field`, `write_ident`, `write_punct`, `write_ws`,
`write_text_quote`, `write_text` and `write_token` is called with every number, atom, type, field and so on that is
written; and if `write_type` and `write_field` are not overridden, `write_ident` is called instead. -/
theorem C60_leaves {ω : Type} (W : Impl ω) (env : Fmt.Env) (named : Bool) (hW : ∀ c, c.leaf named = false → W.over c = none)
    (v : V) (o : ω) :
    toTokenWrite W env (valueOf v) o = (calls (invoke W env) ((made v).flatMap (leaves named env)) o).outcome := by
  rw [C60_exact, calls_leaves W env named hW]

/-- A `TokenWrite` that records the calls for parts. -/
def leafLog (named : Bool) : Impl (List Call) where
  over := fun c => if c.leaf named then some fun o => .ok (o ++ [c]) else none
  str := fun _ o => .ok o

example : (∀ c, c.leaf false = false → (leafLog false).over c = none) ∧
    toTokenWrite (leafLog true) someEnv (valueOf (.record (lab (t! "R")) none [(none, Label.new (t! "x"), seqV [one, .null])])) [] = .done true
      [.type (t! "R"), .ws (t! " "), .punct (t! "{"), .ws (t! " "), .field (t! "x"), .punct (t! ":"), .ws (t! " "), .punct (t! "["),
        .number (t! "1"), .punct (t! ","), .ws (t! " "), .atom (t! "()"), .punct (t! "]"), .ws (t! " "), .punct (t! "}")] ∧
    toTokenWrite (leafLog false) someEnv (valueOf (.record (lab (t! "R")) none [(none, Label.new (t! "x"), .text none [.borrowed (t! "\n")])])) [] = .done true
      [.ident (t! "R"), .ws (t! " "), .punct (t! "{"), .ws (t! " "), .ident (t! "x"), .punct (t! ":"), .ws (t! " "), .textQuote, .text (t! "\n"), .textQuote,
        .ws (t! " "), .punct (t! "}")] := by
  refine ⟨fun c hc => ?_, by decide +kernel, by decide +kernel⟩
  simp [leafLog, hc]

/-- A method with a note that it has failed. -/
def notes {ω : Type} (f : ω → Res Unit ω) (o : ω × Bool) : Res Unit (ω × Bool) :=
  match f o.1 with
  | .ok o' => .ok (o', o.2)
  | .err e o' => .err e (o', true)
  | .panic => .panic

/-- A `TokenWrite` with a note that one of its own methods has failed. -/
def notingW {ω : Type} (W : Impl ω) : Impl (ω × Bool) where
  over := fun c => (W.over c).map notes
  str := fun t => notes (W.str t)

/-- C60. A failure of an overridden method, or of the writer underneath, is not swallowed: if formatting reports success
for code that uses `?`, then none has failed. -/
theorem C60_errors {ω : Type} (W : Impl ω) (env : Fmt.Env) (p : Prog) (hp : p.Propagates) (o o' : ω) (b : Bool)
    (h : toTokenWrite (notingW W) env p (o, false) = .done true (o', b)) : b = false := by
  have hn : ∀ f : ω → Res Unit ω, Keeps (fun o : ω × Bool => o.2 = false) (notes f) := by
    intro f o ho o1 h1
    unfold notes at h1
    cases hc : f o.1 with
    | ok o2 => rw [hc] at h1; cases h1; exact ho
    | err e o2 => rw [hc] at h1; cases h1
    | panic => rw [hc] at h1; cases h1
  have hN : ∀ n c, Keeps (fun o : ω × Bool => o.2 = false) (invokeN (notingW W) env n c) := by
    intro n
    induction n with
    | zero => intro c o _ o' h; cases h
    | succ n ih =>
      intro c o ho o' h
      simp only [invokeN] at h
      cases hov : (notingW W).over c with
      | some f =>
        rw [hov] at h
        simp only [notingW, Option.map_eq_some_iff] at hov
        obtain ⟨g, _, rfl⟩ := hov
        exact hn g o ho o' h
      | none =>
        rw [hov] at h
        have hc := keeps_calls (fun c => ih c) (provided env c) o ho o'
        cases c <;> first | exact hc h | exact hn _ o ho o' h
  have := keeps_exec_of (keeps_callW (inv := invoke (notingW W) env) fun c => hN 4 c) p hp .base (St.new (o, false)) rfl
  simp only [toTokenWrite, streamTo, drive] at h
  generalize exec (guarded (callW (invoke (notingW W) env))) p .base (St.new (o, false), false) = r at h this
  obtain ⟨⟨s, pn⟩, b'⟩ := r
  cases pn with
  | true => simp at h
  | false =>
    simp only [Bool.false_eq_true, if_false, Outcome.done.injEq] at h
    have := this (s, false) (by rw [h.1])
    simpa [h.2] using this

/-- A `TokenWrite` that puts `<` and `>` around null, types and the elements of a sequence, and has only so much room. -/
def marked (n : Nat) : Impl Text where
  str := fun t o => if o.length + t.length ≤ n then .ok (o ++ t) else .err () o
  over
    | .null => some fun o => .ok (o ++ t! "<()>")
    | .type t => some fun o => .ok (o ++ t! "<" ++ t ++ t! ">")
    | .seqBegin => some fun o => .ok (o ++ t! "<[>")
    | _ => none

/-- The text without the marks. -/
def unmarked (o : Text) : Text := o.filter fun c => c ≠ '<' ∧ c ≠ '>'

/-- `marked` for types without marks in them. -/
def markedOk (n : Nat) : Impl Text where
  str := fun t o => if unmarked t = t then (marked n).str t o else .err () o
  over
    | .null => (marked n).over .null
    | .seqBegin => (marked n).over .seqBegin
    | _ => none

example : (∀ t o o', (markedOk 90).str t o = .ok o' → unmarked o' = unmarked o ++ t) ∧
    (∀ c f, (markedOk 90).over c = some f → ∀ o o', f o = .ok o' → unmarked o' = unmarked o ++ spelled someEnv c) ∧
    toTokenWrite (markedOk 90) someEnv (valueOf sampleT) [] = .done true (t! "R { x: { \"k\\n\": <[>1, <()>], 1: true }, y: 1e5 }") ∧
    (layout someEnv twice false sampleT).text = t! "R { x: { \"k\\n\": [1, ()], 1: true }, y: 1e5 }" ∧
    toTokenWrite (notingW (markedOk 12)) someEnv (valueOf sampleT) ([], false) = .done false (t! "R { x: { \"k\\", true) ∧
    toTokenWrite (marked 90) someEnv (valueOf (.record (lab (t! "R")) none [])) [] = .done true (t! "<R> {}") := by
  refine ⟨fun t o o' h => ?_, fun c f hf o o' h => ?_, by decide +kernel, by decide +kernel, by decide +kernel, by decide +kernel⟩
  · simp only [markedOk, marked] at h
    split at h
    · next hu =>
      split at h
      · cases h
        rw [unmarked, List.filter_append]
        exact congrArg _ hu
      · cases h
    · cases h
  · cases c <;> simp only [markedOk, marked, Option.some.injEq, reduceCtorEq] at hf <;> subst hf <;> cases h <;>
      simp [unmarked, spelled]

end Sval
