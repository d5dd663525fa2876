import Verif.Core.Tree

set_option autoImplicit false

/-!
# Arbitrary values, and the stream wrappers they may be streamed through

`impl Value` is arbitrary code. Its interaction with a stream is a tree: it makes a call, observes
whether the call succeeded, and continues from there (or returns). `Prog` is that tree, so it covers
code that uses `?` as well as code that ignores or inspects errors. Non-terminating values are not
covered.
-/

namespace Sval

/-- What an implementation of `Value::stream` (`src/value.rs:10`) does with its stream. -/
inductive Prog where
  /-- return `Ok(())` or `Err(_)` -/
  | ret (ok : Bool)
  /-- call a data method of the stream -/
  | call (t : Token) (k : Bool → Prog)
  /-- `stream.value(&v)` -/
  | value (v : Prog) (k : Bool → Prog)
  /-- `stream.value_computed(&v)` -/
  | valueComputed (v : Prog) (k : Bool → Prog)

/-- A stack of the wrappers sval puts around a stream. -/
inductive Wrapper where
  /-- the concrete stream, using `default_stream` for `value` and `value_computed` -/
  | base
  /-- `Computed<S>`, `src/stream.rs:786-1120` -/
  | computed (w : Wrapper)
  /-- `&mut S` or `Box<S>`, `src/stream.rs:456-781` -/
  | fwd (w : Wrapper)
  /-- `dyn sval_dynamic::Stream`, `dynamic/src/stream.rs:213-741` -/
  | dyn (w : Wrapper)

/-- `Computed`: the only data methods that change are the borrowed fragments,
`src/stream.rs:808-816`. -/
def computedTok : Token → Token
  | .textFragment s => .textFragmentComputed s
  | .binaryFragment s => .binaryFragmentComputed s
  | .null => .null
  | .bool b => .bool b
  | .int t v => .int t v
  | .f32 b => .f32 b
  | .f64 b => .f64 b
  | .textBegin n => .textBegin n
  | .textFragmentComputed s => .textFragmentComputed s
  | .textEnd => .textEnd
  | .binaryBegin n => .binaryBegin n
  | .binaryFragmentComputed s => .binaryFragmentComputed s
  | .binaryEnd => .binaryEnd
  | .mapBegin n => .mapBegin n
  | .mapKeyBegin => .mapKeyBegin
  | .mapKeyEnd => .mapKeyEnd
  | .mapValueBegin => .mapValueBegin
  | .mapValueEnd => .mapValueEnd
  | .mapEnd => .mapEnd
  | .seqBegin n => .seqBegin n
  | .seqValueBegin => .seqValueBegin
  | .seqValueEnd => .seqValueEnd
  | .seqEnd => .seqEnd
  | .enumBegin m => .enumBegin m
  | .enumEnd m => .enumEnd m
  | .taggedBegin m => .taggedBegin m
  | .taggedEnd m => .taggedEnd m
  | .tag m => .tag m
  | .tagHint t => .tagHint t
  | .recordBegin m n => .recordBegin m n
  | .recordValueBegin t l => .recordValueBegin t l
  | .recordValueEnd t l => .recordValueEnd t l
  | .recordEnd m => .recordEnd m
  | .tupleBegin m n => .tupleBegin m n
  | .tupleValueBegin t i => .tupleValueBegin t i
  | .tupleValueEnd t i => .tupleValueEnd t i
  | .tupleEnd m => .tupleEnd m
  | .recordTupleBegin m n => .recordTupleBegin m n
  | .recordTupleValueBegin t l i => .recordTupleValueBegin t l i
  | .recordTupleValueEnd t l i => .recordTupleValueEnd t l i
  | .recordTupleEnd m => .recordTupleEnd m

/-- `impl_stream_forward!`: every data method calls the same method with the same arguments,
`src/stream.rs:456-770`. -/
def fwdTok : Token → Token
  | .textFragment s => .textFragment s
  | .binaryFragment s => .binaryFragment s
  | .null => .null
  | .bool b => .bool b
  | .int t v => .int t v
  | .f32 b => .f32 b
  | .f64 b => .f64 b
  | .textBegin n => .textBegin n
  | .textFragmentComputed s => .textFragmentComputed s
  | .textEnd => .textEnd
  | .binaryBegin n => .binaryBegin n
  | .binaryFragmentComputed s => .binaryFragmentComputed s
  | .binaryEnd => .binaryEnd
  | .mapBegin n => .mapBegin n
  | .mapKeyBegin => .mapKeyBegin
  | .mapKeyEnd => .mapKeyEnd
  | .mapValueBegin => .mapValueBegin
  | .mapValueEnd => .mapValueEnd
  | .mapEnd => .mapEnd
  | .seqBegin n => .seqBegin n
  | .seqValueBegin => .seqValueBegin
  | .seqValueEnd => .seqValueEnd
  | .seqEnd => .seqEnd
  | .enumBegin m => .enumBegin m
  | .enumEnd m => .enumEnd m
  | .taggedBegin m => .taggedBegin m
  | .taggedEnd m => .taggedEnd m
  | .tag m => .tag m
  | .tagHint t => .tagHint t
  | .recordBegin m n => .recordBegin m n
  | .recordValueBegin t l => .recordValueBegin t l
  | .recordValueEnd t l => .recordValueEnd t l
  | .recordEnd m => .recordEnd m
  | .tupleBegin m n => .tupleBegin m n
  | .tupleValueBegin t i => .tupleValueBegin t i
  | .tupleValueEnd t i => .tupleValueEnd t i
  | .tupleEnd m => .tupleEnd m
  | .recordTupleBegin m n => .recordTupleBegin m n
  | .recordTupleValueBegin t l i => .recordTupleValueBegin t l i
  | .recordTupleValueEnd t l i => .recordTupleValueEnd t l i
  | .recordTupleEnd m => .recordTupleEnd m

/-- `dispatch_*` of the dynamic stream: `dynamic/src/stream.rs:503-737` erases and calls
`dispatch_x`, which calls `x` (`dynamic/src/stream.rs:213-501`). Both hops keep method and
arguments. -/
def dynTok (t : Token) : Token := fwdTok (fwdTok t)

/-- A data call on a wrapped stream, as it arrives at the concrete stream. -/
def Wrapper.tok : Wrapper → Token → Token
  | .base, t => t
  | .computed w, t => w.tok (computedTok t)
  | .fwd w, t => w.tok (fwdTok t)
  | .dyn w, t => w.tok (dynTok t)

/-- Which stream `v.stream(..)` is run on when `value(&v)` is called:
default `src/stream.rs:1132-1137`; `Computed` `798-801`; forwarding `459-462`; a dynamic stream
uses the default. -/
def Wrapper.valueTarget : Wrapper → Wrapper
  | .base => .base
  | .computed w => .computed w
  | .fwd w => w.valueTarget
  | .dyn w => .dyn w

/-- The same for `value_computed(&v)`: default `src/stream.rs:1142-1147`; `Computed` `803-806`;
forwarding `464-467`; a dynamic stream hands the inner stream a dynamic value, whose `stream` wraps
the stream it is given in `&mut` and `dyn` again (`dynamic/src/stream.rs:214-216, 506-508`,
`dynamic/src/value.rs:117-119`). -/
def Wrapper.computedTarget : Wrapper → Wrapper
  | .base => .computed .base
  | .computed w => w.computedTarget
  | .fwd w => w.computedTarget
  | .dyn w => .dyn (.fwd w.computedTarget)

/-- Run a value against a wrapped stream `S` (which answers each call with success or failure). -/
def exec {σ : Type} (S : Token → σ → σ × Bool) : Prog → Wrapper → σ → σ × Bool
  | .ret ok, _, s => (s, ok)
  | .call t k, w, s =>
    let r := S (w.tok t) s
    exec S (k r.2) w r.1
  | .value v k, w, s =>
    let r := exec S v w.valueTarget s
    exec S (k r.2) w r.1
  | .valueComputed v k, w, s =>
    let r := exec S v w.computedTarget s
    exec S (k r.2) w r.1

/-- Is the call a borrowed fragment? -/
def isBorrowed : Token → Bool
  | .textFragment _ | .binaryFragment _ => true
  | _ => false

/-- A recording stream whose answers depend arbitrarily on everything seen so far. -/
def recorder (ans : List Token → Token → Bool) (t : Token) (log : List Token) : List Token × Bool :=
  (log ++ [t], ans log t)

/-- Code that uses `?` after every call. -/
def Prog.Propagates : Prog → Prop
  | .ret _ => True
  | .call _ k => k false = .ret false ∧ (k true).Propagates
  | .value v k => v.Propagates ∧ k false = .ret false ∧ (k true).Propagates
  | .valueComputed v k => v.Propagates ∧ k false = .ret false ∧ (k true).Propagates

/-- The program that makes the given calls with `?`. -/
def Prog.ofToks : List Token → Prog
  | [] => .ret true
  | t :: ts => .call t fun
    | true => ofToks ts
    | false => .ret false

/-! ## Lemmas -/

theorem fwdTok_id (t : Token) : fwdTok t = t := by cases t <;> rfl
theorem dynTok_id (t : Token) : dynTok t = t := by simp [dynTok, fwdTok_id]

theorem computedTok_not_borrowed (t : Token) : isBorrowed (computedTok t) = false := by
  cases t <;> rfl
theorem computedTok_idem (t : Token) : computedTok (computedTok t) = computedTok t := by
  cases t <;> rfl

/-- Does the stack contain a `Computed`? -/
def Wrapper.isComputed : Wrapper → Bool
  | .base => false
  | .computed _ => true
  | .fwd w => w.isComputed
  | .dyn w => w.isComputed

theorem Wrapper.tok_eq (w : Wrapper) (t : Token) :
    w.tok t = if w.isComputed then computedTok t else t := by
  induction w generalizing t with
  | base => rfl
  | computed w ih =>
    simp only [Wrapper.tok, Wrapper.isComputed, ih, computedTok_idem]
    split <;> simp
  | fwd w ih => rw [Wrapper.tok, fwdTok_id, ih]; rfl
  | dyn w ih => rw [Wrapper.tok, dynTok_id, ih]; rfl

theorem Wrapper.valueTarget_isComputed (w : Wrapper) : w.valueTarget.isComputed = w.isComputed := by
  induction w with
  | base => rfl
  | computed w ih => rfl
  | fwd w ih => simpa [Wrapper.valueTarget, Wrapper.isComputed] using ih
  | dyn w ih => rfl

theorem Wrapper.computedTarget_isComputed (w : Wrapper) : w.computedTarget.isComputed = true := by
  induction w with
  | base => rfl
  | computed w ih => simpa [Wrapper.computedTarget] using ih
  | fwd w ih => simpa [Wrapper.computedTarget] using ih
  | dyn w ih => simpa [Wrapper.computedTarget, Wrapper.isComputed] using ih

/-- Behaviour depends only on whether a `Computed` is in the stack. -/
theorem exec_wrapper {σ : Type} (S : Token → σ → σ × Bool) (p : Prog) (w w' : Wrapper) (s : σ)
    (h : w.isComputed = w'.isComputed) : exec S p w s = exec S p w' s := by
  induction p generalizing w w' s with
  | ret ok => rfl
  | call t k ih =>
    simp only [exec]
    rw [Wrapper.tok_eq, Wrapper.tok_eq, h]
    exact ih _ _ _ _ h
  | value v k ihv ih =>
    simp only [exec]
    rw [ihv w.valueTarget w'.valueTarget s
      (by rw [Wrapper.valueTarget_isComputed, Wrapper.valueTarget_isComputed, h])]
    exact ih _ _ _ _ h
  | valueComputed v k ihv ih =>
    simp only [exec]
    rw [ihv w.computedTarget w'.computedTarget s
      (by rw [Wrapper.computedTarget_isComputed, Wrapper.computedTarget_isComputed])]
    exact ih _ _ _ _ h

/-- Under `Computed`, the stream behaves as if every borrowed fragment were a computed one. -/
theorem exec_computed {σ : Type} (S : Token → σ → σ × Bool) (p : Prog) (w w' : Wrapper) (s : σ)
    (h : w.isComputed = true) :
    exec S p w s = exec (fun t s => S (computedTok t) s) p w' s := by
  induction p generalizing w w' s with
  | ret ok => rfl
  | call t k ih =>
    simp only [exec]
    have : S (w.tok t) s = S (computedTok (w'.tok t)) s := by
      rw [Wrapper.tok_eq w, Wrapper.tok_eq w', h, if_pos rfl]
      by_cases h' : w'.isComputed = true
      · rw [if_pos h', computedTok_idem]
      · rw [if_neg h']
    rw [this]
    exact ih _ _ _ _ h
  | value v k ihv ih =>
    simp only [exec]
    rw [ihv w.valueTarget w'.valueTarget s (by rw [Wrapper.valueTarget_isComputed, h])]
    exact ih _ _ _ _ h
  | valueComputed v k ihv ih =>
    simp only [exec]
    rw [ihv w.computedTarget w'.computedTarget s (Wrapper.computedTarget_isComputed w)]
    exact ih _ _ _ _ h

/-- Anything true of a state and preserved by every call holds after running a value. -/
theorem exec_inv {σ : Type} (S : Token → σ → σ × Bool) (I : σ → Prop)
    (hS : ∀ t s, I s → I (S t s).1) (p : Prog) (w : Wrapper) (s : σ) (h : I s) :
    I (exec S p w s).1 := by
  induction p generalizing w s with
  | ret ok => exact h
  | call t k ih => exact ih _ _ _ (hS _ _ h)
  | value v k ihv ih => exact ih _ _ _ (ihv _ _ h)
  | valueComputed v k ihv ih => exact ih _ _ _ (ihv _ _ h)

/-- A value whose code propagates errors makes no call after a failed one: running it from a log
`l` extends the log by calls all of which, except possibly the last, succeeded; and it reports
success only if all succeeded. -/
theorem exec_propagates (ans : List Token → Token → Bool) (p : Prog) (w : Wrapper)
    (hp : p.Propagates) (l : List Token) :
    ∃ pre : List Token,
      (exec (recorder ans) p w l).1 = l ++ pre ∧
      (∀ i, (h : i + 1 < pre.length) → ans (l ++ pre.take i) (pre[i]'(by omega)) = true) ∧
      ((exec (recorder ans) p w l).2 = true →
        ∀ i, (h : i < pre.length) → ans (l ++ pre.take i) (pre[i]'h) = true) := by
  induction p generalizing w l with
  | ret ok => exact ⟨[], by simp [exec], by simp, by simp⟩
  | call t k ih =>
    obtain ⟨hk, hk'⟩ := hp
    simp only [exec, recorder]
    cases ha : ans l (w.tok t) with
    | false =>
      rw [hk]
      refine ⟨[w.tok t], rfl, ?_, ?_⟩
      · intro i h; simp at h
      · intro h; simp [exec] at h
    | true =>
      obtain ⟨pre, h1, h2, h3⟩ := ih true w hk' (l ++ [w.tok t])
      refine ⟨w.tok t :: pre, ?_, ?_, ?_⟩
      · exact h1.trans (by simp)
      · intro i h
        cases i with
        | zero => simpa using ha
        | succ i => simpa using h2 i (by simpa using h)
      · intro hr i h
        cases i with
        | zero => simpa using ha
        | succ i => simpa using h3 hr i (by simpa using h)
  | value v k ihv ih =>
    obtain ⟨hv, hk, hk'⟩ := hp
    simp only [exec]
    obtain ⟨pre, h1, h2, h3⟩ := ihv w.valueTarget hv l
    cases hr : (exec (recorder ans) v w.valueTarget l).2 with
    | false =>
      rw [hk]
      exact ⟨pre, by simpa [exec] using h1, h2, by simp [exec]⟩
    | true =>
      rw [h1]
      obtain ⟨pre2, g1, g2, g3⟩ := ih true w hk' (l ++ pre)
      have h3 := h3 hr
      refine ⟨pre ++ pre2, by rw [g1, List.append_assoc], ?_, ?_⟩
      · intro i h
        by_cases hi : i < pre.length
        · rw [List.getElem_append_left hi, List.take_append_of_le_length (by omega)]
          exact h3 i hi
        · rw [List.getElem_append_right (by omega)]
          rw [List.length_append] at h
          have := g2 (i - pre.length) (by omega)
          rw [List.append_assoc] at this
          rwa [List.take_append, List.take_of_length_le (by omega)]
      · intro hr2 i h
        by_cases hi : i < pre.length
        · rw [List.getElem_append_left hi, List.take_append_of_le_length (by omega)]
          exact h3 i hi
        · rw [List.getElem_append_right (by omega)]
          rw [List.length_append] at h
          have := g3 hr2 (i - pre.length) (by omega)
          rw [List.append_assoc] at this
          rwa [List.take_append, List.take_of_length_le (by omega)]
  | valueComputed v k ihv ih =>
    obtain ⟨hv, hk, hk'⟩ := hp
    simp only [exec]
    obtain ⟨pre, h1, h2, h3⟩ := ihv w.computedTarget hv l
    cases hr : (exec (recorder ans) v w.computedTarget l).2 with
    | false =>
      rw [hk]
      exact ⟨pre, by simpa [exec] using h1, h2, by simp [exec]⟩
    | true =>
      rw [h1]
      obtain ⟨pre2, g1, g2, g3⟩ := ih true w hk' (l ++ pre)
      have h3 := h3 hr
      refine ⟨pre ++ pre2, by rw [g1, List.append_assoc], ?_, ?_⟩
      · intro i h
        by_cases hi : i < pre.length
        · rw [List.getElem_append_left hi, List.take_append_of_le_length (by omega)]
          exact h3 i hi
        · rw [List.getElem_append_right (by omega)]
          rw [List.length_append] at h
          have := g2 (i - pre.length) (by omega)
          rw [List.append_assoc] at this
          rwa [List.take_append, List.take_of_length_le (by omega)]
      · intro hr2 i h
        by_cases hi : i < pre.length
        · rw [List.getElem_append_left hi, List.take_append_of_le_length (by omega)]
          exact h3 i hi
        · rw [List.getElem_append_right (by omega)]
          rw [List.length_append] at h
          have := g3 hr2 (i - pre.length) (by omega)
          rw [List.append_assoc] at this
          rwa [List.take_append, List.take_of_length_le (by omega)]

theorem ofToks_propagates (ts : List Token) : (Prog.ofToks ts).Propagates := by
  induction ts with
  | nil => trivial
  | cons t ts ih => exact ⟨rfl, ih⟩

/-- With a stream that never fails, `ofToks ts` makes exactly the calls `ts`. -/
theorem exec_ofToks_ok (ts l : List Token) :
    exec (recorder fun _ _ => true) (Prog.ofToks ts) .base l = (l ++ ts, true) := by
  induction ts generalizing l with
  | nil => simp [Prog.ofToks, exec]
  | cons t ts ih => simp [Prog.ofToks, exec, recorder, Wrapper.tok, ih]

end Sval
