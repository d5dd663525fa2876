import Verif.Json.Cost
import Verif.Json.Io
import Verif.Fmt.Cost
import Verif.Buffer.Cost
import Verif.Props.Panics

set_option autoImplicit false

/-!
# C94: what is written is in proportion to what is streamed

The code that streams a value here is any code, as in `Verif/Props/Panics.lean`.
-/

namespace Sval

/-- The bytes of data in calls: text, bytes, labels, indexes and numbers written out. -/
def carried (f32 : UInt32 → Text) (f64 : UInt64 → Text) (ts : List Token) : Nat := (ts.map fun t => t.bytes f32 f64).sum

theorem carried_linear (f32 : UInt32 → Text) (f64 : UInt64 → Text) (a k : Nat) (ts : List Token) :
    (ts.map fun t => a * t.bytes f32 f64 + k).sum = a * carried f32 f64 ts + k * ts.length := by
  induction ts with
  | nil => rfl
  | cons t ts ih =>
    simp only [carried, List.map_cons, List.sum_cons, List.length_cons] at *
    rw [ih, Nat.mul_add, Nat.mul_add]
    omega

theorem carried_prefix (f32 : UInt32 → Text) (f64 : UInt64 → Text) {a b : List Token} (h : a <+: b) :
    carried f32 f64 a ≤ carried f32 f64 b ∧ a.length ≤ b.length := by
  obtain ⟨c, rfl⟩ := h
  constructor
  · simp [carried]
  · simp

/-! ## `sval_json` -/

/-- C94. Whatever code streams to `sval_json`, to whatever writer: if `size` is something that writing a text makes larger
by no more than the bytes of the text, it is larger in the end by no more than six times the bytes in the calls and nine
for each call. -/
theorem C94_json {ω : Type} (size : ω → Nat) (w : Json.Writer ω)
    (hw : ∀ t o, (∀ o', w t o = .ok o' → size o' ≤ size o + utf8Len t) ∧ ∀ e o', w t o = .err e o' → size o' ≤ size o + utf8Len t)
    (env : Json.Env) (p : Prog) (o : ω) :
    let calls := received (Json.stepP w env) p .base ({ out := o }, false)
    size (Json.toFmt w env p o).2 ≤ size o + 6 * carried env.f32 env.f64 calls + 9 * calls.length := by
  have := Json.toFmt_grows (ν := size) (w := w) (fun t o => ?_) env p o
  · rw [show Json.cost env = fun t => 6 * t.bytes env.f32 env.f64 + 9 from rfl, carried_linear] at this
    simp only
    omega
  · cases e : w t o with
    | panic => trivial
    | ok o' => exact (hw t o).1 o' e
    | err x o' => exact (hw t o).2 x o' e

/-- C94. A `Vec` or any `io::Write`, whatever it answers. -/
theorem C94_json_io (env : Json.Env) (p : Prog) (answers : List Json.Ans) :
    let calls := received (Json.stepP Json.ioWriter env) p .base ({ out := ⟨answers, [], none⟩ }, false)
    (Json.toIo env p answers).2.length ≤ 6 * carried env.f32 env.f64 calls + 9 * calls.length := by
  have hl : ∀ (err : Option Nat) (as : List Json.Ans) (buf got : Bytes),
      Grows (fun o : Json.Io => o.got.length) buf.length (Json.ioLoop err as buf got) ⟨as, got, err⟩ := by
    intro err as
    induction as with
    | nil =>
      intro buf got
      cases buf <;> simp [Json.ioLoop, Grows]
    | cons a as ih =>
      intro buf got
      cases buf with
      | nil => simp [Json.ioLoop, Grows]
      | cons b buf =>
        cases a with
        | wrote n =>
          rw [Json.ioLoop]
          split
          · simp [Grows]
          · rename_i hn
            have h2 := ih ((b :: buf).drop n) (got ++ (b :: buf).take n)
            have h3 : ((b :: buf).drop n).length + ((b :: buf).take n).length = (b :: buf).length := by
              rw [List.length_drop, List.length_take]
              omega
            generalize (b :: buf).drop n = x at *
            generalize (b :: buf).take n = y at *
            generalize Json.ioLoop err as x (got ++ y) = r at *
            cases r with
            | panic => trivial
            | ok o => simp only [Grows, List.length_append] at *; omega
            | err e o => simp only [Grows, List.length_append] at *; omega
        | interrupted => rw [Json.ioLoop]; exact ih _ _
        | error e => simp [Json.ioLoop, Grows]
  have := C94_json (fun o : Json.Io => o.got.length) Json.ioWriter (fun t o => ?_) env p ⟨answers, [], none⟩
  · simpa [Json.toIo] using this
  · have := hl o.err o.answers (utf8 t) o.got
    rw [Json.utf8Len_eq] at this
    have hw : Json.ioLoop o.err o.answers (utf8 t) o.got = Json.ioWriter t o := rfl
    rw [hw] at this
    constructor
    · intro o' ho
      rw [ho] at this
      exact this
    · intro e o' ho
      rw [ho] at this
      exact this

/-- C94. A value streamed to a string. -/
theorem C94_json_value (env : Json.Env) (v : V) (s : Text) (h : Json.toString env (valueOf v) = some s) :
    utf8Len s ≤ 6 * carried env.f32 env.f64 (toks v) + 9 * (toks v).length := by
  have h1 := C94_json utf8Len Json.strWriter (fun t o => ⟨fun o' ho => by cases ho; rw [Json.utf8Len_append]; exact Nat.le_refl _, fun e o' ho => by cases ho⟩)
    env (valueOf v) []
  have h2 := carried_prefix env.f32 env.f64 (received_ofToks (Json.stepP Json.strWriter env) (toks v) ({ out := [] }, false))
  simp only [Json.toString] at h
  split at h
  · rename_i o ho
    cases h
    rw [ho] at h1
    simp only [show utf8Len ([] : Text) = 0 from rfl, valueOf] at h1
    omega
  · cases h

/-- C94. Six cannot be less: control characters. -/
theorem C94_json_six (env : Json.Env) (n : Nat) :
    ∃ s, Json.toString env (valueOf (.text none [.borrowed (List.replicate n '\x01')])) = some s ∧ utf8Len s = 6 * n + 2 := by
  refine ⟨'"' :: (Json.escape (List.replicate n '\x01') ++ ['"']), ?_, ?_⟩
  · simp [Json.toString, Json.toFmt, valueOf, toks, Prog.ofToks, exec, Wrapper.tok, Json.stepP, Json.call, Json.jsonCaps, Low.tok,
      Low.textFragment, textFragTok, run, Res.bind, Json.step, Json.textBegin, Json.textFragment, Json.textEnd, Json.wr, Json.strWriter, Json.escapeStr_str]
  · have : ∀ n, utf8Len (Json.escape (List.replicate n '\x01')) = 6 * n := by
      intro n
      induction n with
      | zero => rfl
      | succ n ih =>
        rw [List.replicate_succ, Json.escape_cons, Json.utf8Len_append, ih]
        have : utf8Len (Json.escapeChar '\x01') = 6 := by decide +kernel
        omega
    rw [Json.utf8Len_cons, Json.utf8Len_append, this]
    have h1 : utf8Len ['"'] = 1 := rfl
    have h2 : '"'.utf8Size = 1 := rfl
    omega

/-- A string, calls in no order, and a number in text that is none: bytes, calls, and what is written. -/
example : carried anyEnv.f32 anyEnv.f64 (toks (.text none [.borrowed (t! "a\x01")])) = 2 ∧
    Json.toString anyEnv (valueOf (.text none [.borrowed (t! "a\x01")])) = some (t! "\"a\\u0001\"") := by decide +kernel
example : (Json.toFmt Json.strWriter anyEnv (jumble [.seqValueBegin, .mapKeyEnd, .textEnd, .bool true, .recordEnd {}]) []).2 =
    t! "\":\"true}" := by decide +kernel

/-! ## `sval_fmt` -/

/-- C94. Whatever code streams to `sval_fmt`. -/
theorem C94_fmt {ω : Type} (size : ω → Nat) (w : Fmt.Writer ω)
    (hw : ∀ k t o, (∀ o', w k t o = .ok o' → size o' ≤ size o + utf8Len t) ∧ ∀ e o', w k t o = .err e o' → size o' ≤ size o + utf8Len t)
    (env : Fmt.Env) (p : Prog) (o o' : ω) (ok : Bool) (h : Fmt.toWrite w env p o = .done ok o') :
    let calls := received (guarded (Fmt.call w env)) p .base (Fmt.St.new o, false)
    size o' ≤ size o + 6 * carried env.f32 env.f64 calls + 5 * calls.length := by
  have := Fmt.toWrite_grows (ν := size) (w := w) (fun k t o => ?_) env p o o' ok h
  · rw [show Fmt.cost env = fun t => 6 * t.bytes env.f32 env.f64 + 5 from rfl, carried_linear] at this
    simp only
    omega
  · cases e : w k t o with
    | panic => trivial
    | ok o' => exact (hw k t o).1 o' e
    | err x o' => exact (hw k t o).2 x o' e

/-- C94. A value streamed to a string. -/
theorem C94_fmt_value (env : Fmt.Env) (v : V) (s : Text) (h : Fmt.toString env (valueOf v) = some s) :
    utf8Len s ≤ 6 * carried env.f32 env.f64 (toks v) + 5 * (toks v).length := by
  simp only [Fmt.toString] at h
  split at h
  · rename_i o ho
    cases h
    have h1 := C94_fmt utf8Len Fmt.strWriter (fun k t o => ⟨fun o' ho => by cases ho; rw [Json.utf8Len_append]; exact Nat.le_refl _, fun e o' ho => by cases ho⟩)
      env (valueOf v) [] s true ho
    have h2 := carried_prefix env.f32 env.f64 (received_ofToks (guarded (Fmt.call Fmt.strWriter env)) (toks v) (Fmt.St.new [], false))
    simp only [show utf8Len ([] : Text) = 0 from rfl, valueOf] at h1
    omega
  · cases h

/-- Six cannot be less: `\u{7f}` is not printable. -/
example (n : Nat) (env : Fmt.Env) (h1 : env.extended '\x7f' = false) (h2 : env.printable '\x7f' = false) :
    utf8Len ((List.replicate n '\x7f').flatMap (Fmt.escapeDebug env)) = 6 * n := by
  have : utf8Len (Fmt.escapeDebug env '\x7f') = 6 := by
    have : Fmt.escapeDebug env '\x7f' = t! "\\u{7f}" := by
      simp [Fmt.escapeDebug, h1, h2, Fmt.escapeUnicode, Fmt.natHex]
      decide
    rw [this]
    decide
  induction n with
  | zero => rfl
  | succ n ih => rw [List.replicate_succ, List.flatMap_cons, Json.utf8Len_append, this, ih]; omega

/-- A record in a string. -/
example : Fmt.toString someEnv (valueOf (.record (lab (t! "R")) none [⟨none, Label.new (t! "a"), .int .i8 (-5)⟩])) = some (t! "R { a: -5 }") ∧
    carried someEnv.f32 someEnv.f64 (toks (.record (lab (t! "R")) none [⟨none, Label.new (t! "a"), .int .i8 (-5)⟩])) = 6 ∧
    (toks (.record (lab (t! "R")) none [⟨none, Label.new (t! "a"), .int .i8 (-5)⟩])).length = 5 := by decide +kernel

/-! ## `sval_buffer` -/

/-- C94. Whatever code is collected in a `ValueBuf`: there is at most one part for each call, and the parts hold no more
bytes than the calls. -/
theorem C94_buffer (f32 : UInt32 → Text) (f64 : UInt64 → Text) (alloc computed : Bool) (p : Prog) (b : Buf.St)
    (h : Buf.collect alloc computed p = .ok b) :
    let calls := received (Buf.stepB alloc) p (if computed then .computed .base else .base) ({}, false)
    b.parts.length ≤ calls.length ∧ (b.parts.map fun x => x.bytes f32 f64).sum ≤ carried f32 f64 calls := by
  have hg : Buf.stepB alloc = guarded (Buf.step alloc) := by
    funext t s
    simp only [Buf.stepB, guarded]
    split
    · rfl
    · cases Buf.step alloc t s.1 <;> rfl
  have h1 := Buf.exec_grows (f32 := f32) (f64 := f64) (a := 0) (k := 1) alloc p (if computed then .computed .base else .base) {}
  have h2 := Buf.exec_grows (f32 := f32) (f64 := f64) (a := 1) (k := 0) alloc p (if computed then .computed .base else .base) {}
  simp only [Buf.collect, hg] at h
  rw [carried_linear] at h1 h2
  rw [hg]
  simp only
  generalize received (guarded (Buf.step alloc)) p (if computed then .computed .base else .base) ({}, false) = calls at *
  generalize exec (guarded (Buf.step alloc)) p (if computed then .computed .base else .base) ({}, false) = r at *
  split at h
  · cases h
  · split at h
    · cases h
      constructor
      · simpa [Buf.weight] using h1
      · simpa [Buf.weight] using h2
    · split at h <;> cases h

/-- C94. What a `ValueBuf` gives back: at most three calls for each part, and twice the bytes it holds, or one call if it
is empty. -/
theorem C94_buffer_back (f32 : UInt32 → Text) (f64 : UInt64 → Text) (P : List Buf.Part) (hP : P ≠ []) :
    (Buf.replay P).toks.length ≤ 3 * P.length ∧
      carried f32 f64 (Buf.replay P).toks ≤ 2 * (P.map fun x => x.bytes f32 f64).sum := by
  have h1 := Buf.replayN_weight (f32 := f32) (f64 := f64) 0 1 P.length P
  have h2 := Buf.replayN_weight (f32 := f32) (f64 := f64) 1 0 P.length P
  have hl : P.length ≠ 0 := by simpa using hP
  rw [Buf.replay, if_neg hl]
  rw [carried_linear] at h1 h2
  constructor
  · simpa [Buf.weight, Nat.mul_comm] using h1
  · have : ∀ P : List Buf.Part, Buf.weight f32 f64 2 0 P = 2 * (P.map fun x => x.bytes f32 f64).sum := by
      intro P
      induction P with
      | nil => rfl
      | cons p P ih => rw [Buf.weight_cons, ih, List.map_cons, List.sum_cons]; omega
    rw [show 2 * 1 = 2 from rfl, show 3 * 0 = 0 from rfl, this] at h2
    simpa using h2

/-- Eight calls make three parts, and seven calls come back. -/
example : (match Buf.collect true false (valueOf (.seq none [.text none [.borrowed (t! "ab"), .computed (t! "c")]])) with
    | .ok b => (b.parts.length, (Buf.replay b.parts).toks.length, carried anyEnv.f32 anyEnv.f64 (Buf.replay b.parts).toks)
    | _ => (0, 0, 0)) = (3, 7, 3) := by decide +kernel

end Sval
