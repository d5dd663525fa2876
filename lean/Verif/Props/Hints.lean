import Verif.Core.Alike
import Verif.Json.Io
import Verif.Json.Run
import Verif.Buffer.Model
import Verif.Fmt.Formatter
import Verif.Props.Serde
import Verif.Props.Fmt
import Verif.Props.Json

set_option autoImplicit false

/-!
# C91: what receivers do not look at

For arbitrary code, not only for values that stream a tree: two pieces of code that make the same
calls up to what a receiver does not look at cannot be told apart by it, whatever the writer does.
-/

namespace Sval

open Json (ixI64)

/-! ## Specification: what is looked at -/

/-- The tags that mean something to `sval_json`. -/
def Json.seenTag (t : Option Tag) : Option Tag :=
  if t ∈ [some tags.RUST_OPTION_NONE, some tags.NUMBER, some tags.JSON_TEXT, some tags.JSON_VALUE, some tags.JSON_NUMBER]
  then t else none

/-- The text of the label, or else the index if it is an `i64`. -/
def Json.seenMeta (m : Meta) : Meta where
  tag := seenTag m.tag
  label := m.label.map fun l => { text := l.text }
  index := if m.label.isSome then none else m.index.bind fun i => if IntTy.i64.fits i.val then some { val := i.val } else none

/-- What `sval_json` looks at in a call. Not: size hints; the width of an integer; whether data is lent for good;
where a label is stored; tags and indexes of fields; any other tag; a tag hint; whether a record is also a tuple. -/
def Json.seen : Token → Token
  | .int _ v => .int .i128 v
  | .textBegin _ => .textBegin none
  | .textFragment s => .textFragmentComputed s
  | .binaryBegin _ => .seqBegin none
  | .binaryFragment s => .binaryFragmentComputed s
  | .binaryEnd => .seqEnd
  | .mapBegin _ => .mapBegin none
  | .mapValueBegin => .seqValueEnd
  | .mapValueEnd => .seqValueEnd
  | .seqBegin _ => .seqBegin none
  | .enumBegin m => .enumBegin (seenMeta m)
  | .enumEnd m => .enumEnd (seenMeta m)
  | .taggedBegin m => .taggedBegin (seenMeta m)
  | .taggedEnd m => .taggedEnd (seenMeta m)
  | .tag m => .tag (seenMeta m)
  | .tagHint _ => .seqValueEnd
  | .recordBegin m _ => .recordBegin (seenMeta m) none
  | .recordValueBegin _ l =>
    .recordValueBegin none { text := l.text, tag := if l.tag = some tags.VALUE_IDENT then l.tag else none }
  | .recordValueEnd _ _ => .seqValueEnd
  | .recordEnd m => .recordEnd (seenMeta m)
  | .tupleBegin m _ => .tupleBegin (seenMeta m) none
  | .tupleValueBegin _ _ => .seqValueBegin
  | .tupleValueEnd _ _ => .seqValueEnd
  | .tupleEnd m => .tupleEnd (seenMeta m)
  | .recordTupleBegin m _ => .recordBegin (seenMeta m) none
  | .recordTupleValueBegin _ l _ =>
    .recordValueBegin none { text := l.text, tag := if l.tag = some tags.VALUE_IDENT then l.tag else none }
  | .recordTupleValueEnd _ _ _ => .seqValueEnd
  | .recordTupleEnd m => .recordEnd (seenMeta m)
  | t => t

/-- The text of the label, and whether it is a number. -/
def Fmt.seenMeta (m : Meta) : Meta where
  tag := if m.tag = some tags.NUMBER then m.tag else none
  label := m.label.map fun l => { text := l.text }

/-- The text of the label. -/
def Fmt.seenLabel (m : Meta) : Meta where
  label := m.label.map fun l => { text := l.text }

/-- What `sval_fmt` looks at in a call. Not: size hints; whether data is lent for good; where a label is stored; any
index; the tags and indexes of fields; any tag but that of numbers; what is repeated at the end of a record or tuple;
tag hints; whether a record is also a tuple. -/
def Fmt.seen : Token → Token
  | .textBegin _ => .textBegin none
  | .textFragment s => .textFragmentComputed s
  | .binaryBegin _ => .seqBegin none
  | .binaryFragment s => .binaryFragmentComputed s
  | .mapBegin _ => .mapBegin none
  | .mapValueEnd => .seqValueEnd
  | .seqBegin _ => .seqBegin none
  | .enumBegin _ => .enumBegin {}
  | .enumEnd m => .enumEnd (seenLabel m)
  | .taggedBegin m => .taggedBegin (seenMeta m)
  | .taggedEnd m => .taggedEnd { seenMeta m with label := m.label.map fun _ => { text := [] } }
  | .tag m => .tag (seenLabel m)
  | .tagHint _ => .mapValueBegin
  | .recordBegin m _ => .recordBegin (seenLabel m) none
  | .recordValueBegin _ l => .recordValueBegin none { text := l.text }
  | .recordValueEnd _ _ => .seqValueEnd
  | .recordEnd _ => .recordEnd {}
  | .tupleBegin m _ => .tupleBegin (seenLabel m) none
  | .tupleValueBegin _ _ => .tupleValueBegin none { val := 0 }
  | .tupleValueEnd _ _ => .seqValueEnd
  | .tupleEnd _ => .tupleEnd {}
  | .recordTupleBegin m _ => .recordBegin (seenLabel m) none
  | .recordTupleValueBegin _ l _ => .recordValueBegin none { text := l.text }
  | .recordTupleValueEnd _ _ _ => .seqValueEnd
  | .recordTupleEnd _ => .recordEnd {}
  | t => t

/-- What formatting with `{}` looks at: not even the width of an integer. -/
def Fmt.seenD : Token → Token
  | .int _ v => .int .i128 v
  | t => seen t

/-! ## JSON -/

namespace Json

theorem ix_seen (m : Meta) (h : m.label = none) : ixI64 (seenMeta m).index = ixI64 m.index := by
  unfold seenMeta ixI64
  simp only [h, Option.isSome_none, Bool.false_eq_true, if_false]
  cases m.index with
  | none => rfl
  | some i =>
    have h1 : ixI64 (some i) = if -2 ^ 63 ≤ i.val ∧ i.val ≤ 2 ^ 63 - 1 then some i.val else none := ixI64_eq (some i)
    have h2 : ∀ v : Int, ixI64 (some { val := v }) = if -2 ^ 63 ≤ v ∧ v ≤ 2 ^ 63 - 1 then some v else none :=
      fun v => ixI64_eq (some { val := v })
    have h3 : (IntTy.i64.fits i.val = true) = (-2 ^ 63 ≤ i.val ∧ i.val ≤ 2 ^ 63 - 1) := propext (IntTy.fits_iff _ _)
    show ixI64 (if IntTy.i64.fits i.val = true then some { val := i.val } else none) = ixI64 (some i)
    rw [h1]
    simp only [h3]
    split
    · rw [h2]; rename_i h; rw [if_pos h]
    · rfl

theorem seen_tag (m : Meta) (t : Tag) (ht : some t ∈ [some tags.RUST_OPTION_NONE, some tags.NUMBER, some tags.JSON_TEXT, some tags.JSON_VALUE, some tags.JSON_NUMBER]) :
    ((seenMeta m).tag = some t) = (m.tag = some t) := by
  simp only [seenMeta, seenTag]
  split
  · rfl
  · rename_i h
    simp only [reduceCtorEq, eq_iff_iff, false_iff]
    exact fun e => h (e ▸ ht)

theorem label_seen (m : Meta) : (seenMeta m).label = m.label.map fun l => { text := l.text } := rfl

section
variable {ω : Type} (w : Writer ω)

theorem tagBegin_seen (m : Meta) : tagBegin w (seenMeta m) = tagBegin w m := by
  funext s
  simp only [tagBegin, label_seen]
  cases h : m.label with
  | none => simp only [Option.map_none, ix_seen m h]
  | some l => rfl

theorem tagEnd_seen (m : Meta) : (tagEnd (ω := ω) (seenMeta m)) = tagEnd m := by
  funext s
  simp only [tagEnd, label_seen]
  cases h : m.label with
  | none => simp only [Option.map_none, ix_seen m h]
  | some l => rfl

theorem tagStep_seen (m : Meta) : tagStep w (seenMeta m) = tagStep w m := by
  funext s
  simp only [tagStep, label_seen, seen_tag m tags.RUST_OPTION_NONE (by simp)]
  cases h : m.label with
  | none => simp only [Option.map_none, ix_seen m h]
  | some l => rfl

theorem taggedBegin_seen (m : Meta) : taggedBegin w (seenMeta m) = taggedBegin w m := by
  funext s
  simp only [taggedBegin, tagBegin_seen, seen_tag m tags.JSON_TEXT (by simp), seen_tag m tags.JSON_VALUE (by simp),
    seen_tag m tags.NUMBER (by simp), seen_tag m tags.JSON_NUMBER (by simp)]

theorem taggedEnd_seen (m : Meta) : taggedEnd w (seenMeta m) = taggedEnd w m := by
  funext s
  simp only [taggedEnd, tagEnd_seen, tagStep_seen, seen_tag m tags.JSON_TEXT (by simp), seen_tag m tags.JSON_VALUE (by simp),
    seen_tag m tags.NUMBER (by simp), seen_tag m tags.JSON_NUMBER (by simp)]

theorem recordValueBegin_seen (l : Label) :
    recordValueBegin w { text := l.text, tag := if l.tag = some tags.VALUE_IDENT then l.tag else none } = recordValueBegin w l := by
  funext s
  simp only [recordValueBegin]
  by_cases h : l.tag = some tags.VALUE_IDENT
  · simp only [h, if_true]
  · simp only [h, if_false, reduceCtorEq]

theorem call_seen (env : Env) (t : Token) : call w env (seen t) = call w env t := by
  funext s
  cases t <;> try rfl
  case int t v => cases t <;> rfl
  case enumBegin m =>
    show run (step w env) [.enumBegin (seenMeta m)] s = run (step w env) [.enumBegin m] s
    simp only [run_cons, step, enumBegin, tagBegin_seen]
  case enumEnd m =>
    show run (step w env) [.enumEnd (seenMeta m)] s = run (step w env) [.enumEnd m] s
    simp only [run_cons, step, enumEnd, tagEnd_seen, tagStep_seen]
  case taggedBegin m =>
    show run (step w env) [.taggedBegin (seenMeta m)] s = run (step w env) [.taggedBegin m] s
    simp only [run_cons, step, taggedBegin_seen]
  case taggedEnd m =>
    show run (step w env) [.taggedEnd (seenMeta m)] s = run (step w env) [.taggedEnd m] s
    simp only [run_cons, step, taggedEnd_seen]
  case tag m =>
    show run (step w env) [.tag (seenMeta m)] s = run (step w env) [.tag m] s
    simp only [run_cons, step, tagStep_seen]
  case recordBegin m n =>
    show run (step w env) [.recordBegin (seenMeta m) none] s = run (step w env) [.recordBegin m n] s
    simp only [run_cons, step, tagBegin_seen]
  case recordTupleBegin m n =>
    show run (step w env) [.recordBegin (seenMeta m) none] s = run (step w env) [.recordBegin m n] s
    simp only [run_cons, step, tagBegin_seen]
  case recordEnd m =>
    show run (step w env) [.recordEnd (seenMeta m)] s = run (step w env) [.recordEnd m] s
    simp only [run_cons, step, tagEnd_seen]
  case recordTupleEnd m =>
    show run (step w env) [.recordEnd (seenMeta m)] s = run (step w env) [.recordEnd m] s
    simp only [run_cons, step, tagEnd_seen]
  case tupleBegin m n =>
    show run (step w env) [.tupleBegin (seenMeta m) none] s = run (step w env) [.tupleBegin m n] s
    simp only [run_cons, step, tagBegin_seen]
  case tupleEnd m =>
    show run (step w env) [.tupleEnd (seenMeta m)] s = run (step w env) [.tupleEnd m] s
    simp only [run_cons, step, tagEnd_seen]
  case recordValueBegin t l =>
    show run (step w env) [.recordValueBegin none _] s = run (step w env) [.recordValueBegin t l] s
    simp only [run_cons, step, recordValueBegin_seen]
  case recordTupleValueBegin t l i =>
    show run (step w env) [.recordValueBegin none _] s = run (step w env) [.recordValueBegin t l] s
    simp only [run_cons, step, recordValueBegin_seen]

theorem seen_computed (t u : Token) (h : seen t = seen u) : seen (computedTok t) = seen (computedTok u) := by
  have : ∀ t, seen (computedTok t) = seen t := by intro t; cases t <;> rfl
  rw [this, this, h]

end
end Json

/-- **C91 for JSON**: whatever the code and the writer do, the outcome and what was written depend on nothing else
than what `Json.seen` keeps of each call. -/
theorem C91_json {ω : Type} (w : Json.Writer ω) (env : Json.Env) (p q : Prog) (h : Prog.Alike Json.seen p q) (o : ω) :
    Json.toFmt w env p o = Json.toFmt w env q o := by
  have : exec (Json.stepP w env) p .base ({ out := o }, false) = exec (Json.stepP w env) q .base ({ out := o }, false) := by
    refine exec_alike _ (fun t u htu => ?_) Json.seen_computed h _ _
    funext s
    have e : Json.call w env t = Json.call w env u := by rw [← Json.call_seen w env t, htu, Json.call_seen]
    simp only [Json.stepP, e]
  simp only [Json.toFmt, this]

theorem C91_json_text (env : Json.Env) (p q : Prog) (h : Prog.Alike Json.seen p q) (answers : List Json.Ans) :
    Json.toString env p = Json.toString env q ∧ Json.toVec env p = Json.toVec env q ∧
      Json.toIo env p answers = Json.toIo env q answers := by
  simp only [Json.toString, Json.toVec, Json.toIo, C91_json _ env p q h, and_self]

/-! ## Formatting -/

namespace Fmt

theorem call_seen {ω : Type} (w : Writer ω) (env : Env) (t : Token) : call w env (seenD t) = call w env t := by
  funext s
  cases t <;> try rfl
  case int t v => cases t <;> rfl
  case taggedBegin m =>
    show run (step w env) [.taggedBegin (seenMeta m)] s = run (step w env) [.taggedBegin m] s
    rcases m with ⟨t, l, i⟩
    by_cases h : t = some tags.NUMBER
    · subst h; cases l <;> rfl
    · simp only [run_cons, step, seenMeta, h, if_false, reduceCtorEq, decide_false]
      cases l <;> rfl
  case taggedEnd m =>
    show run (step w env) [.taggedEnd _] s = run (step w env) [.taggedEnd m] s
    rcases m with ⟨t, l, i⟩
    by_cases h : t = some tags.NUMBER
    · subst h; cases l <;> rfl
    · simp only [run_cons, step, seenMeta, h, if_false, reduceCtorEq, decide_false]
      cases l <;> rfl
  case enumEnd m | tag m =>
    rcases m with ⟨t, l, i⟩
    cases l <;> rfl
  case recordBegin m n | tupleBegin m n | recordTupleBegin m n =>
    rcases m with ⟨t, l, i⟩
    cases l <;> rfl

theorem callW_seen {ω : Type} (inv : Call → ω → Res Unit ω) (t : Token) : callW inv (seen t) = callW inv t := by
  funext s
  cases t <;> try rfl
  case taggedBegin m =>
    show run (stepCall inv) [.taggedBegin (seenMeta m)] s = run (stepCall inv) [.taggedBegin m] s
    rcases m with ⟨t, l, i⟩
    by_cases h : t = some tags.NUMBER
    · subst h; cases l <;> rfl
    · simp only [run_cons, stepCall, seenMeta, h, if_false, reduceCtorEq, decide_false]
      cases l <;> rfl
  case taggedEnd m =>
    show run (stepCall inv) [.taggedEnd _] s = run (stepCall inv) [.taggedEnd m] s
    rcases m with ⟨t, l, i⟩
    by_cases h : t = some tags.NUMBER
    · subst h; cases l <;> rfl
    · simp only [run_cons, stepCall, seenMeta, h, if_false, reduceCtorEq, decide_false]
      cases l <;> rfl
  case enumEnd m | tag m =>
    rcases m with ⟨t, l, i⟩
    cases l <;> rfl
  case recordBegin m n | tupleBegin m n | recordTupleBegin m n =>
    rcases m with ⟨t, l, i⟩
    cases l <;> rfl

theorem seen_computed (t u : Token) (h : seen t = seen u) : seen (computedTok t) = seen (computedTok u) := by
  have : ∀ t, seen (computedTok t) = seen t := by intro t; cases t <;> rfl
  rw [this, this, h]

theorem seenD_computed (t u : Token) (h : seenD t = seenD u) : seenD (computedTok t) = seenD (computedTok u) := by
  have : ∀ t, seenD (computedTok t) = seenD t := by intro t; cases t <;> rfl
  rw [this, this, h]

/-- A writer that writes all widths of integers alike. -/
theorem callW_seenD {ω : Type} (inv : Call → ω → Res Unit ω) (h : ∀ a b v, inv (.int a v) = inv (.int b v)) (t : Token) :
    callW inv (seenD t) = callW inv t := by
  have ht : (∃ a v, t = .int a v) ∨ seenD t = seen t := by cases t <;> simp [seenD]
  rcases ht with ⟨t, v, rfl⟩ | ht
  swap
  · rw [ht, callW_seen]
  · funext s
    have e : ∀ t, callW inv (.int t v) s = run (stepCall inv) [.int t v] s := by intro t; cases t <;> rfl
    show callW inv (.int .i128 v) s = _
    rw [e, e]
    simp only [run_cons, stepCall, h .i128 t v]

end Fmt

/-- **C91 for formatting**, to writers of text: `stream_to_write`, `ToFmt`'s `Display`, `stream_to_string`. -/
theorem C91_fmt {ω : Type} (w : Fmt.Writer ω) (env : Fmt.Env) (p q : Prog) (h : Prog.Alike Fmt.seenD p q) (o : ω) :
    Fmt.toWrite w env p o = Fmt.toWrite w env q o ∧ Fmt.display w env p o = Fmt.display w env q o ∧
      Fmt.toString env p = Fmt.toString env q := by
  have e : ∀ {υ : Type} (x : Fmt.Writer υ) (o : υ), Fmt.toWrite x env p o = Fmt.toWrite x env q o := by
    intro υ x o
    simp only [Fmt.toWrite]
    rw [drive_alike (Fmt.call x env) (fun t u htu => ?_) Fmt.seenD_computed h]
    rw [← Fmt.call_seen x env t, htu, Fmt.call_seen]
  simp only [Fmt.display, Fmt.toString, e, and_self]

/-- **C91 for formatting**, to any `TokenWrite`, which sees how wide integers are. -/
theorem C91_fmt_token {ω : Type} (W : Fmt.Impl ω) (env : Fmt.Env) (p q : Prog) (h : Prog.Alike Fmt.seen p q) (o : ω) :
    Fmt.toTokenWrite W env p o = Fmt.toTokenWrite W env q o := by
  simp only [Fmt.toTokenWrite, Fmt.streamTo]
  rw [drive_alike (Fmt.callW (Fmt.invoke W env)) (fun t u htu => ?_) Fmt.seen_computed h]
  rw [← Fmt.callW_seen _ t, htu, Fmt.callW_seen]

/-- **C91 for formatting**, with any options of a `Formatter`. -/
theorem C91_fmt_options {ω : Type} (opts : Fmt.Opts) (fl : Fmt.Floats) (str : Text → ω → Res Unit ω) (env : Fmt.Env)
    (p q : Prog) (h : Prog.Alike Fmt.seenD p q) (o : ω) :
    Fmt.toFmt opts fl str env p o = Fmt.toFmt opts fl str env q o ∧
      Fmt.displayWith opts fl str env p o = Fmt.displayWith opts fl str env q o ∧
      Fmt.format opts fl env p = Fmt.format opts fl env q := by
  have e : ∀ {υ : Type} (str : Text → υ → Res Unit υ) (o : υ), Fmt.toFmt opts fl str env p o = Fmt.toFmt opts fl str env q o := by
    intro υ str o
    simp only [Fmt.toFmt, Fmt.toTokenWrite, Fmt.streamTo]
    have hi : ∀ a b v, Fmt.invoke (Fmt.byRef (Fmt.formatter opts fl str) env) env (.int a v) =
        Fmt.invoke (Fmt.byRef (Fmt.formatter opts fl str) env) env (.int b v) := by
      intro a b v
      funext o
      simp only [Fmt.invoke_eq, Fmt.byRef, Fmt.formatter]
    rw [drive_alike (Fmt.callW _) (fun t u htu => ?_) Fmt.seenD_computed h]
    rw [← Fmt.callW_seenD _ hi t, htu, Fmt.callW_seenD _ hi]
  simp only [Fmt.displayWith, Fmt.format, e, and_self]

/-- **C91 for formatting**, to a `fmt::Write` put behind `GenericWriter`: how wide an integer is
makes no difference. -/
theorem C91_fmt_generic {ω : Type} (str : Text → ω → Res Unit ω) (env : Fmt.Env) (p q : Prog)
    (h : Prog.Alike Fmt.seenD p q) (o : ω) :
    Fmt.toTokenWrite (Fmt.generic env str) env p o = Fmt.toTokenWrite (Fmt.generic env str) env q o := by
  simp only [Fmt.toTokenWrite, Fmt.streamTo]
  have hi : ∀ a b v, Fmt.invoke (Fmt.generic env str) env (.int a v) = Fmt.invoke (Fmt.generic env str) env (.int b v) := by
    intro a b v
    funext o
    simp only [Fmt.invoke_eq, Fmt.generic]
  rw [drive_alike (Fmt.callW _) (fun t u htu => ?_) Fmt.seenD_computed h]
  rw [← Fmt.callW_seenD _ hi t, htu, Fmt.callW_seenD _ hi]

/-! ## Extracting -/

/-- **C91 for `to_bool` and so on**: no size hint changes what is extracted. -/
theorem C91_extract (p q : Prog) (h : Prog.Alike Token.unhint p q) : Extracts.default p = Extracts.default q := by
  have tag : Ext.tag p = Ext.tag q := by
    have : exec Ext.tagStep p .base {} = exec Ext.tagStep q .base {} := by
      refine exec_alike _ (fun t u htu => ?_) Token.unhint_computed h _ _
      have e : ∀ t, Ext.tagStep t.unhint = Ext.tagStep t := by intro t; funext s; cases t <;> rfl
      rw [← e t, htu, e]
    simp only [Ext.tag, this]
  have i128 : Ext.toI128 p = Ext.toI128 q := by
    simp only [Ext.toI128]
    rw [extract_unhint _ _ (fun t => by funext s; cases t <;> rfl) _ h]
  have u128 : Ext.toU128 p = Ext.toU128 q := by
    simp only [Ext.toU128]
    rw [extract_unhint _ _ (fun t => by funext s; cases t <;> rfl) _ h]
  simp only [Extracts.default, tag, Ext.toBool, Ext.toF32, Ext.toF64, Ext.toInt, i128, u128, Ext.toText, Ext.toBinary]
  rw [extract_unhint _ Ext.boolStep (fun t => by funext s; cases t <;> rfl) _ h,
    extract_unhint _ Ext.f32Step (fun t => by funext s; cases t <;> rfl) _ h,
    extract_unhint _ Ext.f64Step (fun t => by funext s; cases t <;> rfl) _ h,
    extract_unhint _ Ext.textStep (fun t => by funext s; cases t <;> rfl) _ h,
    extract_unhint _ Ext.binaryStep (fun t => by funext s; cases t <;> rfl) _ h]

/-! ## Buffers -/

namespace Buf

/-- A part without its size hint. -/
def Opener.unhint : Opener → Opener
  | .map _ => .map none
  | .seq _ => .seq none
  | .record m _ => .record m none
  | .tuple m _ => .tuple m none
  | .recordTuple m _ => .recordTuple m none
  | o => o

def Part.unhint : Part → Part
  | .opened o len => .opened o.unhint len
  | p => p

/-- A buffer, but for the size hints it keeps. -/
def St.unhint (s : St) : St := { s with parts := s.parts.map Part.unhint }

def over (f : St → St) : Res Err St → Res Err St
  | .ok s => .ok (f s)
  | .err e s => .err e (f s)
  | .panic => .panic

section
variable (alloc : Bool)

theorem fail_unhint (e : Err) (s : St) : fail e s.unhint = over St.unhint (fail e s) := rfl

theorem pushKind_unhint (k : Part) (s : St) :
    pushKind alloc k.unhint s.unhint = over St.unhint (pushKind alloc k s) := by
  simp only [pushKind, St.unhint, List.length_map]
  split
  · simp only [over, St.unhint, List.map_append, List.map_cons, List.map_nil]
  · rfl

theorem pushBegin_unhint (o : Opener) (s : St) :
    pushBegin alloc o.unhint s.unhint = over St.unhint (pushBegin alloc o s) := by
  simp only [pushBegin]
  have h1 : s.unhint.stack = s.stack := rfl
  have h2 : s.unhint.parts.length = s.parts.length := by simp [St.unhint]
  rw [h1, h2]
  split
  · exact pushKind_unhint alloc (.opened o 0) { s with stack := s.parts.length :: s.stack }
  · rfl

theorem pushEnd_unhint (s : St) : pushEnd s.unhint = over St.unhint (pushEnd s) := by
  rcases s with ⟨parts, stack, t, e⟩
  cases stack with
  | nil => rfl
  | cons i stack =>
    simp only [pushEnd, St.unhint, List.length_map, List.getElem?_map]
    split
    · rfl
    · cases h : parts[i]? with
      | none => rfl
      | some p =>
        cases p <;> try rfl
        simp only [Option.map_some, Part.unhint, over, St.unhint, List.map_set]

theorem setLast_unhint (s : St) (k : Part) : setLast s.unhint k.unhint = (setLast s k).unhint := by
  simp only [setLast, St.unhint, List.length_map, List.map_set]

theorem textPush_unhint (f : Cow Char → Except Err (Cow Char)) (s : St) :
    textPush f s.unhint = over St.unhint (textPush f s) := by
  simp only [textPush]
  have h : s.unhint.parts.getLast? = s.parts.getLast?.map Part.unhint := by simp [St.unhint]
  rw [h]
  cases s.parts.getLast? with
  | none => rfl
  | some p =>
    cases p <;> try rfl
    case text c =>
      simp only [Option.map_some, Part.unhint]
      cases f c with
      | ok c => exact congrArg Res.ok (setLast_unhint s (.text c))
      | error e => rfl

theorem binaryPush_unhint (f : Cow UInt8 → Except Err (Cow UInt8)) (s : St) :
    binaryPush f s.unhint = over St.unhint (binaryPush f s) := by
  simp only [binaryPush]
  have h : s.unhint.parts.getLast? = s.parts.getLast?.map Part.unhint := by simp [St.unhint]
  rw [h]
  cases s.parts.getLast? with
  | none => rfl
  | some p =>
    cases p <;> try rfl
    case binary c =>
      simp only [Option.map_some, Part.unhint]
      cases f c with
      | ok c => exact congrArg Res.ok (setLast_unhint s (.binary c))
      | error e => rfl

theorem beginMeta_unhint (m : Meta) (o o' : Meta → Opener) (h : ∀ m, o' m = (o m).unhint) (s : St) :
    beginMeta alloc m o' s.unhint = over St.unhint (beginMeta alloc m o s) := by
  simp only [beginMeta]
  cases ownMeta alloc m with
  | none => rfl
  | some m => simp only [h]; exact pushBegin_unhint alloc (o m) s

theorem beginLabel_unhint (l : Label) (o o' : Label → Opener) (h : ∀ m, o' m = (o m).unhint) (s : St) :
    beginLabel alloc l o' s.unhint = over St.unhint (beginLabel alloc l o s) := by
  simp only [beginLabel]
  cases ownLabel alloc l with
  | none => rfl
  | some m => simp only [h]; exact pushBegin_unhint alloc (o m) s

/-- A buffer does the same with and without size hints, but for keeping them. -/
theorem step_unhint (t : Token) (s : St) : step alloc t.unhint s.unhint = over St.unhint (step alloc t s) := by
  cases t <;> simp only [step, Token.unhint]
  case null => exact pushKind_unhint alloc .null s
  case bool b => exact pushKind_unhint alloc (.bool b) s
  case int t v => exact pushKind_unhint alloc (.int t v) s
  case f32 b => exact pushKind_unhint alloc (.f32 b) s
  case f64 b => exact pushKind_unhint alloc (.f64 b) s
  case textBegin n => exact pushKind_unhint alloc (.text .new) { s with inText := true }
  case textFragment f => exact textPush_unhint _ s
  case textFragmentComputed f => exact textPush_unhint _ s
  case textEnd => rfl
  case binaryBegin n => exact pushKind_unhint alloc (.binary .new) { s with inText := true }
  case binaryFragment f => exact binaryPush_unhint _ s
  case binaryFragmentComputed f => exact binaryPush_unhint _ s
  case binaryEnd => rfl
  case mapBegin n => exact pushBegin_unhint alloc (.map n) s
  case mapKeyBegin => exact pushBegin_unhint alloc .mapKey s
  case mapValueBegin => exact pushBegin_unhint alloc .mapValue s
  case seqBegin n => exact pushBegin_unhint alloc (.seq n) s
  case seqValueBegin => exact pushBegin_unhint alloc .seqValue s
  case tag m =>
    cases ownMeta alloc m with
    | none => rfl
    | some m => exact pushKind_unhint alloc (.tag m) s
  case tagHint t => exact pushKind_unhint alloc (.tagHint t) s
  case tupleValueBegin t i => exact pushBegin_unhint alloc (.tupleValue t i) s
  case recordValueBegin t l => exact beginLabel_unhint alloc l (.recordValue t ·) _ (fun _ => rfl) s
  case recordTupleValueBegin t l i => exact beginLabel_unhint alloc l (.recordTupleValue t · i) _ (fun _ => rfl) s
  case enumBegin m => exact beginMeta_unhint alloc m .enum _ (fun _ => rfl) s
  case taggedBegin m => exact beginMeta_unhint alloc m .tagged _ (fun _ => rfl) s
  case recordBegin m n => exact beginMeta_unhint alloc m (.record · n) _ (fun _ => rfl) s
  case tupleBegin m n => exact beginMeta_unhint alloc m (.tuple · n) _ (fun _ => rfl) s
  case recordTupleBegin m n => exact beginMeta_unhint alloc m (.recordTuple · n) _ (fun _ => rfl) s
  all_goals exact pushEnd_unhint s

end

/-- How collecting ends, but for the hints. -/
def Collected.unhint : Collected → Collected
  | .ok s => .ok s.unhint
  | .err e => .err e
  | .panic => .panic

theorem begin_unhint (o : Opener) : o.unhint.begin = o.begin.unhint ∧ o.unhint.end = o.end := by cases o <;> exact ⟨rfl, rfl⟩

/-- Calls without hints. -/
def Out.unhint (o : Out) : Out := { o with toks := unhints o.toks }

theorem Out.then_unhint (a b : Out) : (a.then b).unhint = a.unhint.then b.unhint := by
  rcases a with ⟨x, b'⟩
  cases b'
  · simp [Out.then, Out.unhint, unhints]
  · rfl

theorem replayN_unhint (n : Nat) (parts : List Part) : (replayN n (parts.map Part.unhint)).unhint = (replayN n parts).unhint := by
  induction n generalizing parts with
  | zero => rfl
  | succ n ih =>
    cases parts with
    | nil => rfl
    | cons p rest =>
      cases p
      case opened o len =>
        simp only [List.map_cons, Part.unhint, replayN, List.length_map]
        split
        · rfl
        · simp only [Out.then_unhint, ← List.map_take, ← List.map_drop, ih, (begin_unhint o).1, (begin_unhint o).2]
          congr 3
          simp only [Out.unhint, unhints, List.map_cons, List.map_nil]
          cases o <;> rfl
      all_goals simp only [List.map_cons, Part.unhint, replayN, Out.then_unhint, ih]

end Buf

/-- **C91 for buffers**: collecting ends the same, and what the buffers hold differs in size hints only. -/
theorem C91_collect (alloc computed : Bool) (p q : Prog) (h : Prog.Alike Token.unhint p q) :
    (Buf.collect alloc computed p).unhint = (Buf.collect alloc computed q).unhint := by
  have : (fun r r' : (Buf.St × Bool) × Bool => r.1.1.unhint = r'.1.1.unhint ∧ r.1.2 = r'.1.2 ∧ r.2 = r'.2)
      (exec (Buf.stepB alloc) p (if computed then .computed .base else .base) ({}, false))
      (exec (Buf.stepB alloc) q (if computed then .computed .base else .base) ({}, false)) := by
    have := exec_alike_rel (e := Token.unhint) (R := fun s s' : Buf.St × Bool => s.1.unhint = s'.1.unhint ∧ s.2 = s'.2)
      (Buf.stepB alloc) (Buf.stepB alloc) (fun t u s s' htu hs => ?_) Token.unhint_computed h
      (if computed then .computed .base else .base) ({}, false) ({}, false) ⟨rfl, rfl⟩
    · exact ⟨this.1.1, this.1.2, this.2⟩
    · rcases s with ⟨s, b⟩
      rcases s' with ⟨s', b'⟩
      obtain ⟨hs, hb⟩ := hs
      dsimp only at hs hb
      subst hb
      cases b with
      | true => exact ⟨⟨hs, rfl⟩, rfl⟩
      | false =>
        have e := Buf.step_unhint alloc t s
        rw [htu, hs, Buf.step_unhint] at e
        simp only [Buf.stepB, Bool.false_eq_true, if_false]
        cases h1 : Buf.step alloc t s <;> cases h2 : Buf.step alloc u s' <;>
          simp only [h1, h2, Buf.over, Res.ok.injEq, Res.err.injEq, reduceCtorEq] at e
        · exact ⟨⟨e.symm, rfl⟩, rfl⟩
        · exact ⟨⟨e.2.symm, rfl⟩, rfl⟩
        · exact ⟨⟨hs, rfl⟩, rfl⟩
  obtain ⟨h1, h2, h3⟩ := this
  simp only [Buf.collect]
  revert h1 h2 h3
  generalize exec (Buf.stepB alloc) p _ ({}, false) = r
  generalize exec (Buf.stepB alloc) q _ ({}, false) = r'
  rcases r with ⟨⟨s, b⟩, ok⟩
  rcases r' with ⟨⟨s', b'⟩, ok'⟩
  dsimp only
  intro h1 h2 h3
  subst h2 h3
  cases b with
  | true => rfl
  | false => cases ok with
    | true => exact congrArg Buf.Collected.ok h1
    | false =>
      have h4 : s.unhint.err = s'.unhint.err := congrArg Buf.St.err h1
      change s.err = s'.err at h4
      simp only [Bool.false_eq_true, if_false, h4]

/-- **C91 for buffers**: buffers that differ in size hints only are shown with the same calls up to hints. -/
theorem C91_replay (s s' : Buf.St) (h : s.unhint = s'.unhint) : (Buf.replay s.parts).unhint = (Buf.replay s'.parts).unhint := by
  have hp : s.parts.map Buf.Part.unhint = s'.parts.map Buf.Part.unhint := congrArg Buf.St.parts h
  have hl : s.parts.length = s'.parts.length := by simpa using congrArg List.length hp
  simp only [Buf.replay, hl]
  split
  · rfl
  · rw [← Buf.replayN_unhint, hp, Buf.replayN_unhint]

/-! ## Serde -/

/-- What `sval_serde` makes of a pair without a size: an error. -/
theorem C91_not_serde :
    Prog.Alike Token.unhint (valueOf (.tuple {} (some 1) [(none, { val := 0 }, .null)]))
        (valueOf (.tuple {} none [(none, { val := 0 }, .null)])) ∧
      Serde.serialize () countCalls 9 (valueOf (.tuple {} (some 1) [(none, { val := 0 }, .null)])) 0 = .ok 4 ∧
      ∀ d, ∃ n, Serde.serialize () countCalls (d + 9) (valueOf (.tuple {} none [(none, { val := 0 }, .null)])) 0 = .err () n := by
  refine ⟨Prog.Alike.ofToks _ _ _ rfl, rfl, fun d => ⟨0, rfl⟩⟩

/-! ## Examples -/

namespace HintsExample

/-- Code that looks at answers and goes on after an error: a sequence of two, said to have none, whose second element is
refused as a key and then replaced. -/
def careless (n : Option Nat) (frag : Text → Token) (t : IntTy) (backing : Backing) (tag : Option Tag) : Prog :=
  .call (.recordTupleBegin { label := some { text := t! "R", backing } } n) fun _ =>
  .call (.recordTupleValueBegin tag { text := t! "a\"", backing } { val := 7 }) fun _ =>
  .call (.textBegin n) fun _ =>
  .valueComputed (.call (frag (t! "x")) .ret) fun ok =>
  if ok then
    .call .textEnd fun _ =>
    .call (.recordTupleValueEnd tag { text := t! "a\"", backing } { val := 7 }) fun _ =>
    .call (.recordTupleValueBegin tag { text := t! "b", backing } { val := 8 }) fun _ =>
    .call (.int t 5) fun _ =>
    .call (.recordTupleValueEnd tag { text := t! "b", backing } { val := 8 }) fun _ =>
    .call (.recordTupleEnd { label := some { text := t! "R", backing } }) .ret
  else .ret false

/-- The same as a plain record, without hints, of computed data. -/
def plain : Prog :=
  .call (.recordBegin { label := some { text := t! "R" } } none) fun _ =>
  .call (.recordValueBegin none { text := t! "a\"" }) fun _ =>
  .call (.textBegin none) fun _ =>
  .valueComputed (.call (.textFragmentComputed (t! "x")) .ret) fun ok =>
  if ok then
    .call .textEnd fun _ =>
    .call (.recordValueEnd none { text := t! "a\"" }) fun _ =>
    .call (.recordValueBegin none { text := t! "b" }) fun _ =>
    .call (.int .i64 5) fun _ =>
    .call (.recordValueEnd none { text := t! "b" }) fun _ =>
    .call (.recordEnd { label := some { text := t! "R" } }) .ret
  else .ret false

theorem alike_json (n : Option Nat) (t : IntTy) (b : Backing) (tag : Option Tag) :
    Prog.Alike Json.seen (careless n .textFragment t b tag) plain := by
  refine .call _ _ _ _ rfl fun _ => .call _ _ _ _ rfl fun _ => .call _ _ _ _ rfl fun _ =>
    .valueComputed _ _ _ _ (.call _ _ _ _ rfl .ret) fun ok => ?_
  cases ok with
  | false => exact .ret false
  | true =>
    exact .call _ _ _ _ rfl fun _ => .call _ _ _ _ rfl fun _ => .call _ _ _ _ rfl fun _ => .call _ _ _ _ rfl fun _ =>
      .call _ _ _ _ rfl fun _ => .call _ _ _ _ rfl .ret

theorem alike_fmt (n : Option Nat) (t : IntTy) (b : Backing) (tag : Option Tag) :
    Prog.Alike Fmt.seenD (careless n .textFragment t b tag) plain := by
  refine .call _ _ _ _ rfl fun _ => .call _ _ _ _ rfl fun _ => .call _ _ _ _ rfl fun _ =>
    .valueComputed _ _ _ _ (.call _ _ _ _ rfl .ret) fun ok => ?_
  cases ok with
  | false => exact .ret false
  | true =>
    exact .call _ _ _ _ rfl fun _ => .call _ _ _ _ rfl fun _ => .call _ _ _ _ rfl fun _ => .call _ _ _ _ rfl fun _ =>
      .call _ _ _ _ rfl fun _ => .call _ _ _ _ rfl .ret

example : Json.toString anyEnv (careless (some 0) .textFragment .u8 .computed (some tags.NUMBER)) = some (t! "{\"a\\\"\":\"x\",\"b\":5}") := by
  rw [(C91_json_text _ _ _ (alike_json _ _ _ _) []).1]; decide +kernel
example : Fmt.toString someEnv (careless (some 0) .textFragment .u8 .computed (some tags.NUMBER)) = some (t! "R { a\": \"x\", b: 5 }") := by
  rw [(C91_fmt Fmt.strWriter _ _ _ (alike_fmt _ _ _ _) []).2.2]; decide +kernel
example : Fmt.toTokenWrite (Fmt.generic someEnv fun t o => .ok (o ++ t)) someEnv (careless (some 0) .textFragment .u8 .computed (some tags.NUMBER)) [] =
    .done true (t! "R { a\": \"x\", b: 5 }") := by
  rw [C91_fmt_generic _ _ _ _ (alike_fmt _ _ _ _) []]; decide +kernel
example : (Extracts.default (.ofToks [.textBegin (some 0), .textFragment (t! "ab"), .textEnd])).toText = some (t! "ab") := by
  rw [C91_extract (.ofToks [.textBegin (some 0), .textFragment (t! "ab"), .textEnd]) (.ofToks [.textBegin none, .textFragment (t! "ab"), .textEnd]) (.ofToks _ _ _ rfl)]; decide +kernel
example : Buf.Collected.unhint (Buf.collect true false (.ofToks [.seqBegin (some 9), .seqValueBegin, .null, .seqValueEnd, .seqEnd])) =
    .ok { parts := [.opened (.seq none) 2, .opened .seqValue 1, .null] } := by decide +kernel

end HintsExample

end Sval
