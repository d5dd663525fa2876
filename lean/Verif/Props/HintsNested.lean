import Verif.Core.Alike
import Verif.Nested.Model
import Verif.Serde.Model

set_option autoImplicit false

/-!
# C91 for recursive streams and serde: what receivers do not look at

The size of a text, and everything that is repeated at an end. Nothing else is ignored by all of the code here:
values that are given in one piece are kept in a `ValueBuf`, which shows them to the recursive stream as they were.
-/

namespace Sval

/-- What is left of a call without the size of a text or bytes, and without what was said before. -/
def Token.terse : Token → Token
  | .textBegin _ => .textBegin none
  | .binaryBegin _ => .binaryBegin none
  | .enumEnd _ => .enumEnd {}
  | .taggedEnd _ => .taggedEnd {}
  | .recordValueEnd _ _ => .recordValueEnd none { text := [] }
  | .recordEnd _ => .recordEnd {}
  | .tupleValueEnd _ _ => .tupleValueEnd none { val := 0 }
  | .tupleEnd _ => .tupleEnd {}
  | .recordTupleValueEnd _ _ _ => .recordTupleValueEnd none { text := [] } { val := 0 }
  | .recordTupleEnd _ => .recordTupleEnd {}
  | t => t

theorem Token.terse_computed (t u : Token) (h : t.terse = u.terse) : (computedTok t).terse = (computedTok u).terse := by
  have : ∀ t, (computedTok t).terse = computedTok t.terse := by intro t; cases t <;> rfl
  rw [this, this, h]

/-- Two arguments of a recursive stream that differ in nothing else. -/
def Nested.Arg.Alike (a b : Nested.Arg) : Prop := a.borrowed = b.borrowed ∧ Prog.Alike Token.terse a.prog b.prog

/-- Two calls of a recursive stream with such arguments. -/
inductive Nested.Cb.Alike : Nested.Cb → Nested.Cb → Prop where
  | same (c : Nested.Cb) : Alike c c
  | value (a b : Nested.Arg) (h : a.Alike b) : Alike (.value a) (.value b)
  | tagged (m : Meta) (a b : Nested.Arg) (h : a.Alike b) : Alike (.tagged m a) (.tagged m b)
  | seqValue (a b : Nested.Arg) (h : a.Alike b) : Alike (.seqValue a) (.seqValue b)
  | mapKey (a b : Nested.Arg) (h : a.Alike b) : Alike (.mapKey a) (.mapKey b)
  | mapValue (a b : Nested.Arg) (h : a.Alike b) : Alike (.mapValue a) (.mapValue b)
  | tupleValue (t : Option Tag) (i : Index) (a b : Nested.Arg) (h : a.Alike b) : Alike (.tupleValue t i a) (.tupleValue t i b)
  | recordValue (t : Option Tag) (l : Label) (a b : Nested.Arg) (h : a.Alike b) : Alike (.recordValue t l a) (.recordValue t l b)
  | variantTagged (m : Meta) (a b : Nested.Arg) (h : a.Alike b) : Alike (.variantTagged m a) (.variantTagged m b)

namespace Nested

theorem buf_terse (t : Token) : Buf.step true t.terse = Buf.step true t := by
  funext s
  cases t <;> rfl

theorem bufValue_alike {v u : Prog} (h : Prog.Alike Token.terse v u) (computed : Bool) (b : Buf.St) :
    bufValue v computed b = bufValue u computed b := by
  have : ∀ W s, Sval.exec (guarded (Buf.step true)) v W s = Sval.exec (guarded (Buf.step true)) u W s := by
    refine fun W s => exec_alike _ (fun t u htu => ?_) Token.terse_computed h W s
    funext s
    have e : Buf.step true t = Buf.step true u := by rw [← buf_terse t, htu, buf_terse]
    simp only [guarded, e]
  simp only [bufValue, this]

section
variable {σ : Type} (C : Cb → σ → Res Unit σ)

theorem call_terse (t : Token) : call C t.terse = call C t := by
  funext s
  cases t <;> first | rfl | (simp only [Token.terse, call, bufferOr, bufferOrEnd, Buf.step])

variable {C} (hC : ∀ c d, Cb.Alike c d → C c = C d)
include hC

theorem put_alike {a b : Arg} (h : a.Alike b) : put C (.value a) a = put C (.value b) b := by
  funext st
  have e : ∀ c d, Cb.Alike c d → cb C c = cb C d := by intro c d h; funext st; simp only [cb, hC c d h]
  simp only [put, e _ _ (.value a b h), e _ _ (.tagged _ a b h), e _ _ (.seqValue a b h), e _ _ (.mapKey a b h),
    e _ _ (.mapValue a b h), e _ _ (.tupleValue _ _ a b h), e _ _ (.recordValue _ _ a b h), e _ _ (.variantTagged _ a b h)]

theorem delegate_alike {v u : Prog} (h : Prog.Alike Token.terse v u) (computed : Bool) (go go' : St σ → Outcome (St σ))
    (hg : go = go') (st : St σ) : delegate C v computed go st = delegate C u computed go' st := by
  subst hg
  have e : put C (.value ⟨!computed, v⟩) ⟨!computed, v⟩ = put C (.value ⟨!computed, u⟩) ⟨!computed, u⟩ := put_alike hC ⟨rfl, h⟩
  simp only [delegate, bufValue_alike h, e]

theorem exec_terse {p q : Prog} (h : Prog.Alike Token.terse p q) (c : Bool) : exec C p c = exec C q c := by
  induction h generalizing c with
  | ret ok => rfl
  | call t u k l ht _ ih =>
    funext st
    have e : call C (if c then computedTok t else t) = call C (if c then computedTok u else u) := by
      have : (if c then computedTok t else t).terse = (if c then computedTok u else u).terse := by
        cases c
        · exact ht
        · exact Token.terse_computed t u ht
      rw [← call_terse, this, call_terse]
    simp only [exec, e, ih]
  | value v u k l hv _ ihv ih =>
    funext st
    simp only [exec, ih, ihv]
    rw [delegate_alike hC hv false _ _ rfl st]
  | valueComputed v u k l hv _ ihv ih =>
    funext st
    simp only [exec, ih, ihv]
    rw [delegate_alike hC hv true _ _ rfl st]

end
end Nested

/-- **C91 for recursive streams**: if a recursive stream does the same with values that differ only in what `Token.terse` forgets,
all code that differs only in that does the same to it, and leaves it the same, whether it can be streamed or not. -/
theorem C91_nested {σ : Type} (C : Nested.Cb → σ → Res Unit σ) (hC : ∀ c d, Nested.Cb.Alike c d → C c = C d) (p q : Prog)
    (h : Prog.Alike Token.terse p q) (computed : Bool) (s : σ) : Nested.stream C computed p s = Nested.stream C computed q s := by
  simp only [Nested.stream, Nested.exec_terse hC h]

namespace Serde

theorem adapter_alike {ε τ : Type} (custom : ε) (S : SCall ε τ → τ → Res ε τ) (K : Bool → Prog → τ → Outcome (St ε τ))
    (hK : ∀ p q, Prog.Alike Token.terse p q → ∀ b, K b p = K b q) (c d : Nested.Cb) (h : c.Alike d) :
    adapter custom S K c = adapter custom S K d := by
  funext st
  rcases st with ⟨mode, f, s⟩
  cases h with
  | same => rfl
  | value a b h => cases mode <;> first | rfl | simp only [adapter, hK _ _ h.2, h.1]
  | tagged m a b h => cases mode <;> first | rfl | simp only [adapter, hK _ _ h.2]
  | seqValue a b h => cases mode <;> first | rfl | simp only [adapter, hK _ _ h.2]
  | mapKey a b h => cases mode <;> first | rfl | simp only [adapter, hK _ _ h.2]
  | mapValue a b h => cases mode <;> first | rfl | simp only [adapter, hK _ _ h.2]
  | tupleValue t i a b h =>
    cases mode with
    | tuple n => cases n <;> simp only [adapter, hK _ _ h.2]
    | _ => first | rfl | simp only [adapter, hK _ _ h.2]
  | recordValue t l a b h =>
    cases mode with
    | record n => cases n <;> simp only [adapter, hK _ _ h.2]
    | _ => first | rfl | simp only [adapter, hK _ _ h.2]
  | variantTagged m a b h => cases mode <;> first | rfl | simp only [adapter, hK _ _ h.2]

theorem into_alike {ε τ : Type} (custom : ε) (S : SCall ε τ → τ → Res ε τ) (n : Nat) (p q : Prog) (h : Prog.Alike Token.terse p q)
    (b : Bool) : into custom S n b p = into custom S n b q := by
  induction n generalizing p q b with
  | zero => rfl
  | succ n ih =>
    funext s
    exact C91_nested _ (adapter_alike custom S _ fun p q h b => ih p q h b) p q h b _

end Serde

/-- **C91 for serde**: any serializer is called the same, and answers the same. -/
theorem C91_serde_ends {ε τ : Type} (custom : ε) (S : Serde.SCall ε τ → τ → Res ε τ) (depth : Nat) (p q : Prog)
    (h : Prog.Alike Token.terse p q) (s : τ) : Serde.serialize custom S depth p s = Serde.serialize custom S depth q s := by
  simp only [Serde.serialize, Serde.into_alike custom S depth p q h]

/-- A record and the same with wrong ends, and with a wrong size of a text. -/
example : Prog.Alike Token.terse
    (.ofToks [.recordBegin { label := some (.new (t! "A")) } (some 1), .recordValueBegin none (.new (t! "x")), .textBegin (some 2),
      .textFragment (t! "ab"), .textEnd, .recordValueEnd none (.new (t! "x")), .recordEnd { label := some (.new (t! "A")) }])
    (.ofToks [.recordBegin { label := some (.new (t! "A")) } (some 1), .recordValueBegin none (.new (t! "x")), .textBegin (some 7),
      .textFragment (t! "ab"), .textEnd, .recordValueEnd (some tags.NUMBER) (.new (t! "y")), .recordEnd {}]) :=
  .ofToks _ _ _ rfl

end Sval
