import Verif.Core.Carried
import Verif.Buffer.Model
import Verif.Json.Bytes

set_option autoImplicit false

/-!
# How much `sval_buffer` keeps, and gives back
-/

namespace Sval.Buf

open Json (utf8Len_append)

variable (f32 : UInt32 → Text) (f64 : UInt64 → Text)

/-- The bytes of data in a part. -/
def Part.bytes : Part → Nat
  | .int _ v => utf8Len (intDec v)
  | .f32 b => utf8Len (f32 b)
  | .f64 b => utf8Len (f64 b)
  | .text c => utf8Len c.content
  | .binary c => c.content.length
  | .tag m => m.bytes
  | .opened o _ => o.begin.bytes f32 f64
  | _ => 0

/-- What a part weighs: something for each byte, and something for itself. -/
def weight (a k : Nat) (P : List Part) : Nat := (P.map fun p => a * p.bytes f32 f64 + k).sum

section
variable {f32 f64} {a k : Nat}

theorem weight_append (P Q : List Part) : weight f32 f64 a k (P ++ Q) = weight f32 f64 a k P + weight f32 f64 a k Q := by
  simp [weight]

theorem weight_cons (p : Part) (Q : List Part) : weight f32 f64 a k (p :: Q) = a * p.bytes f32 f64 + k + weight f32 f64 a k Q := by
  simp [weight]

/-- Replacing a part by one that has `n` bytes more. -/
theorem weight_set (P : List Part) (i : Nat) (p q : Part) (n : Nat) (h : P[i]? = some p)
    (hq : q.bytes f32 f64 ≤ p.bytes f32 f64 + n) : weight f32 f64 a k (P.set i q) ≤ weight f32 f64 a k P + a * n := by
  induction P generalizing i with
  | nil => cases h
  | cons x P ih =>
    cases i with
    | zero =>
      have hx : x = p := by simpa using h
      subst hx
      have := Nat.mul_le_mul_left a hq
      rw [Nat.mul_add] at this
      simp only [List.set_cons_zero, weight_cons]
      omega
    | succ i =>
      have := ih i (by simpa using h)
      simp only [List.set_cons_succ, weight_cons]
      omega

/-- What is in a buffer weighs. -/
def held (f32 : UInt32 → Text) (f64 : UInt64 → Text) (a k : Nat) (s : St) : Nat := weight f32 f64 a k s.parts

theorem fail_grows (e : Err) (s s' : St) (n : Nat) (h : s'.parts = s.parts) : Grows (held f32 f64 a k) n (fail e s') s := by
  show weight _ _ _ _ s'.parts ≤ weight _ _ _ _ s.parts + n
  rw [h]
  exact Nat.le_add_right _ _

theorem keep {n : Nat} {s s' : St} (h : s'.parts = s.parts) : Grows (held f32 f64 a k) n (.ok s' : Res Err St) s := by
  show weight _ _ _ _ s'.parts ≤ weight _ _ _ _ s.parts + n
  rw [h]
  exact Nat.le_add_right _ _

theorem pushKind_grows (alloc : Bool) (p : Part) (s s' : St) (h : s'.parts = s.parts) :
    Grows (held f32 f64 a k) (a * p.bytes f32 f64 + k) (pushKind alloc p s') s := by
  rw [pushKind]
  split
  · show weight _ _ _ _ (s'.parts ++ [p]) ≤ weight _ _ _ _ s.parts + _
    rw [h, weight_append, weight_cons]
    exact Nat.le_refl _
  · exact fail_grows _ _ _ _ h

theorem pushBegin_grows (alloc : Bool) (o : Opener) (s : St) :
    Grows (held f32 f64 a k) (a * o.begin.bytes f32 f64 + k) (pushBegin alloc o s) s := by
  rw [pushBegin]
  split
  · exact pushKind_grows alloc (.opened o 0) s _ rfl
  · exact fail_grows _ _ _ _ rfl

theorem pushEnd_grows (s : St) (n : Nat) : Grows (held f32 f64 a k) n (pushEnd s) s := by
  rw [pushEnd]
  split
  · exact fail_grows _ _ _ _ rfl
  · rename_i i st _
    dsimp only
    split
    · trivial
    · split
      · trivial
      · rename_i o l hi
        have := weight_set (f32 := f32) (f64 := f64) (a := a) (k := k) s.parts i (.opened o l) (.opened o (s.parts.length - i - 1)) 0 hi (Nat.le_refl _)
        exact Nat.le_trans this (Nat.add_le_add_left (by omega) _)
      · exact fail_grows _ _ _ _ rfl

theorem setLast_grows (s : St) (p q : Part) (n m : Nat) (h : s.parts.getLast? = some p)
    (hq : q.bytes f32 f64 ≤ p.bytes f32 f64 + n) (hm : a * n ≤ m) : Grows (held f32 f64 a k) m (.ok (setLast s q) : Res Err St) s := by
  rw [List.getLast?_eq_getElem?] at h
  exact Nat.le_trans (weight_set s.parts _ p q n h hq) (Nat.add_le_add_left hm _)

theorem textPush_grows (f : Cow Char → Except Err (Cow Char)) (n m : Nat) (s : St)
    (hf : ∀ c c', f c = .ok c' → utf8Len c'.content ≤ utf8Len c.content + n) (hm : a * n ≤ m) :
    Grows (held f32 f64 a k) m (textPush f s) s := by
  simp only [textPush]
  split
  · trivial
  · rename_i c hc
    cases e : f c with
    | ok c' => exact setLast_grows s _ _ n m hc (hf c c' e) hm
    | error x => exact fail_grows _ _ _ _ rfl
  · exact fail_grows _ _ _ _ rfl

theorem binaryPush_grows (f : Cow UInt8 → Except Err (Cow UInt8)) (n m : Nat) (s : St)
    (hf : ∀ c c', f c = .ok c' → c'.content.length ≤ c.content.length + n) (hm : a * n ≤ m) :
    Grows (held f32 f64 a k) m (binaryPush f s) s := by
  simp only [binaryPush]
  split
  · trivial
  · rename_i c hc
    cases e : f c with
    | ok c' => exact setLast_grows s _ _ n m hc (hf c c' e) hm
    | error x => exact fail_grows _ _ _ _ rfl
  · exact fail_grows _ _ _ _ rfl

theorem pushComputed_content {α : Type} {alloc : Bool} {c c' : Cow α} {f : List α} (h : c.pushComputed alloc f = .ok c') :
    c'.content = c.content ++ f := by
  rw [Cow.pushComputed] at h
  split at h
  · cases h; rfl
  · cases h

theorem push_content {α : Type} {alloc : Bool} {c c' : Cow α} {f : List α} (h : c.push alloc f = .ok c') :
    c'.content = c.content ++ f := by
  rw [Cow.push] at h
  split at h
  · rename_i hl
    cases h
    rw [List.length_eq_zero_iff.1 hl]
    rfl
  · exact pushComputed_content h

theorem ownLabel_text {alloc : Bool} {l l' : Label} (h : ownLabel alloc l = some l') : l'.text = l.text := by
  rw [ownLabel] at h
  split at h
  · cases h
    rw [Label.toOwned]
    split <;> rfl
  · simp only [Label.tryToOwnedNoAlloc, Label.asStaticStr] at h
    split at h
    · cases h; rfl
    · cases h

theorem ownMeta_bytes {alloc : Bool} {m m' : Meta} (h : ownMeta alloc m = some m') : m'.bytes = m.bytes := by
  rw [ownMeta] at h
  split at h
  · cases h; rfl
  · rename_i l hl
    cases e : ownLabel alloc l with
    | none => rw [e] at h; cases h
    | some l' =>
      rw [e] at h
      cases h
      simp [Meta.bytes, hl, ownLabel_text e]

theorem beginMeta_grows (alloc : Bool) (m : Meta) (o : Meta → Opener) (ho : ∀ m, (o m).begin.bytes f32 f64 = m.bytes) (s : St) :
    Grows (held f32 f64 a k) (a * m.bytes + k) (beginMeta alloc m o s) s := by
  rw [beginMeta]
  cases e : ownMeta alloc m with
  | none => exact fail_grows _ _ _ _ rfl
  | some m' =>
    have := pushBegin_grows (f32 := f32) (f64 := f64) (a := a) (k := k) alloc (o m') s
    rw [ho, ownMeta_bytes e] at this
    exact this

theorem beginLabel_grows (alloc : Bool) (l : Label) (o : Label → Opener) (ho : ∀ l, (o l).begin.bytes f32 f64 = utf8Len l.text) (s : St) :
    Grows (held f32 f64 a k) (a * utf8Len l.text + k) (beginLabel alloc l o s) s := by
  rw [beginLabel]
  cases e : ownLabel alloc l with
  | none => exact fail_grows _ _ _ _ rfl
  | some l' =>
    have := pushBegin_grows (f32 := f32) (f64 := f64) (a := a) (k := k) alloc (o l') s
    rw [ho, ownLabel_text e] at this
    exact this

theorem step_grows (alloc : Bool) (t : Token) (s : St) :
    Grows (held f32 f64 a k) (a * t.bytes f32 f64 + k) (step alloc t s) s := by
  cases t with
  | null => exact pushKind_grows alloc .null s s rfl
  | bool b => exact pushKind_grows alloc (.bool b) s s rfl
  | int t v => exact pushKind_grows alloc (.int t v) s s rfl
  | f32 b => exact pushKind_grows alloc (.f32 b) s s rfl
  | f64 b => exact pushKind_grows alloc (.f64 b) s s rfl
  | textBegin n => exact pushKind_grows alloc (.text .new) s _ rfl
  | textFragment f =>
    refine textPush_grows _ (utf8Len f) _ s (fun c c' h => ?_) (Nat.le_add_right _ _)
    rw [push_content h, utf8Len_append]
    exact Nat.le_refl _
  | textFragmentComputed f =>
    refine textPush_grows _ (utf8Len f) _ s (fun c c' h => ?_) (Nat.le_add_right _ _)
    rw [pushComputed_content h, utf8Len_append]
    exact Nat.le_refl _
  | textEnd => exact keep rfl
  | binaryBegin n => exact pushKind_grows alloc (.binary .new) s _ rfl
  | binaryFragment f =>
    refine binaryPush_grows _ f.length _ s (fun c c' h => ?_) (Nat.le_add_right _ _)
    rw [push_content h, List.length_append]
    exact Nat.le_refl _
  | binaryFragmentComputed f =>
    refine binaryPush_grows _ f.length _ s (fun c c' h => ?_) (Nat.le_add_right _ _)
    rw [pushComputed_content h, List.length_append]
    exact Nat.le_refl _
  | binaryEnd => exact keep rfl
  | mapBegin n => exact pushBegin_grows alloc (.map n) s
  | mapKeyBegin => exact pushBegin_grows alloc .mapKey s
  | mapValueBegin => exact pushBegin_grows alloc .mapValue s
  | seqBegin n => exact pushBegin_grows alloc (.seq n) s
  | seqValueBegin => exact pushBegin_grows alloc .seqValue s
  | tupleValueBegin t i => exact pushBegin_grows alloc (.tupleValue t i) s
  | enumBegin m => exact beginMeta_grows alloc m _ (fun _ => rfl) s
  | taggedBegin m => exact beginMeta_grows alloc m _ (fun _ => rfl) s
  | recordBegin m n => exact beginMeta_grows alloc m _ (fun _ => rfl) s
  | tupleBegin m n => exact beginMeta_grows alloc m _ (fun _ => rfl) s
  | recordTupleBegin m n => exact beginMeta_grows alloc m _ (fun _ => rfl) s
  | recordValueBegin t l => exact beginLabel_grows alloc l _ (fun _ => rfl) s
  | recordTupleValueBegin t l i => exact beginLabel_grows alloc l _ (fun _ => rfl) s
  | tag m =>
    simp only [step]
    cases e : ownMeta alloc m with
    | none => exact fail_grows _ _ _ _ rfl
    | some m' =>
      have := pushKind_grows (f32 := f32) (f64 := f64) (a := a) (k := k) alloc (.tag m') s s rfl
      rw [Part.bytes, ownMeta_bytes e] at this
      exact this
  | tagHint t => exact pushKind_grows alloc (.tagHint t) s s rfl
  | _ => exact pushEnd_grows s _

/-- What any code leaves in a buffer. -/
theorem exec_grows (alloc : Bool) (p : Prog) (W : Wrapper) (s : St) :
    weight f32 f64 a k (exec (guarded (step alloc)) p W (s, false)).1.1.parts ≤
      weight f32 f64 a k s.parts +
        ((received (guarded (step alloc)) p W (s, false)).map fun t => a * t.bytes f32 f64 + k).sum :=
  grows_exec (μ := held f32 f64 a k) (step alloc) _ (step_grows alloc) p W s

theorem end_bytes (o : Opener) : o.end.bytes f32 f64 = o.begin.bytes f32 f64 := by cases o <;> rfl

/-- What is given back weighs at most. -/
theorem replayN_weight (a k fuel : Nat) (P : List Part) :
    ((replayN fuel P).toks.map fun t => a * t.bytes f32 f64 + k).sum ≤ weight f32 f64 (2 * a) (3 * k) P := by
  induction fuel generalizing P with
  | zero => simp [replayN]
  | succ fuel ih =>
    cases P with
    | nil => simp [replayN]
    | cons p P =>
      have one : ∀ x : List Token, (x.map fun t => a * t.bytes f32 f64 + k).sum ≤ 2 * a * p.bytes f32 f64 + 3 * k →
          ((Out.then { toks := x } (replayN fuel P)).toks.map fun t => a * t.bytes f32 f64 + k).sum ≤ weight f32 f64 (2 * a) (3 * k) (p :: P) := by
        intro x hx
        have := ih P
        simp only [Out.then, Bool.false_eq_true, if_false, List.map_append, List.sum_append, weight_cons]
        omega
      have two : ∀ n : Nat, 2 * a * n = a * n + a * n := fun n => by rw [Nat.mul_assoc, Nat.two_mul]
      cases p with
      | opened o len =>
        simp only [replayN]
        split
        · simp
        · have h1 := ih (P.take len)
          have h2 := ih (P.drop len)
          have h3 : weight f32 f64 (2 * a) (3 * k) (.opened o len :: P) =
              2 * a * o.begin.bytes f32 f64 + 3 * k + (weight f32 f64 (2 * a) (3 * k) (P.take len) + weight f32 f64 (2 * a) (3 * k) (P.drop len)) := by
            rw [weight_cons, ← weight_append, List.take_append_drop]
            rfl
          rw [h3, two]
          have he := end_bytes (f32 := f32) (f64 := f64) o
          generalize replayN fuel (P.take len) = r1 at *
          generalize replayN fuel (P.drop len) = r2 at *
          obtain ⟨t1, b1⟩ := r1
          obtain ⟨t2, b2⟩ := r2
          cases b1 <;> simp [Out.then, he] at * <;> omega
      | text c =>
        refine one _ ?_
        rw [two]
        cases c <;> simp [Token.bytes, Part.bytes, Cow.textToks, Cow.content] <;> omega
      | binary c =>
        refine one _ ?_
        rw [two]
        cases c <;> simp [Token.bytes, Part.bytes, Cow.binaryToks, Cow.content] <;> omega
      | _ =>
        refine one _ ?_
        rw [two]
        simp [Token.bytes, Part.bytes]
        try omega

end
end Sval.Buf
