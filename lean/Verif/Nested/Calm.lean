import Verif.Buffer.Panic
import Verif.Nested.Model

set_option autoImplicit false

/-!
# Recursive streams and code that makes the wrong calls

Code that uses `?` and begins no enum does not make `FlatStream` panic, whatever else it calls.
-/

namespace Sval

/-- Every call the code can make, whatever the results are, satisfies `P`. -/
def Prog.Only (P : Token → Prop) : Prog → Prop
  | .ret _ => True
  | .call t k => P t ∧ ∀ b, (k b).Only P
  | .value v k => v.Only P ∧ ∀ b, (k b).Only P
  | .valueComputed v k => v.Only P ∧ ∀ b, (k b).Only P

theorem only_ofToks {P : Token → Prop} (ts : List Token) (h : ∀ t ∈ ts, P t) : (Prog.ofToks ts).Only P := by
  induction ts with
  | nil => trivial
  | cons t ts ih =>
    refine ⟨h t (.head _), fun b => ?_⟩
    cases b with
    | true => exact ih fun t ht => h t (.tail _ ht)
    | false => trivial

namespace Nested

open Buf (Firm)

/-- Is the call the beginning of an enum? -/
def opensEnum : Token → Bool
  | .enumBegin _ => true
  | _ => false

variable {σ : Type}

/-- No enum without a variant, and a buffer that holds something. -/
def Good (st : St σ) : Prop := (∀ q, st.mode ≠ .enum q) ∧ ∀ b, st.buf = some (.value b) → Firm b

def Calm : Res Unit (St σ) → Prop
  | .panic => False
  | .ok st => Good st
  | .err _ _ => True

theorem Calm.bind {r : Res Unit (St σ)} {f : Act σ} (h : Calm r) (hf : ∀ st, Good st → Calm (f st)) : Calm (r.bind f) := by
  cases r with
  | panic => exact h
  | ok st => exact hf st h
  | err e st => trivial

theorem calm_mode {m : Mode} (hm : ∀ q, m ≠ .enum q) (st : St σ) (h : Good st) : Calm (toMode m st) := ⟨hm, h.2⟩

theorem calm_tryCatch {a : Act σ} {st : St σ} (h : Calm (a st)) : Calm (tryCatch a st) := by
  simp only [tryCatch]
  cases e : a st with
  | panic => rw [e] at h; exact h
  | ok s => rw [e] at h; exact h
  | err x s => trivial

variable {C : Cb → σ → Res Unit σ} (hC : ∀ c s, C c s ≠ .panic)
include hC

theorem calm_cb (c : Cb) (st : St σ) (h : Good st) : Calm (cb C c st) := by
  simp only [cb]
  cases e : C c st.s with
  | panic => exact absurd e (hC _ _)
  | ok s => exact h
  | err x s => trivial

theorem calm_cb_to (c : Cb) {m : Mode} (hm : ∀ q, m ≠ .enum q) (st : St σ) (h : Good st) :
    Calm ((cb C c st).bind (toMode m)) := (calm_cb hC c st h).bind (calm_mode hm)

theorem calm_nest (q : List Meta) {a : Act σ} (ha : ∀ st, Good st → Calm (a st)) (st : St σ) (h : Good st) :
    Calm (nest C q a st) := by
  induction q generalizing st with
  | nil => exact ha st h
  | cons m q ih => exact ((calm_cb hC _ st h).bind ih).bind (calm_cb hC _)

theorem calm_put (any : Cb) (a : Arg) (st : St σ) (h : Good st) : Calm (put C any a st) := by
  have into : ∀ (m : Mode) (c : Cb), (∀ q, m ≠ .enum q) → Calm (cb C c { st with mode := m }) := fun m c hm =>
    calm_cb hC c _ ⟨hm, h.2⟩
  rw [put]
  split
  · exact calm_cb_to hC _ (by simp) st h
  · exact calm_cb_to hC _ (by simp) st h
  · exact calm_cb hC _ st h
  · exact calm_cb hC _ st h
  · exact calm_cb hC _ st h
  · exact into _ _ (by simp)
  · exact into _ _ (by simp)
  · exact into _ _ (by simp)
  · exact into _ _ (by simp)
  · exact (calm_nest hC _ (calm_cb hC _) st h).bind (calm_mode (by simp))
  all_goals trivial

omit hC in
theorem calm_buffered (t : Token) (st : St σ) (b : Buf.St) (h : Good st) (hb : st.buf = some (.value b)) :
    Calm (buffered st (Buf.step true t b)) := by
  have := Buf.firm_step (t := t) (h.2 b hb)
  cases e : Buf.step true t b with
  | panic => rw [e] at this; exact this
  | ok b' => rw [e] at this; exact ⟨h.1, fun b'' h' => by cases h'; exact this⟩
  | err x b' => trivial

omit hC in
theorem calm_bufferOr (t : Token) {a : Act σ} (ha : ∀ st, Good st → Calm (a st)) (st : St σ) (h : Good st) :
    Calm (bufferOr t a st) := by
  refine calm_tryCatch ?_
  split
  · rename_i b hb; exact calm_buffered t st b h hb
  · exact ha st h

omit hC in
/-- A call that begins something fills an empty buffer. -/
theorem calm_bufferOrBegin (t : Token) (ht : Buf.isBegin t = true) {any : Act σ} {enum : List Meta → Act σ}
    (ha : ∀ st, Good st → Calm (any st)) (st : St σ) (h : Good st) : Calm (bufferOrBegin t any enum st) := by
  refine calm_tryCatch ?_
  split
  · rename_i b hb; exact calm_buffered t st b h hb
  · exact ha st h
  · rename_i q _ hm; exact absurd hm (h.1 q)
  · have hb := Buf.bare_step (t := t) (b := {}) ⟨rfl, rfl⟩
    have h1 : Buf.isFrag t = false := by cases t <;> first | rfl | cases ht
    have h2 : Buf.fills t = true := by cases t <;> first | rfl | cases ht
    rw [h1, if_neg (by simp)] at hb
    cases e : Buf.step true t {} with
    | panic => rw [e] at hb; exact hb
    | ok b => rw [e, h2] at hb; exact ⟨h.1, fun b' h' => by cases h'; exact hb⟩
    | err x b => trivial
  · trivial

theorem calm_bufferOrEnd (t : Token) {a : Act σ} (ha : ∀ st, Good st → Calm (a st)) (st : St σ) (h : Good st) :
    Calm (bufferOrEnd C t a st) := by
  refine calm_tryCatch ?_
  split
  · exact (ha st h).bind (calm_mode (by simp))
  · rename_i b hb
    have := Buf.firm_step (t := t) (h.2 b hb)
    cases e : Buf.step true t b with
    | panic => rw [e] at this; exact this
    | err x b' => trivial
    | ok b' =>
      rw [e] at this
      simp only
      split
      · exact calm_put hC _ _ _ ⟨h.1, fun b h' => by cases h'⟩
      · exact ⟨h.1, fun b'' h' => by cases h'; exact this⟩
  · trivial

omit hC in
theorem calm_putBuffer (b : Buffered) (hb : ∀ x, b ≠ .value x) (st : St σ) (h : Good st) : Calm (putBuffer b st) := by
  rw [putBuffer]
  split
  · exact ⟨h.1, fun b' h' => by cases h'; exact absurd rfl (hb b')⟩
  · trivial

omit hC in
theorem calm_withText (f : Buf.Cow Char → Except Buf.Err (Buf.Cow Char)) (st : St σ) (h : Good st) : Calm (withText f st) := by
  rw [withText]
  split
  · split
    · exact ⟨h.1, fun b' h' => by cases h'⟩
    · trivial
  · trivial

omit hC in
theorem calm_withBinary (f : Buf.Cow UInt8 → Except Buf.Err (Buf.Cow UInt8)) (st : St σ) (h : Good st) :
    Calm (withBinary f st) := by
  rw [withBinary]
  split
  · split
    · exact ⟨h.1, fun b' h' => by cases h'⟩
    · trivial
  · trivial

omit hC in
theorem calm_finish (st : St σ) (h : Good st) : Calm (finish st) := by
  rw [finish]
  split
  · exact h
  · trivial

theorem calm_call (t : Token) (ht : opensEnum t = false) (st : St σ) (h : Good st) : Calm (call C t st) := by
  have good : ∀ st : St σ, Good st → Calm (Res.ok st) := fun _ h => h
  have empty : ∀ st : St σ, Good st → Good { st with buf := none } := fun _ h => ⟨h.1, fun b h' => by cases h'⟩
  cases t with
  | null | bool _ | int _ _ | f32 _ | f64 _ => exact calm_bufferOr _ (calm_put hC _ _) st h
  | textBegin n => exact calm_bufferOr _ (calm_putBuffer _ (by simp)) st h
  | binaryBegin n => exact calm_bufferOr _ (calm_putBuffer _ (by simp)) st h
  | textFragment f | textFragmentComputed f => exact calm_bufferOr _ (calm_withText _) st h
  | binaryFragment f | binaryFragmentComputed f => exact calm_bufferOr _ (calm_withBinary _) st h
  | textEnd | binaryEnd =>
    refine calm_bufferOr _ (fun st h => ?_) st h
    split
    · split <;> exact calm_put hC _ _ _ (empty st h)
    · trivial
  | tag m =>
    refine calm_bufferOr _ (fun st h => ?_) st h
    split
    · rename_i q hm; exact absurd hm (h.1 q)
    · exact calm_put hC _ _ st h
  | enumBegin m => cases ht
  | seqBegin n => exact calm_bufferOrBegin _ rfl (calm_cb_to hC _ (by simp)) st h
  | mapBegin n => exact calm_bufferOrBegin _ rfl (calm_cb_to hC _ (by simp)) st h
  | tupleBegin m n => exact calm_bufferOrBegin _ rfl (calm_cb_to hC _ (by simp)) st h
  | recordBegin m n => exact calm_bufferOrBegin _ rfl (calm_cb_to hC _ (by simp)) st h
  | recordTupleBegin m n => exact calm_bufferOrBegin _ rfl (calm_cb_to hC _ (by simp)) st h
  | taggedBegin m => exact calm_bufferOrBegin (any := fun st => .ok { st with mode := .tagged (ownMeta m) }) _ rfl (fun st h => ⟨by simp, h.2⟩) st h
  | seqValueBegin | seqValueEnd | tagHint _ => exact h
  | mapKeyEnd | mapValueEnd | recordValueEnd _ _ | tupleValueEnd _ _ | recordTupleValueEnd _ _ _ =>
    exact calm_bufferOr _ good st h
  | mapKeyBegin | mapValueBegin | recordValueBegin _ _ | tupleValueBegin _ _ | recordTupleValueBegin _ _ _ =>
    refine calm_bufferOr _ (fun st h => ?_) st h
    split <;> first | trivial | exact ⟨by simp, h.2⟩
  | seqEnd =>
    refine calm_bufferOrEnd hC _ (fun st h => ?_) st h
    split
    · exact calm_cb hC _ st h
    · trivial
  | mapEnd | recordEnd _ | tupleEnd _ | recordTupleEnd _ =>
    refine calm_bufferOrEnd hC _ (fun st h => ?_) st h
    split <;> first | trivial | exact calm_cb hC _ st h
  | enumEnd m =>
    refine calm_bufferOrEnd hC _ (fun st h => ?_) st h
    split
    · rename_i q hm; exact absurd hm (h.1 q)
    · exact calm_finish st h
    · trivial
  | taggedEnd m => exact calm_bufferOrEnd hC _ calm_finish st h

theorem calm_delegate (v : Prog) (c : Bool) (go : St σ → Outcome (St σ)) (st : St σ) (h : Good st) :
    delegate C v c go st ≠ .panicked ∧ ∀ st', delegate C v c go st = .done true st' → Good st' := by
  simp only [delegate]
  split
  · rename_i b hb
    have hf := Buf.firm_exec v (if c then .computed .base else .base) b (h.2 b hb)
    simp only [bufValue, hf.1, Bool.false_eq_true, if_false]
    cases e : (Sval.exec (guarded (Buf.step true)) v (if c then .computed .base else .base) (b, false)).2 with
    | true =>
      refine ⟨by simp, fun st' h' => ?_⟩
      cases h'
      exact ⟨h.1, fun b' h' => by cases h'; exact hf.2⟩
    | false => simp
  · split
    · rename_i q hm; exact absurd hm (h.1 q)
    · have := calm_tryCatch (calm_put hC (.value ⟨!c, v⟩) ⟨!c, v⟩ st h)
      cases e : tryCatch (put C (.value ⟨!c, v⟩) ⟨!c, v⟩) st with
      | panic => rw [e] at this; exact this.elim
      | ok s => rw [e] at this; exact ⟨by simp [Res.outcome], fun st' h' => by cases h'; exact this⟩
      | err x s => exact ⟨by simp [Res.outcome], fun st' h' => by cases h'⟩

theorem calm_exec (p : Prog) : ∀ (c : Bool) (st : St σ), p.Propagates → p.Only (fun t => opensEnum t = false) → Good st →
    exec C p c st ≠ .panicked ∧ ∀ st', exec C p c st = .done true st' → Good st' := by
  have fin : ∀ (c : Bool) (st : St σ), exec C (.ret false) c st ≠ .panicked ∧
      ∀ st', exec C (.ret false) c st = .done true st' → Good st' :=
    fun c st => ⟨by simp [exec], fun st' h => by simp [exec] at h⟩
  induction p with
  | ret ok => exact fun c st _ _ h => ⟨by simp [exec], fun st' h' => by simp only [exec] at h'; cases h'; exact h⟩
  | call t k ih =>
    rintro c st ⟨hf, hp⟩ ⟨ht, hk⟩ h
    have ht' : opensEnum (if c then computedTok t else t) = false := by
      cases c with
      | false => exact ht
      | true => cases t <;> first | rfl | exact ht
    have hcall := calm_call hC _ ht' st h
    simp only [exec]
    cases e : call C (if c then computedTok t else t) st with
    | panic => rw [e] at hcall; exact hcall.elim
    | ok st1 => rw [e] at hcall; exact ih true c st1 hp (hk true) hcall
    | err x st1 => simp only; rw [hf]; exact fin c st1
  | value v k ihv ih =>
    rintro c st ⟨hv, hf, hp⟩ ⟨hvo, hk⟩ h
    have hd : ∀ o : Outcome (St σ), (o ≠ .panicked ∧ ∀ st', o = .done true st' → Good st') → ∀ r : Outcome (St σ),
        r = (match o with | .done ok st => exec C (k ok) c st | .panicked => .panicked) →
        r ≠ .panicked ∧ ∀ st', r = .done true st' → Good st' := by
      rintro o ⟨h1, h2⟩ r rfl
      match o with
      | .panicked => exact absurd rfl h1
      | .done true st1 => exact ih true c st1 hp (hk true) (h2 st1 rfl)
      | .done false st1 => simp only; rw [hf]; exact fin c st1
    simp only [exec]
    refine hd _ ?_ _ rfl
    split
    · exact ihv true st hv hvo h
    · exact calm_delegate hC v false _ st h
  | valueComputed v k ihv ih =>
    rintro c st ⟨hv, hf, hp⟩ ⟨hvo, hk⟩ h
    have hd := calm_delegate hC v true (exec C v true) st h
    simp only [exec]
    match e : delegate C v true (exec C v true) st with
    | .panicked => exact absurd e hd.1
    | .done true st1 => exact ih true c st1 hp (hk true) (hd.2 st1 e)
    | .done false st1 => simp only; rw [hf]; exact fin c st1

theorem calm_stream (p : Prog) (c : Bool) (s : σ) (hp : p.Propagates) (ho : p.Only fun t => opensEnum t = false) :
    stream C c p s ≠ .panicked := by
  have := (calm_exec hC p c { s } hp ho ⟨by simp, fun b h => by cases h⟩).1
  simp only [stream]
  cases e : exec C p c { s } with
  | done ok st => simp
  | panicked => exact absurd e this

end Nested
end Sval
