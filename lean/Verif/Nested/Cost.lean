import Verif.Nested.Model
import Verif.Core.Carried

set_option autoImplicit false

/-!
# How many methods of a recursive stream are called
-/

namespace Sval

/-- The most calls that code can make, with those of values it hands over; a value handed over is a call too. -/
def Prog.most : Prog → Nat
  | .ret _ => 0
  | .call _ k => 1 + max (k true).most (k false).most
  | .value v k => 1 + v.most + max (k true).most (k false).most
  | .valueComputed v k => 1 + v.most + max (k true).most (k false).most

theorem Prog.most_max (k : Bool → Prog) (ok : Bool) : (k ok).most ≤ max (k true).most (k false).most := by
  cases ok <;> omega

namespace Nested

/-- The methods that are still to be called when there is a variant: two for each enum around it that was put off. -/
def Mode.owed : Mode → Nat
  | .enum q => 2 * q.length
  | .vtagged _ q => 2 * q.length
  | _ => 0

section
variable {σ : Type} (ν : σ → Nat)

/-- The methods that were called, if `ν` counts them, and those that are owed. -/
def pot (st : St σ) : Nat := ν st.s + st.mode.owed

/-- At most `n` more than there were; after an error nothing is owed any more. -/
def Costs (n : Nat) (r : Res Unit (St σ)) (st : St σ) : Prop :=
  match r with
  | .ok x => pot ν x ≤ pot ν st + n
  | .err _ x => ν x.s ≤ pot ν st + n
  | .panic => True

variable {ν} {C : Cb → σ → Res Unit σ}

theorem costs_catch {n : Nat} {a : Act σ} {st : St σ} (h : Costs ν n (a st) st) : Grows (pot ν) n (tryCatch a st) st := by
  rw [tryCatch]
  cases e : a st with
  | panic => trivial
  | ok x => rw [e] at h; exact h
  | err x y => rw [e] at h; exact h

theorem costs_err {n : Nat} {e : Unit} {st x : St σ} (h : x.s = st.s) : Costs ν n (.err e x) st := by
  show ν x.s ≤ pot ν st + n
  rw [h, pot]
  omega

theorem costs_ok {n : Nat} {st x : St σ} (h : x.s = st.s) (ho : x.mode.owed ≤ st.mode.owed + n) : Costs ν n (.ok x) st := by
  show pot ν x ≤ pot ν st + n
  rw [pot, pot, h]
  omega

theorem costs_buffered (st : St σ) (r : Res Buf.Err Buf.St) : Costs ν 2 (buffered st r) st := by
  rw [buffered.eq_def]
  split
  · exact costs_ok rfl (Nat.le_add_right _ _)
  · exact costs_err rfl
  · trivial

variable (hC : ∀ c s, Grows ν 1 (C c s) s)
include hC

theorem grows_cb (c : Cb) (st : St σ) : Grows (fun st : St σ => ν st.s) 1 (cb C c st) st := by
  have := hC c st.s
  rw [cb]
  cases h : C c st.s with
  | panic => trivial
  | ok s => rw [h] at this; exact this
  | err e s => rw [h] at this; exact this

theorem grows_nest {n : Nat} (q : List Meta) (a : Act σ) (ha : ∀ st, Grows (fun st : St σ => ν st.s) n (a st) st) (st : St σ) :
    Grows (fun st : St σ => ν st.s) (n + 2 * q.length) (nest C q a st) st := by
  induction q generalizing st with
  | nil => exact ha st
  | cons m q ih =>
    rw [nest]
    exact (((grows_cb hC _ st).bind ih).bind fun st => grows_cb hC _ st).mono (by simp only [List.length_cons]; omega)

omit hC in
/-- A new mode that owes nothing. -/
theorem costs_toMode {n m : Nat} {md : Mode} {r : Res Unit (St σ)} {st st' : St σ} (h : Grows (fun st : St σ => ν st.s) m r st')
    (hs : ν st'.s + m ≤ pot ν st + n) (ho : md.owed = 0) : Costs ν n (r.bind (toMode md)) st := by
  cases r with
  | panic => trivial
  | ok x =>
    have h : ν x.s ≤ ν st'.s + m := h
    show ν x.s + md.owed ≤ _
    omega
  | err e x =>
    have h : ν x.s ≤ ν st'.s + m := h
    show ν x.s ≤ _
    omega

theorem costs_cb (c : Cb) (st st' : St σ) (hs : st'.s = st.s) (ho : st'.mode.owed = 0) : Costs ν 1 (cb C c st') st := by
  have := hC c st'.s
  rw [cb]
  cases h : C c st'.s with
  | panic => trivial
  | ok s =>
    rw [h] at this
    have this : ν s ≤ ν st'.s + 1 := this
    show ν s + st'.mode.owed ≤ ν st.s + st.mode.owed + 1
    rw [hs] at this
    omega
  | err e s =>
    rw [h] at this
    have this : ν s ≤ ν st'.s + 1 := this
    show ν s ≤ ν st.s + st.mode.owed + 1
    rw [hs] at this
    omega

theorem costs_put (any : Cb) (a : Arg) (st st' : St σ) (hs : st'.s = st.s) (hm : st'.mode = st.mode) : Costs ν 1 (put C any a st') st := by
  have hp : pot ν st = ν st'.s + st'.mode.owed := by rw [pot, hs, hm]
  rw [put]
  split
  · exact costs_toMode (grows_cb hC _ _) (by omega) rfl
  · exact costs_toMode (grows_cb hC _ _) (by omega) rfl
  · rename_i h; exact costs_cb hC _ _ _ hs (by rw [h]; rfl)
  · rename_i h; exact costs_cb hC _ _ _ hs (by rw [h]; rfl)
  · rename_i h; exact costs_cb hC _ _ _ hs (by rw [h]; rfl)
  · exact costs_cb hC _ _ _ hs rfl
  · exact costs_cb hC _ _ _ hs rfl
  · exact costs_cb hC _ _ _ hs rfl
  · exact costs_cb hC _ _ _ hs rfl
  · rename_i m q h
    refine costs_toMode (grows_nest hC q _ (fun st => grows_cb hC _ st) _) ?_ rfl
    rw [hp, h, Mode.owed]
    omega
  all_goals exact costs_err hs

omit hC in
theorem Costs.mono {n m : Nat} {r : Res Unit (St σ)} {st : St σ} (h : Costs ν n r st) (hn : n ≤ m) : Costs ν m r st := by
  cases r with
  | panic => trivial
  | ok x => exact Nat.le_trans h (Nat.add_le_add_left hn _)
  | err e x => exact Nat.le_trans h (Nat.add_le_add_left hn _)

omit hC in
theorem costs_or (t : Token) {a : Act σ} {st : St σ} (h : Costs ν 2 (a st) st) : Grows (pot ν) 2 (bufferOr t a st) st := by
  rw [bufferOr]
  refine costs_catch ?_
  split
  · exact costs_buffered _ _
  · exact h

omit hC in
theorem costs_begin (t : Token) {a : Act σ} {f : List Meta → Act σ} {st : St σ} (ha : st.mode = .any → Costs ν 2 (a st) st)
    (hf : ∀ q, st.mode = .enum q → Costs ν 2 (f q st) st) : Grows (pot ν) 2 (bufferOrBegin t a f st) st := by
  rw [bufferOrBegin]
  refine costs_catch ?_
  split
  · exact costs_buffered _ _
  · rename_i h; exact ha h
  · rename_i q _ h; exact hf q h
  · split
    · exact costs_ok rfl (Nat.le_add_right _ _)
    · exact costs_err rfl
    · trivial
  · exact costs_err rfl

theorem costs_end (t : Token) {a : Act σ} {st : St σ} (h : Grows (fun st : St σ => ν st.s) (st.mode.owed + 2) (a st) st) :
    Grows (pot ν) 2 (bufferOrEnd C t a st) st := by
  rw [bufferOrEnd]
  refine costs_catch ?_
  split
  · exact costs_toMode h (by rw [pot]; omega) rfl
  · split
    · split
      · exact (costs_put hC _ _ _ _ rfl rfl).mono (by omega)
      · exact costs_ok rfl (Nat.le_add_right _ _)
    · exact costs_err rfl
    · trivial
  · exact costs_err rfl

/-- Two methods for a call, at most, with those that are owed. -/
theorem costs_call (t : Token) (st : St σ) : Grows (pot ν) 2 (call C t st) st := by
  have hput : ∀ any a, Costs ν 2 (put C any a st) st := fun any a => (costs_put hC any a st st rfl rfl).mono (by omega)
  have htake : ∀ any a, Costs ν 2 (put C any a { st with buf := none }) st := fun any a =>
    (costs_put hC any a st { st with buf := none } rfl rfl).mono (Nat.le_succ 1)
  have hbegin : ∀ c md, md.owed = 0 → Costs ν 2 ((cb C c st).bind (toMode md)) st := fun c md h =>
    costs_toMode (grows_cb hC c st) (by rw [pot]; omega) h
  have herr : ∀ x : St σ, Grows (fun st : St σ => ν st.s) (x.mode.owed + 2) (.err () x) x := fun x => Nat.le_add_right _ _
  have hcb : ∀ c, Grows (fun st : St σ => ν st.s) (st.mode.owed + 2) (cb C c st) st := fun c =>
    (grows_cb hC c st).mono (n := 1) (by omega)
  have hfin : Grows (fun st : St σ => ν st.s) (st.mode.owed + 2) (finish st) st := by
    rw [finish]
    split
    · exact Nat.le_add_right _ _
    · exact herr _
  have same : Grows (pot ν) 2 (.ok st : Res Unit (St σ)) st := Nat.le_add_right _ _
  have hok : ∀ x : St σ, x.s = st.s → x.mode.owed = 0 → Costs ν 2 (.ok x) st := fun x h1 h2 => costs_ok h1 (by omega)
  have push : ∀ b, Costs ν 2 (putBuffer b st) st := by
    intro b
    rw [putBuffer]
    split
    · exact costs_ok rfl (Nat.le_add_right _ _)
    · exact costs_err rfl
  have wt : ∀ f, Costs ν 2 (withText f st) st := by
    intro f
    rw [withText]
    split
    · split
      · exact costs_ok rfl (Nat.le_add_right _ _)
      · exact costs_err rfl
    · exact costs_err rfl
  have wb : ∀ f, Costs ν 2 (withBinary f st) st := by
    intro f
    rw [withBinary]
    split
    · split
      · exact costs_ok rfl (Nat.le_add_right _ _)
      · exact costs_err rfl
    · exact costs_err rfl
  cases t with
  | null | bool | int | f32 | f64 => exact costs_or _ (hput _ _)
  | textBegin | binaryBegin => exact costs_or _ (push _)
  | textFragment | textFragmentComputed => exact costs_or _ (wt _)
  | binaryFragment | binaryFragmentComputed => exact costs_or _ (wb _)
  | textEnd | binaryEnd =>
    refine costs_or _ ?_
    split
    · split
      · exact htake _ _
      · exact htake _ _
    · exact costs_err rfl
  | tag m =>
    refine costs_or _ ?_
    split
    · rename_i q h
      refine costs_toMode (grows_nest hC q _ (fun st => grows_cb hC _ st) st) ?_ rfl
      rw [pot, h, Mode.owed]
      omega
    · exact hput _ _
  | seqBegin | mapBegin => exact costs_begin _ (fun _ => hbegin _ _ rfl) fun _ _ => costs_err rfl
  | seqValueBegin | seqValueEnd | tagHint => exact same
  | mapKeyBegin | mapValueBegin =>
    refine costs_or _ ?_
    split
    · exact hok _ rfl rfl
    · exact costs_err rfl
  | mapKeyEnd | mapValueEnd | recordValueEnd | tupleValueEnd | recordTupleValueEnd =>
    exact costs_or _ (costs_ok rfl (Nat.le_add_right _ _))
  | seqEnd =>
    refine costs_end hC _ ?_
    split
    · exact hcb _
    · exact herr _
  | mapEnd | recordEnd | tupleEnd | recordTupleEnd =>
    refine costs_end hC _ ?_
    split
    · exact hcb _
    · first | exact hcb _ | exact herr _
    try exact herr _
  | enumBegin m =>
    refine costs_begin _ (fun _ => hbegin _ _ rfl) fun q h => costs_ok rfl ?_
    rw [h]
    simp only [Mode.owed, List.length_append, List.length_cons, List.length_nil]
    omega
  | enumEnd m =>
    refine costs_end hC _ ?_
    split
    · rename_i q h
      rw [endless]
      exact (grows_nest (n := 0) hC q (fun _ => .panic) (fun _ => trivial) st).mono (by rw [h, Mode.owed]; omega)
    · exact hfin
    · exact herr _
  | taggedBegin m =>
    exact costs_begin _ (fun _ => hok _ rfl rfl) fun q h => costs_ok rfl (by rw [h]; exact Nat.le_add_right _ _)
  | taggedEnd m => exact costs_end hC _ hfin
  | recordBegin | tupleBegin | recordTupleBegin =>
    refine costs_begin _ (fun _ => hbegin _ _ rfl) fun q _ => ?_
    split
    · exact hbegin _ _ rfl
    · trivial
  | recordValueBegin | tupleValueBegin | recordTupleValueBegin =>
    refine costs_or _ ?_
    split
    · exact hok _ rfl rfl
    · exact hok _ rfl rfl
    · exact costs_err rfl

/-- Any code. -/
theorem costs_exec (p : Prog) : ∀ (c : Bool) (st st' : St σ) (ok : Bool), exec C p c st = .done ok st' → pot ν st' ≤ pot ν st + 2 * p.most := by
  have del : ∀ (v : Prog) (comp : Bool) (go : St σ → Outcome (St σ)) (st st' : St σ) (ok : Bool),
      (∀ st st' ok, go st = .done ok st' → pot ν st' ≤ pot ν st + 2 * v.most) → delegate C v comp go st = .done ok st' →
      pot ν st' ≤ pot ν st + 2 * (1 + v.most) := by
    intro v comp go st st' ok hgo h
    rw [delegate] at h
    split at h
    · split at h <;> cases h
      · exact Nat.le_add_right _ _
      · show ν st.s + 0 ≤ ν st.s + _ + _
        omega
    · split at h
      · have hg := hgo st
        split at h <;> cases h
        · rename_i x hx
          have := hg _ _ hx
          omega
        · rename_i x hx
          have := hg _ _ hx
          show ν x.s + 0 ≤ _
          rw [pot] at this
          omega
      · have hp := costs_catch (costs_put hC (.value ⟨!comp, v⟩) ⟨!comp, v⟩ st st rfl rfl)
        generalize tryCatch (put C (.value ⟨!comp, v⟩) ⟨!comp, v⟩) st = r at h hp
        cases r with
        | panic => cases h
        | ok x => cases h; exact Nat.le_trans hp (by omega)
        | err e x => cases h; exact Nat.le_trans hp (by omega)
  induction p with
  | ret ok =>
    intro c st st' ok h
    cases h
    exact Nat.le_add_right _ _
  | call t k ih =>
    intro c st st' ok h
    rw [exec] at h
    have hc := costs_call hC (if c then computedTok t else t) st
    simp only [Prog.most]
    split at h
    · rename_i x hx
      rw [hx] at hc
      have hc : pot ν x ≤ pot ν st + 2 := hc
      have := ih _ _ _ _ _ h
      have := Prog.most_max k true
      omega
    · rename_i e x hx
      rw [hx] at hc
      have hc : pot ν x ≤ pot ν st + 2 := hc
      have := ih _ _ _ _ _ h
      have := Prog.most_max k false
      omega
    · cases h
  | value v k ihv ih =>
    intro c st st' ok h
    rw [exec] at h
    simp only [Prog.most]
    have hv : ∀ ok x, (if c then exec C v true st else delegate C v false (exec C v false) st) = .done ok x →
        pot ν x ≤ pot ν st + 2 * (1 + v.most) := by
      intro ok x hx
      cases c with
      | true => exact Nat.le_trans (ihv _ _ _ _ hx) (by omega)
      | false => exact del v false _ st x ok (ihv false) hx
    split at h
    · rename_i o x hx
      have := hv _ _ hx
      have := ih _ _ _ _ _ h
      have := Prog.most_max k o
      omega
    · cases h
  | valueComputed v k ihv ih =>
    intro c st st' ok h
    rw [exec] at h
    simp only [Prog.most]
    split at h
    · rename_i o x hx
      have := del v true _ st x _ (ihv true) hx
      have := ih _ _ _ _ _ h
      have := Prog.most_max k o
      omega
    · cases h

end

end Nested

end Sval
