import Verif.Props.Buffer

set_option autoImplicit false

/-!
# What a buffer can hold without an allocator: C70
-/

namespace Sval.Buf

/-- Borrowed fragments, none after one that is not empty. -/
def single {α : Type} : List (Frag (List α)) → Bool
  | [] => true
  | .borrowed s :: r => if s.length = 0 then single r else r.length == 0
  | .computed _ :: _ => false

/-- A name that need not be copied. -/
def staticName (m : Meta) : Bool :=
  match m.label with
  | some l => l.asStaticStr.isSome
  | none => true

/-- Values of one part that need not be copied: scalars, text and bytes borrowed as a whole, tags, and containers without
anything in them. -/
def onePart : V → Bool
  | .text _ fs => single fs
  | .binary _ fs => single fs
  | .tag m => staticName m
  | .seq _ xs => xs.length == 0
  | .map _ kvs => kvs.length == 0
  | .record m _ fs => staticName m && fs.length == 0
  | .tuple m _ fs => staticName m && fs.length == 0
  | .recordTuple m _ fs => staticName m && fs.length == 0
  | .tagged _ _ | .enum _ _ | .hint _ _ => false
  | _ => true

/-- Not text or bytes, or none. -/
def noText : V → Bool
  | .text _ fs => fs.length == 0
  | .binary _ fs => fs.length == 0
  | _ => true

theorem ownMeta_static (m : Meta) : (ownMeta false m).isSome = staticName m := by
  unfold ownMeta staticName
  cases m.label with
  | none => rfl
  | some l => simp [ownLabel, Label.tryToOwnedNoAlloc]

/-- A run that ends well. -/
def fine (r : Res Err St) : Bool :=
  match r with
  | .ok _ => true
  | _ => false

theorem fine_ok {r : Res Err St} : fine r = true ↔ ∃ s, r = .ok s := by
  cases r <;> simp [fine]

/-- A full buffer takes no value. -/
theorem full (v : V) (r : List Token) (s : St) (hs : s.parts.length = 1) : fine (run (step false) (toks v ++ r) s) = false := by
  have hk : ∀ k s', s'.parts.length = 1 → fine (pushKind false k s') = false := by
    intro k s' h; simp [pushKind, h, fail, fine]
  have hb : ∀ o, fine (pushBegin false o s) = false := by
    intro o
    unfold pushBegin
    split
    · exact hk _ _ hs
    · rfl
  have hm : ∀ m o, fine (beginMeta false m o s) = false := by
    intro m o
    unfold beginMeta
    split
    · exact hb _
    · rfl
  have hc : ∀ t ts, fine (step false t s) = false → fine (run (step false) (t :: ts) s) = false := by
    intro t ts h
    rw [run_cons]
    cases hr : step false t s with
    | ok s' => rw [hr] at h; cases h
    | err e s' => rfl
    | panic => rfl
  cases v with
  | tag m =>
    refine hc _ _ ?_
    show fine (match ownMeta false m with | some m => pushKind false (.tag m) s | none => fail .noAlloc s) = false
    cases ownMeta false m with
    | none => rfl
    | some m' => exact hk _ _ hs
  | tagged m v => exact hc _ _ (hm _ _)
  | enum m v => exact hc _ _ (hm _ _)
  | record m n fs => exact hc _ _ (hm _ _)
  | tuple m n fs => exact hc _ _ (hm _ _)
  | recordTuple m n fs => exact hc _ _ (hm _ _)
  | seq n xs => exact hc _ _ (hb _)
  | map n xs => exact hc _ _ (hb _)
  | _ => exact hc _ _ (hk _ _ hs)

/-- An open container takes no part of it. -/
theorem full_begin (s : St) (hs : s.stack.length = 1) (o : Opener) : fine (pushBegin false o s) = false := by
  simp [pushBegin, hs, fail, fine]

theorem full_label (s : St) (hs : s.stack.length = 1) (l : Label) (o : Label → Opener) : fine (beginLabel false l o s) = false := by
  unfold beginLabel
  split
  · exact full_begin s hs _
  · rfl

theorem fine_bind {r : Res Err St} {f : St → Res Err St} : fine (r.bind f) = true ↔ ∃ s, r = .ok s ∧ fine (f s) = true := by
  cases r <;> simp [Res.bind, fine]

theorem fine_cons (t : Token) (ts : List Token) (s : St) :
    fine (run (step false) (t :: ts) s) = true ↔ ∃ s', step false t s = .ok s' ∧ fine (run (step false) ts s') = true := by
  rw [run_cons]; exact fine_bind

theorem begin_new (o : Opener) : pushBegin false o {} = .ok { parts := [.opened o 0], stack := [0] } := rfl

theorem beginMeta_new (m : Meta) (o : Meta → Opener) (s : St) :
    beginMeta false m o {} = .ok s ↔ ∃ m', ownMeta false m = some m' ∧ s = { parts := [.opened (o m') 0], stack := [0] } := by
  unfold beginMeta
  cases ownMeta false m with
  | none => simp [fail]
  | some m' => simp [begin_new, eq_comm]

theorem static_iff (m : Meta) : staticName m = true ↔ ∃ m', ownMeta false m = some m' := by
  rw [← ownMeta_static, Option.isSome_iff_exists]

/-- Containers whose name is owned first. -/
theorem meta_runs (m : Meta) (o : Meta → Opener) (b e : Token) (hb : ∀ s, step false b s = beginMeta false m o s)
    (he : ∀ s, step false e s = pushEnd s) {α : Type} (xs : List α) (ts : List Token)
    (h0 : xs = [] → ts = []) (h1 : xs ≠ [] → ∀ s : St, s.stack.length = 1 → fine (run (step false) (ts ++ [e]) s) = false) :
    fine (run (step false) (b :: (ts ++ [e])) {}) = (staticName m && xs.length == 0) := by
  rw [Bool.eq_iff_iff, fine_cons, Bool.and_eq_true, static_iff]
  simp only [hb, beginMeta_new]
  cases xs with
  | nil =>
    rw [h0 rfl]
    constructor
    · rintro ⟨s, ⟨m', h, rfl⟩, _⟩; exact ⟨⟨m', h⟩, rfl⟩
    · rintro ⟨⟨m', h⟩, _⟩
      refine ⟨_, ⟨m', h, rfl⟩, ?_⟩
      rw [List.nil_append, fine_cons]
      exact ⟨_, (he _).trans rfl, rfl⟩
  | cons x xs =>
    constructor
    · rintro ⟨s, ⟨m', h, rfl⟩, h2⟩
      rw [h1 (by simp) _ rfl] at h2; cases h2
    · rintro ⟨_, h⟩; cases h

theorem text_runs (fs : List (Frag Text)) (c : Cow Char) (hc : c.content.length = 0) :
    fine (run (step false) (fs.map textFragTok ++ [.textEnd]) { parts := [.text c], inText := true }) = single fs := by
  induction fs generalizing c with
  | nil => rfl
  | cons f fs ih =>
    cases f with
    | computed s => rfl
    | borrowed s =>
      rw [List.map_cons, List.cons_append, run_cons]
      have h : step false (textFragTok (.borrowed s)) { parts := [.text c], inText := true } =
          .ok { parts := [.text (.borrowed s)], inText := true } := by
        simp [textFragTok, step, textPush, Cow.push, hc, setLast]
      rw [h]
      show fine (run (step false) (fs.map textFragTok ++ [.textEnd]) { parts := [.text (.borrowed s)], inText := true }) = _
      rw [single]
      split
      · rename_i hs; exact ih _ hs
      · rename_i hs
        cases fs with
        | nil => rfl
        | cons g fs =>
          rw [List.map_cons, List.cons_append, run_cons]
          cases g <;> simp [textFragTok, step, textPush, Cow.push, Cow.pushComputed, Cow.content, hs, fail, Res.bind, fine]

theorem binary_runs (fs : List (Frag Bytes)) (c : Cow UInt8) (hc : c.content.length = 0) :
    fine (run (step false) (fs.map binFragTok ++ [.binaryEnd]) { parts := [.binary c], inText := true }) = single fs := by
  induction fs generalizing c with
  | nil => rfl
  | cons f fs ih =>
    cases f with
    | computed s => rfl
    | borrowed s =>
      rw [List.map_cons, List.cons_append, run_cons]
      have h : step false (binFragTok (.borrowed s)) { parts := [.binary c], inText := true } =
          .ok { parts := [.binary (.borrowed s)], inText := true } := by
        simp [binFragTok, step, binaryPush, Cow.push, hc, setLast]
      rw [h]
      show fine (run (step false) (fs.map binFragTok ++ [.binaryEnd]) { parts := [.binary (.borrowed s)], inText := true }) = _
      rw [single]
      split
      · rename_i hs; exact ih _ hs
      · rename_i hs
        cases fs with
        | nil => rfl
        | cons g fs =>
          rw [List.map_cons, List.cons_append, run_cons]
          cases g <;> simp [binFragTok, step, binaryPush, Cow.push, Cow.pushComputed, Cow.content, hs, fail, Res.bind, fine]

theorem fits_iff (v : V) : fine (run (step false) (toks v) {}) = onePart v := by
  cases v with
  | text n fs => exact text_runs fs .new rfl
  | binary n fs => exact binary_runs fs .new rfl
  | tag m =>
    rw [toks, Bool.eq_iff_iff, fine_cons, onePart, static_iff]
    simp only [step]
    cases ownMeta false m with
    | none => simp [fail]
    | some m' => simp [pushKind, fine]
  | tagged m v =>
    rw [toks, Bool.eq_iff_iff, fine_cons, onePart]
    simp only [step, beginMeta_new, Bool.false_eq_true, iff_false]
    rintro ⟨s, ⟨m', _, rfl⟩, h⟩
    rw [full _ _ _ rfl] at h; cases h
  | enum m v =>
    rw [toks, Bool.eq_iff_iff, fine_cons, onePart]
    simp only [step, beginMeta_new, Bool.false_eq_true, iff_false]
    rintro ⟨s, ⟨m', _, rfl⟩, h⟩
    rw [full _ _ _ rfl] at h; cases h
  | hint t v =>
    have := full v [] { parts := [.tagHint t] } rfl
    rw [List.append_nil] at this
    exact this
  | seq n xs => cases xs with
    | nil => rfl
    | cons x xs => rfl
  | map n xs => cases xs with
    | nil => rfl
    | cons x xs => rfl
  | record m n fs =>
    refine meta_runs m _ _ _ (fun _ => rfl) (fun _ => rfl) fs (toksRec fs) (fun h => by rw [h, toksRec]) ?_
    intro h s hs
    cases fs with
    | nil => exact absurd rfl h
    | cons f fs =>
      rw [toksRec, List.cons_append, Bool.eq_false_iff, ne_eq, fine_cons]
      rintro ⟨s', h', _⟩
      have := full_label s hs f.2.1 (.recordValue f.1 ·)
      rw [show beginLabel false f.2.1 (.recordValue f.1 ·) s = .ok s' from h'] at this
      cases this
  | tuple m n fs =>
    refine meta_runs m _ _ _ (fun _ => rfl) (fun _ => rfl) fs (toksTup fs) (fun h => by rw [h, toksTup]) ?_
    intro h s hs
    cases fs with
    | nil => exact absurd rfl h
    | cons f fs =>
      rw [toksTup, List.cons_append, Bool.eq_false_iff, ne_eq, fine_cons]
      rintro ⟨s', h', _⟩
      have := full_begin s hs (.tupleValue f.1 f.2.1)
      rw [show pushBegin false (.tupleValue f.1 f.2.1) s = .ok s' from h'] at this
      cases this
  | recordTuple m n fs =>
    refine meta_runs m _ _ _ (fun _ => rfl) (fun _ => rfl) fs (toksRT fs) (fun h => by rw [h, toksRT]) ?_
    intro h s hs
    cases fs with
    | nil => exact absurd rfl h
    | cons f fs =>
      rw [toksRT, List.cons_append, Bool.eq_false_iff, ne_eq, fine_cons]
      rintro ⟨s', h', _⟩
      have := full_label s hs f.2.1 (.recordTupleValue f.1 · f.2.2.1)
      rw [show beginLabel false f.2.1 (.recordTupleValue f.1 · f.2.2.1) s = .ok s' from h'] at this
      cases this
  | _ => rfl

/-- The answer of a step that lacks an allocator. -/
def Lacks (r : Res Err St) : Prop := ∃ s, r = .err .noAlloc s ∧ s.err = some .noAlloc

theorem lacks_fail (s : St) : Lacks (fail .noAlloc s) := ⟨_, rfl, rfl⟩

theorem pushKind_same (k : Part) (s : St) : pushKind false k s = pushKind true k s ∨ Lacks (pushKind false k s) := by
  unfold pushKind
  by_cases h : s.parts.length < 1
  · exact .inl (by simp [h])
  · exact .inr (by rw [if_neg (by simpa using h)]; exact lacks_fail _)

theorem pushBegin_same (o : Opener) (s : St) : pushBegin false o s = pushBegin true o s ∨ Lacks (pushBegin false o s) := by
  unfold pushBegin
  by_cases h : s.stack.length < 1
  · simp only [h, decide_true, Bool.or_true, if_true]; exact pushKind_same _ _
  · exact .inr (by rw [if_neg (by simpa using h)]; exact lacks_fail _)

theorem beginMeta_same (m : Meta) (o : Meta → Opener) (s : St) :
    beginMeta false m o s = beginMeta true m o s ∨ Lacks (beginMeta false m o s) := by
  rw [beginMeta_true]
  unfold beginMeta
  cases h : ownMeta false m with
  | none => exact .inr (lacks_fail _)
  | some m' => rw [ownMeta_noalloc m m' h]; exact pushBegin_same _ _

theorem beginLabel_same (l : Label) (o : Label → Opener) (s : St) :
    beginLabel false l o s = beginLabel true l o s ∨ Lacks (beginLabel false l o s) := by
  rw [beginLabel_true]
  unfold beginLabel
  cases h : ownLabel false l with
  | none => exact .inr (lacks_fail _)
  | some l' => rw [show l' = l.toOwned from tryToOwned_eq l l' h]; exact pushBegin_same _ _

theorem textPush_same (f g : Cow Char → Except Err (Cow Char)) (s : St)
    (h : ∀ c, f c = g c ∨ f c = .error .noAlloc) : textPush f s = textPush g s ∨ Lacks (textPush f s) := by
  unfold textPush
  split
  · exact .inl rfl
  · rename_i c _
    rcases h c with h | h
    · exact .inl (by rw [h])
    · exact .inr (by rw [h]; exact lacks_fail _)
  · exact .inl rfl

theorem binaryPush_same (f g : Cow UInt8 → Except Err (Cow UInt8)) (s : St)
    (h : ∀ c, f c = g c ∨ f c = .error .noAlloc) : binaryPush f s = binaryPush g s ∨ Lacks (binaryPush f s) := by
  unfold binaryPush
  split
  · exact .inl rfl
  · rename_i c _
    rcases h c with h | h
    · exact .inl (by rw [h])
    · exact .inr (by rw [h]; exact lacks_fail _)
  · exact .inl rfl

theorem push_same {α : Type} (f : List α) (c : Cow α) : c.push false f = c.push true f ∨ c.push false f = .error .noAlloc := by
  unfold Cow.push
  split
  · exact .inl rfl
  · exact .inr rfl

/-- Without an allocator a call does what it does with one, or fails for lack of one. -/
theorem step_same (t : Token) (s : St) : step false t s = step true t s ∨ Lacks (step false t s) := by
  cases t with
  | textFragment f => exact textPush_same _ _ s (push_same f)
  | binaryFragment f => exact binaryPush_same _ _ s (push_same f)
  | textFragmentComputed f => exact textPush_same _ (fun c => c.pushComputed true f) s (fun c => .inr rfl)
  | binaryFragmentComputed f => exact binaryPush_same _ (fun c => c.pushComputed true f) s (fun c => .inr rfl)
  | tag m =>
    simp only [step, ownMeta_true]
    cases h : ownMeta false m with
    | none => exact .inr (lacks_fail _)
    | some m' => rw [ownMeta_noalloc m m' h]; exact pushKind_same _ _
  | _ => first
    | exact pushKind_same _ _
    | exact pushBegin_same _ _
    | exact beginMeta_same _ _ _
    | exact beginLabel_same _ _ _
    | exact .inl rfl

theorem stepB_same (t : Token) (x : St × Bool) :
    stepB false t x = stepB true t x ∨ ∃ s, stepB false t x = ((s, false), false) ∧ s.err = some .noAlloc := by
  unfold stepB
  split
  · exact .inl rfl
  · rcases step_same t x.1 with h | ⟨s, h, he⟩
    · exact .inl (by rw [h])
    · exact .inr ⟨s, by rw [h], he⟩

theorem exec_same (p : Prog) : ∀ (w : Wrapper) (x : St × Bool), p.Propagates →
    exec (stepB false) p w x = exec (stepB true) p w x ∨
      ∃ s, exec (stepB false) p w x = ((s, false), false) ∧ s.err = some .noAlloc := by
  induction p with
  | ret ok => intro w x _; exact .inl rfl
  | call t k ih =>
    rintro w x ⟨h0, h1⟩
    simp only [exec]
    rcases stepB_same (w.tok t) x with h | ⟨s, h, he⟩
    · rw [h]
      cases hr : (stepB true (w.tok t) x).2 with
      | true => exact ih true _ _ h1
      | false => rw [h0]; exact .inl rfl
    · rw [h]; exact .inr ⟨s, by rw [h0]; rfl, he⟩
  | value v k ihv ih =>
    rintro w x ⟨hv, h0, h1⟩
    simp only [exec]
    rcases ihv w.valueTarget x hv with h | ⟨s, h, he⟩
    · rw [h]
      cases hr : (exec (stepB true) v w.valueTarget x).2 with
      | true => exact ih true _ _ h1
      | false => rw [h0]; exact .inl rfl
    · rw [h]; exact .inr ⟨s, by rw [h0]; rfl, he⟩
  | valueComputed v k ihv ih =>
    rintro w x ⟨hv, h0, h1⟩
    simp only [exec]
    rcases ihv w.computedTarget x hv with h | ⟨s, h, he⟩
    · rw [h]
      cases hr : (exec (stepB true) v w.computedTarget x).2 with
      | true => exact ih true _ _ h1
      | false => rw [h0]; exact .inl rfl
    · rw [h]; exact .inr ⟨s, by rw [h0]; rfl, he⟩

end Sval.Buf

namespace Sval
open Buf

/-- C70, for any code that uses `?`: without an allocator `collect` and `collect_owned` do exactly what they do with one, or
fail for lack of one. -/
theorem C70 (computed : Bool) (p : Prog) (hp : p.Propagates) :
    collect false computed p = collect true computed p ∨ collect false computed p = .err .noAlloc := by
  simp only [collect]
  rcases exec_same p (if computed then .computed .base else .base) ({}, false) hp with h | ⟨s, h, he⟩
  · exact .inl (by rw [h])
  · exact .inr (by rw [h]; simp [he])

/-- C70: which values that is: those of one part with nothing to copy. -/
theorem C70_exact (v : V) : (∃ s, collect false false (valueOf v) = .ok s) ↔ onePart v = true := by
  rw [← fits_iff, fine_ok]
  have ht : (toks v).map Wrapper.base.tok = toks v := by simp [Wrapper.tok]
  constructor
  · rintro ⟨s, h⟩
    rcases run_noalloc (toks v) {} _ (appends_enc v {} rfl) with h1 | ⟨s1, h1⟩
    · exact ⟨_, h1⟩
    · have := (exec_stepB false .base (toks v) {}).2.1 _ _ (ht.symm ▸ h1)
      have he : s1.err = some .noAlloc := run_err_recorded false (toks v) {} s1 .noAlloc h1
      simp [collect, valueOf, this, he] at h
  · rintro ⟨s, h⟩
    have := (exec_stepB false .base (toks v) {}).1 _ (ht.symm ▸ h)
    exact ⟨s, by simp [collect, valueOf, this]⟩

theorem onePart_comp (v : V) : onePart (comp v) = (onePart v && noText v) := by
  cases v with
  | text n fs =>
    simp only [comp, onePart, noText]
    cases fs with
    | nil => rfl
    | cons f fs => simp [fragComp, single]
  | binary n fs =>
    simp only [comp, onePart, noText]
    cases fs with
    | nil => rfl
    | cons f fs => simp [fragComp, single]
  | seq n xs => cases xs <;> simp [comp, compSeq, onePart, noText]
  | map n xs => cases xs <;> simp [comp, compMap, onePart, noText]
  | record m n fs => cases fs <;> simp [comp, compRec, onePart, noText]
  | tuple m n fs => cases fs <;> simp [comp, compTup, onePart, noText]
  | recordTuple m n fs => cases fs <;> simp [comp, compRT, onePart, noText]
  | _ => simp [comp, onePart, noText]

/-- C70: an owned buffer cannot hold text or bytes either, unless there is none of it. -/
theorem C70_exact_owned (v : V) : (∃ s, collect false true (valueOf v) = .ok s) ↔ (onePart v && noText v) = true := by
  rw [← onePart_comp, ← fits_iff, fine_ok]
  have ht : (toks v).map (Wrapper.computed .base).tok = toks (comp v) := by rw [toks_comp]; rfl
  constructor
  · rintro ⟨s, h⟩
    rcases run_noalloc (toks (comp v)) {} _ (appends_enc (comp v) {} rfl) with h1 | ⟨s1, h1⟩
    · exact ⟨_, h1⟩
    · have := (exec_stepB false (.computed .base) (toks v) {}).2.1 _ _ (ht.symm ▸ h1)
      have he : s1.err = some .noAlloc := run_err_recorded false (toks (comp v)) {} s1 .noAlloc h1
      simp [collect, valueOf, this, he] at h
  · rintro ⟨s, h⟩
    have := (exec_stepB false (.computed .base) (toks v) {}).1 _ (ht.symm ▸ h)
    exact ⟨s, by simp [collect, valueOf, this]⟩

/-- C70 does not extend to code that goes on after a failed call: it gets a buffer of part of the value. -/
theorem C70_fails_careless : ∃ p : Prog, collect true false p = .ok { parts := [.tagHint tags.NUMBER, .int .u8 1] } ∧
    collect false false p = .ok { parts := [.tagHint tags.NUMBER], err := some .noAlloc } :=
  ⟨.call (.tagHint tags.NUMBER) fun _ => .call (.int .u8 1) fun _ => .ret true, rfl, rfl⟩

example : onePart (.text none [.borrowed [], .borrowed (t! "abc")]) = true ∧
    onePart (.text none [.borrowed (t! "abc"), .borrowed []]) = false ∧
    onePart (.record { label := some (Label.newComputed (t! "R")) } none []) = false ∧
    onePart (.tag { label := some (Label.new (t! "A")) }) = true := by decide

end Sval
