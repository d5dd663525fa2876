import Verif.Buffer.Again

set_option autoImplicit false

/-!
# A buffer of a buffer is that buffer: C95
-/

namespace Sval
open Buf

/-- What a buffer holds, an empty one being a null. -/
def Buf.St.value (s : St) : List Part := if s.parts = [] then [.null] else s.parts

theorem Buf.Reach.again {s : St} (h : Reach s) : ∃ T, replay s.parts = ⟨T, false⟩ ∧ Appends T s.value := by
  obtain ⟨T, h1, h2⟩ := h.shape.closed.appends h.kept
  unfold St.value replay
  by_cases h0 : s.parts = []
  · rw [if_pos (by simp [h0]), if_pos h0]
    exact ⟨[.null], rfl, Appends.leaf _ _ fun _ => rfl⟩
  · rw [if_neg (by simpa using h0), if_neg h0]
    exact ⟨T, h1.out, h2⟩

/-- Whatever code does, a buffer is collected by calls. -/
theorem Buf.reach_collect (computed : Bool) (p : Prog) (s : St) (h : collect true computed p = .ok s) : Reach s := by
  have key := exec_inv (stepB true) (fun s => Reach s.1) (fun t s hs => by
    unfold stepB
    split
    · exact hs
    · split
      · next h => exact .ok t hs h
      · next h => exact .err t hs h
      · exact hs) p (if computed then .computed .base else .base) ({}, false) .new
  unfold collect at h
  generalize (if computed then Wrapper.computed .base else .base) = w at h key
  dsimp only at h
  split at h
  · cases h
  · split at h
    · cases h; exact key
    · split at h <;> cases h

/-- C95. Stream a buffer into another, between two values, in whatever way the first was filled: by any calls, errors ignored
or not, ended or not, owned or not. The second then holds what it held and after it exactly the parts of the first; nothing
else changes. Through `value_computed` it holds them as the first would after `into_owned`. -/
theorem C95 (s : St) (h : Reach s) (r : St) (hr : r.inText = false) :
    ∃ T, replay s.parts = ⟨T, false⟩ ∧ run (Buf.step true) T r = .ok { r with parts := r.parts ++ s.value } ∧
      run (Buf.step true) (T.map computedTok) r = .ok { r with parts := r.parts ++ (intoOwned s).value } := by
  obtain ⟨T, h1, h2⟩ := h.again
  obtain ⟨T', h1', h2'⟩ := h.own.again
  have e : (⟨T', false⟩ : Out) = (⟨T, false⟩ : Out).map computedTok := by
    rw [← h1', ← h1]
    unfold replay intoOwned
    simp only [List.length_map]
    split
    · rfl
    · exact replayN_own _ _
  cases e
  exact ⟨T, h1, h2 r hr, h2' r hr⟩

/-- C95. A buffer that holds something, collected again by `ValueBuf::collect`, is the same; by `ValueBuf::collect_owned`, it
is what `into_owned` makes of it. In particular it is complete, also if the first was not. -/
theorem C95_collect (s : St) (h : Reach s) (hs : s.parts ≠ []) :
    ∃ T, replay s.parts = ⟨T, false⟩ ∧ collect true false (.ofToks T) = .ok { parts := s.parts } ∧
      collect true true (.ofToks T) = .ok { parts := s.parts.map Part.intoOwned } ∧
      isComplete { parts := s.parts } = true := by
  obtain ⟨T, h1, h2, h3⟩ := C95 s h {} rfl
  have hs' : s.parts.map Part.intoOwned ≠ [] := by simpa using hs
  refine ⟨T, h1, ?_, ?_, ?_⟩
  · have := (exec_stepB true .base T {}).1 _ (by simpa [Wrapper.tok] using h2)
    simp [collect, this, St.value, hs]
  · have := (exec_stepB true (.computed .base) T {}).1 _ (by simpa [Wrapper.tok] using h3)
    simp [collect, this, St.value, intoOwned, hs]
  · have := List.length_pos_iff.2 hs
    simpa [isComplete] using this

/-- C95 for whatever any code is collected as. -/
theorem C95_code (computed : Bool) (p : Prog) (s : St) (h : collect true computed p = .ok s) (hs : s.parts ≠ []) :
    ∃ T, replay s.parts = ⟨T, false⟩ ∧ collect true false (.ofToks T) = .ok { parts := s.parts } ∧
      collect true true (.ofToks T) = .ok { parts := s.parts.map Part.intoOwned } :=
  let ⟨T, h1, h2, h3, _⟩ := C95_collect s (reach_collect _ _ _ h) hs
  ⟨T, h1, h2, h3⟩

/-- A buffer that is not complete, filled by code that goes on after an error. -/
example : ∃ s, Reach s ∧ s.parts = [.opened (.seq none) 0, .text (.borrowed (t! "a")), .opened (.map (some 1)) 1, .bool true] ∧
    s.stack = [0] ∧ s.err = some .outsideContainer ∧
    collect true false (.ofToks [.seqBegin none, .seqEnd, .textBegin (some 1), .textFragment (t! "a"), .textEnd, .mapBegin (some 1),
      .bool true, .mapEnd]) = .ok { parts := s.parts } := by
  refine ⟨_, .ok .mapEnd (.err (.textFragment (t! "b")) (.ok (.bool true) (.ok (.mapBegin (some 1)) (.ok .textEnd
    (.ok (.textFragment (t! "a")) (.ok (.textBegin none) (.ok (.seqBegin none) .new rfl) rfl) rfl) rfl) rfl) rfl) rfl) rfl,
    by decide +kernel, rfl, rfl, by decide +kernel⟩

/-! ## Without an allocator -/

namespace Buf

/-- Labels that can be kept without an allocator. -/
def Opener.lone : Opener → Prop
  | .enum m | .tagged m | .record m _ | .tuple m _ | .recordTuple m _ => ownMeta false m = some m
  | .recordValue _ l | .recordTupleValue _ l _ => ownLabel false l = some l
  | _ => True

/-- What a buffer without an allocator can hold. -/
def Part.lone : Part → Prop
  | .text c => c.asBorrowed.isSome = true
  | .binary c => c.asBorrowed.isSome = true
  | .tag m => ownMeta false m = some m
  | .opened o l => l = 0 ∧ o.lone
  | _ => True

/-- At most one such part. -/
def St.small (s : St) : Prop := s.parts = [] ∨ ∃ k, s.parts = [k] ∧ k.lone

theorem ownLabel_lone (l l' : Label) (h : ownLabel false l = some l') : ownLabel false l' = some l' := by
  simp only [ownLabel, Bool.false_eq_true, if_false, Label.tryToOwnedNoAlloc, Label.asStaticStr] at *
  cases hb : l.backing <;> simp_all <;> subst h <;> exact ⟨rfl, rfl⟩

theorem ownMeta_lone (m m' : Meta) (h : ownMeta false m = some m') : ownMeta false m' = some m' := by
  obtain ⟨t, l, i⟩ := m
  cases l with
  | none => simp only [ownMeta, Option.some.injEq] at h; rw [← h]; rfl
  | some l =>
    simp only [ownMeta, Option.map_eq_some_iff] at h
    obtain ⟨l', h1, rfl⟩ := h
    simp only [ownMeta, ownLabel_lone l l' h1]; rfl

/-- The state a step leaves. -/
abbrev Res.leaves (r : Res Err St) (s' : St) : Prop := r = .ok s' ∨ ∃ e, r = .err e s'

theorem small_push {s s' : St} (h : s.small) (k : Part) (hk : k.lone) (h' : Res.leaves (pushKind false k s) s') : s'.small := by
  unfold pushKind at h'
  split at h' <;> rcases h' with h' | ⟨e, h'⟩ <;> cases h'
  · next h0 =>
    have : s.parts = [] := by simpa using h0
    exact .inr ⟨k, by simp [this], hk⟩
  · exact h

theorem small_begin {s s' : St} (h : s.small) (o : Opener) (ho : o.lone) (h' : Res.leaves (pushBegin false o s) s') : s'.small := by
  unfold pushBegin at h'
  split at h'
  · exact small_push (s := { s with stack := s.parts.length :: s.stack }) h (.opened o 0) ⟨rfl, ho⟩ h'
  · rcases h' with h' | ⟨e, h'⟩ <;> cases h'
    exact h

theorem small_meta {s s' : St} (h : s.small) (m : Meta) (o : Meta → Opener) (ho : ∀ m, ownMeta false m = some m → (o m).lone)
    (h' : Res.leaves (beginMeta false m o s) s') : s'.small := by
  unfold beginMeta at h'
  split at h'
  · next m' hm => exact small_begin h _ (ho _ (ownMeta_lone _ _ hm)) h'
  · rcases h' with h' | ⟨e, h'⟩ <;> cases h'
    exact h

theorem small_label {s s' : St} (h : s.small) (l : Label) (o : Label → Opener) (ho : ∀ l, ownLabel false l = some l → (o l).lone)
    (h' : Res.leaves (beginLabel false l o s) s') : s'.small := by
  unfold beginLabel at h'
  split at h'
  · next m' hm => exact small_begin h _ (ho _ (ownLabel_lone _ _ hm)) h'
  · rcases h' with h' | ⟨e, h'⟩ <;> cases h'
    exact h

theorem small_end {s s' : St} (h : s.small) (h' : Res.leaves (pushEnd s) s') : s'.small := by
  unfold pushEnd at h'
  split at h'
  · rcases h' with h' | ⟨e, h'⟩ <;> cases h'
    exact h
  · dsimp only at h'
    split at h'
    · rcases h' with h' | ⟨e, h'⟩ <;> cases h'
    · next index stack _ hlt =>
      rcases h with h | ⟨k, h, hk⟩
      · simp [h] at hlt
      · have hi : index = 0 := by simp only [h, List.length_singleton] at hlt; omega
        subst hi
        simp only [h, List.getElem?_cons_zero] at h'
        split at h'
        · rcases h' with h' | ⟨e, h'⟩ <;> cases h'
        · next o l hp =>
          rcases h' with h' | ⟨e, h'⟩ <;> cases h'
          cases hp
          exact .inr ⟨.opened o 0, rfl, rfl, hk.2⟩
        · rcases h' with h' | ⟨e, h'⟩ <;> cases h'
          exact .inr ⟨k, rfl, hk⟩

theorem Cow.push_lone {α : Type} (c c' : Cow α) (f : List α) (h : c.push false f = .ok c') : c'.asBorrowed.isSome = true := by
  unfold Cow.push at h
  split at h
  · cases h; rfl
  · simp [Cow.pushComputed] at h

theorem small_text {s s' : St} (h : s.small) (f : Cow Char → Except Err (Cow Char))
    (hf : ∀ c c', f c = .ok c' → c'.asBorrowed.isSome = true) (h' : Res.leaves (textPush f s) s') : s'.small := by
  unfold textPush at h'
  split at h'
  · rcases h' with h' | ⟨e, h'⟩ <;> cases h'
  · next c hc =>
    rcases h with h0 | ⟨k, h0, hk⟩
    · simp [h0] at hc
    · split at h' <;> rcases h' with h' | ⟨e, h'⟩ <;> cases h'
      · next c' hc' => exact .inr ⟨.text c', by simp [setLast, h0], hf _ _ hc'⟩
      · exact .inr ⟨k, h0, hk⟩
  · rcases h' with h' | ⟨e, h'⟩ <;> cases h'
    exact h

theorem small_binary {s s' : St} (h : s.small) (f : Cow UInt8 → Except Err (Cow UInt8))
    (hf : ∀ c c', f c = .ok c' → c'.asBorrowed.isSome = true) (h' : Res.leaves (binaryPush f s) s') : s'.small := by
  unfold binaryPush at h'
  split at h'
  · rcases h' with h' | ⟨e, h'⟩ <;> cases h'
  · next c hc =>
    rcases h with h0 | ⟨k, h0, hk⟩
    · simp [h0] at hc
    · split at h' <;> rcases h' with h' | ⟨e, h'⟩ <;> cases h'
      · next c' hc' => exact .inr ⟨.binary c', by simp [setLast, h0], hf _ _ hc'⟩
      · exact .inr ⟨k, h0, hk⟩
  · rcases h' with h' | ⟨e, h'⟩ <;> cases h'
    exact h

theorem step_small (t : Token) (s s' : St) (h : s.small) (h' : Res.leaves (step false t s) s') : s'.small := by
  cases t with
  | textBegin n => exact small_push (s := { s with inText := true }) h (.text .new) rfl h'
  | binaryBegin n => exact small_push (s := { s with inText := true }) h (.binary .new) rfl h'
  | textEnd => rcases h' with h' | ⟨e, h'⟩ <;> cases h'; exact h
  | binaryEnd => rcases h' with h' | ⟨e, h'⟩ <;> cases h'; exact h
  | textFragment f => exact small_text h _ (fun c c' => Cow.push_lone c c' f) h'
  | textFragmentComputed f => exact small_text h (fun c => c.pushComputed false f) (fun c c' hc => by simp [Cow.pushComputed] at hc) h'
  | binaryFragment f => exact small_binary h _ (fun c c' => Cow.push_lone c c' f) h'
  | binaryFragmentComputed f =>
    exact small_binary h (fun c => c.pushComputed false f) (fun c c' hc => by simp [Cow.pushComputed] at hc) h'
  | tag m =>
    rw [step] at h'
    split at h'
    · next m' hm => exact small_push h (.tag m') (ownMeta_lone _ _ hm) h'
    · rcases h' with h' | ⟨e, h'⟩ <;> cases h'
      exact h
  | _ =>
    first
    | exact small_push h _ (by exact trivial) h'
    | exact small_begin h _ (by exact trivial) h'
    | (rw [step] at h'; exact small_meta h _ _ (by exact fun _ h => h) h')
    | (rw [step] at h'; exact small_label h _ _ (by exact fun _ h => h) h')
    | exact small_end h h'

theorem small_collect (computed : Bool) (p : Prog) (s : St) (h : collect false computed p = .ok s) : s.small := by
  have key := exec_inv (stepB false) (fun s => s.1.small) (fun t s hs => by
    unfold stepB
    split
    · exact hs
    · split
      · next h => exact step_small t _ _ hs (.inl h)
      · next h => exact step_small t _ _ hs (.inr ⟨_, h⟩)
      · exact hs) p (if computed then .computed .base else .base) ({}, false) (.inl rfl)
  unfold collect at h
  generalize (if computed then Wrapper.computed .base else .base) = w at h key
  dsimp only at h
  split at h
  · cases h
  · split at h
    · cases h; exact key
    · split at h <;> cases h

theorem lone_again (k : Part) (h : k.lone) :
    ∃ T, replay [k] = ⟨T, false⟩ ∧ run (Buf.step false) T {} = .ok { parts := [k] } := by
  cases k with
  | text c => cases c with
    | borrowed s => exact ⟨_, rfl, rfl⟩
    | owned s => cases h
  | binary c => cases c with
    | borrowed s => exact ⟨_, rfl, rfl⟩
    | owned s => cases h
  | tag m => exact ⟨[.tag m], rfl, by simp only [run, step, show ownMeta false m = some m from h]; rfl⟩
  | opened o l =>
    obtain ⟨rfl, h⟩ := h
    refine ⟨[o.begin, o.end], by cases o <;> rfl, ?_⟩
    cases o <;> first
      | rfl
      | (simp only [Opener.begin, run, step, beginMeta, beginLabel, show ownMeta false _ = some _ from h]; rfl)
      | (simp only [Opener.begin, run, step, beginMeta, beginLabel, show ownLabel false _ = some _ from h]; rfl)
  | _ => exact ⟨_, rfl, rfl⟩

end Buf

/-- C95 without an allocator, for whatever any code is collected as. -/
theorem C95_noalloc (computed : Bool) (p : Prog) (s : St) (h : collect false computed p = .ok s) (hs : s.parts ≠ []) :
    ∃ T, replay s.parts = ⟨T, false⟩ ∧ collect false false (.ofToks T) = .ok { parts := s.parts } := by
  rcases small_collect _ _ _ h with h0 | ⟨k, h0, hk⟩
  · exact absurd h0 hs
  · obtain ⟨T, h1, h2⟩ := lone_again k hk
    refine ⟨T, h0 ▸ h1, ?_⟩
    have := (exec_stepB false .base T {}).1 _ (by simpa [Wrapper.tok] using h2)
    simp [collect, this, h0]

/-- A text in two pieces, the second of which is refused, by code that does not mind. -/
example : ∃ s, collect false false (.call (.textBegin none) fun _ => .call (.textFragment (t! "a")) fun _ =>
      .call (.textFragment (t! "b")) fun ok => .ret !ok) = .ok s ∧ s.parts = [.text (.borrowed (t! "a"))] ∧ s.inText = true ∧
    collect false false (.ofToks [.textBegin (some 1), .textFragment (t! "a"), .textEnd]) = .ok { parts := s.parts } :=
  ⟨_, rfl, by decide +kernel, rfl, by decide +kernel⟩

end Sval
