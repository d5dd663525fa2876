import Verif.Buffer.Reach
import Verif.Buffer.Panic
import Verif.Core.Received
import Verif.Props.Panics

set_option autoImplicit false
set_option linter.unusedSimpArgs false

/-!
# C93 for buffers without an allocator
-/

namespace Sval
open Buf

/-- Specification: a buffer without an allocator has room for one part and remembers one place where something began. -/
inductive Held where
  /-- Nothing yet. -/
  | nothing
  /-- One thing that has begun. -/
  | open
  /-- One thing that is not open. -/
  | whole
  /-- One thing that is not open, and the place of another for which there was no room. -/
  | stuck
deriving DecidableEq, Repr

/-- Specification: the label of a call that a buffer has to keep. -/
def keptLabelOf : Token → Option Label
  | .tag m | .enumBegin m | .taggedBegin m | .recordBegin m _ | .tupleBegin m _ | .recordTupleBegin m _ => m.label
  | .recordValueBegin _ l | .recordTupleValueBegin _ l _ => some l
  | _ => none

/-- Specification: its label, if any, is a static one. -/
def Held.keeps (t : Token) : Bool :=
  match keptLabelOf t with
  | none => true
  | some l => l.backing = .static

/-- Specification: what one call does to a buffer without an allocator; `none` is a panic. -/
def Held.after (h : Held) (t : Token) : Option Held :=
  match h with
  | .nothing =>
    if isFrag t then none
    else if isEnd t || !keeps t then some .nothing
    else if isBegin t then some .open
    else if t = .textEnd ∨ t = .binaryEnd then some .nothing
    else some .whole
  | .open => if isEnd t then some .whole else some .open
  | .whole => if isBegin t && keeps t then some .stuck else some .whole
  | .stuck => if isEnd t then none else some .stuck

def Held.onBegin : Held → Option Held
  | .nothing => some .open | .open => some .open | .whole => some .stuck | .stuck => some .stuck
def Held.onEnd : Held → Option Held
  | .nothing => some .nothing | .open => some .whole | .whole => some .whole | .stuck => none
def Held.onPush : Held → Option Held
  | .nothing => some .whole | .open => some .open | .whole => some .whole | .stuck => some .stuck
def Held.onFrag : Held → Option Held
  | .nothing => none | h => some h

/-- The states of the model that are meant. -/
def Held.Is : Held → St → Prop
  | .nothing, s => s.parts = [] ∧ s.stack = []
  | .open, s => (∃ o l, s.parts = [.opened o l]) ∧ s.stack = [0]
  | .whole, s => (∃ k, s.parts = [k]) ∧ s.stack = []
  | .stuck, s => (∃ k, s.parts = [k]) ∧ s.stack = [1]

theorem ownLabel_keeps (l : Label) :
    (l.backing = .static → ∃ l', ownLabel false l = some l') ∧ (l.backing ≠ .static → ownLabel false l = none) := by
  simp only [ownLabel, Bool.false_eq_true, if_false, Label.tryToOwnedNoAlloc, Label.asStaticStr]
  cases hb : l.backing <;> simp

/-- What a step gives that goes to `h`. -/
def Held.To (h : Option Held) (r : Res Err St) : Prop :=
  match h, r with
  | none, .panic => True
  | some h, .ok s => h.Is s
  | some h, .err _ s => h.Is s
  | _, _ => False

theorem ownMeta_keeps (m : Meta) :
    ((match m.label with | none => true | some l => decide (l.backing = .static)) = true → ∃ m', ownMeta false m = some m') ∧
    ((match m.label with | none => true | some l => decide (l.backing = .static)) = false → ownMeta false m = none) := by
  obtain ⟨t, l, i⟩ := m
  cases l with
  | none => exact ⟨fun _ => ⟨_, rfl⟩, fun h => by cases h⟩
  | some l =>
    refine ⟨fun h => ?_, fun h => ?_⟩
    · obtain ⟨l', hl⟩ := (ownLabel_keeps l).1 (by simpa using h)
      exact ⟨_, by simp only [ownMeta, hl]; rfl⟩
    · have hl := (ownLabel_keeps l).2 (by simpa using h)
      simp only [ownMeta, hl]; rfl

/-- A call that begins, with a label that can be kept. -/
theorem Held.to_begin (h : Held) (s : St) (hs : h.Is s) (o : Opener) :
    To h.onBegin
      (pushBegin false o s) := by
  obtain ⟨ps, st, it, er⟩ := s
  cases h with
  | nothing => obtain ⟨h1, h2⟩ := hs; cases h1; cases h2; exact ⟨⟨o, 0, rfl⟩, rfl⟩
  | «open» => obtain ⟨⟨o', l, h1⟩, h2⟩ := hs; cases h1; cases h2; exact ⟨⟨o', l, rfl⟩, rfl⟩
  | whole => obtain ⟨⟨k, h1⟩, h2⟩ := hs; cases h1; cases h2; exact ⟨⟨k, rfl⟩, rfl⟩
  | stuck => obtain ⟨⟨k, h1⟩, h2⟩ := hs; cases h1; cases h2; exact ⟨⟨k, rfl⟩, rfl⟩

/-- A call that ends. -/
theorem Held.to_end (h : Held) (s : St) (hs : h.Is s) :
    To h.onEnd
      (pushEnd s) := by
  obtain ⟨ps, st, it, er⟩ := s
  cases h with
  | nothing => obtain ⟨h1, h2⟩ := hs; cases h1; cases h2; exact ⟨rfl, rfl⟩
  | «open» => obtain ⟨⟨o', l, h1⟩, h2⟩ := hs; cases h1; cases h2; exact ⟨⟨_, rfl⟩, rfl⟩
  | whole => obtain ⟨⟨k, h1⟩, h2⟩ := hs; cases h1; cases h2; exact ⟨⟨k, rfl⟩, rfl⟩
  | stuck => obtain ⟨⟨k, h1⟩, h2⟩ := hs; cases h1; cases h2; exact trivial

/-- A call that is a value. -/
theorem Held.to_push (h : Held) (s : St) (hs : h.Is s) (k : Part) :
    To h.onPush
      (pushKind false k s) := by
  obtain ⟨ps, st, it, er⟩ := s
  cases h with
  | nothing => obtain ⟨h1, h2⟩ := hs; cases h1; cases h2; exact ⟨⟨k, rfl⟩, rfl⟩
  | «open» => obtain ⟨⟨o', l, h1⟩, h2⟩ := hs; cases h1; cases h2; exact ⟨⟨o', l, rfl⟩, rfl⟩
  | whole => obtain ⟨⟨k, h1⟩, h2⟩ := hs; cases h1; cases h2; exact ⟨⟨k, rfl⟩, rfl⟩
  | stuck => obtain ⟨⟨k, h1⟩, h2⟩ := hs; cases h1; cases h2; exact ⟨⟨k, rfl⟩, rfl⟩

/-- A failed call that changes no more than the error. -/
theorem Held.Is.err {h : Held} {s : St} (hs : h.Is s) (e : Option Err) : h.Is { s with err := e } := by
  cases h <;> exact hs

theorem Held.Is.text {h : Held} {s : St} (hs : h.Is s) (b : Bool) : h.Is { s with inText := b } := by
  cases h <;> exact hs

theorem Held.to_text (h : Held) (s : St) (hs : h.Is s) (f : Cow Char → Except Err (Cow Char)) :
    To h.onFrag (textPush f s) := by
  obtain ⟨ps, st, it, er⟩ := s
  cases h with
  | nothing => obtain ⟨h1, h2⟩ := hs; cases h1; cases h2; exact trivial
  | «open» => obtain ⟨⟨o', l, h1⟩, h2⟩ := hs; cases h1; cases h2; exact ⟨⟨o', l, rfl⟩, rfl⟩
  | whole =>
    obtain ⟨⟨k, h1⟩, h2⟩ := hs; cases h1; cases h2
    cases k with
    | text c => simp only [textPush, List.getLast?_singleton]; cases f c <;> exact ⟨⟨_, rfl⟩, rfl⟩
    | _ => exact ⟨⟨_, rfl⟩, rfl⟩
  | stuck =>
    obtain ⟨⟨k, h1⟩, h2⟩ := hs; cases h1; cases h2
    cases k with
    | text c => simp only [textPush, List.getLast?_singleton]; cases f c <;> exact ⟨⟨_, rfl⟩, rfl⟩
    | _ => exact ⟨⟨_, rfl⟩, rfl⟩

theorem Held.to_binary (h : Held) (s : St) (hs : h.Is s) (f : Cow UInt8 → Except Err (Cow UInt8)) :
    To h.onFrag (binaryPush f s) := by
  obtain ⟨ps, st, it, er⟩ := s
  cases h with
  | nothing => obtain ⟨h1, h2⟩ := hs; cases h1; cases h2; exact trivial
  | «open» => obtain ⟨⟨o', l, h1⟩, h2⟩ := hs; cases h1; cases h2; exact ⟨⟨o', l, rfl⟩, rfl⟩
  | whole =>
    obtain ⟨⟨k, h1⟩, h2⟩ := hs; cases h1; cases h2
    cases k with
    | binary c => simp only [binaryPush, List.getLast?_singleton]; cases f c <;> exact ⟨⟨_, rfl⟩, rfl⟩
    | _ => exact ⟨⟨_, rfl⟩, rfl⟩
  | stuck =>
    obtain ⟨⟨k, h1⟩, h2⟩ := hs; cases h1; cases h2
    cases k with
    | binary c => simp only [binaryPush, List.getLast?_singleton]; cases f c <;> exact ⟨⟨_, rfl⟩, rfl⟩
    | _ => exact ⟨⟨_, rfl⟩, rfl⟩

theorem Held.to_fail (h : Held) (s : St) (hs : h.Is s) (e : Err) : To (some h) (fail e s) := hs.err _

theorem Held.after_begin (h : Held) (t : Token) (ht : isBegin t = true) (hk : keeps t = true) :
    h.after t = h.onBegin := by
  cases t <;> first | exact (Bool.false_ne_true ht).elim | (cases h <;> simp [onBegin, onEnd, onPush, onFrag, after, isFrag, isEnd, isBegin, hk])

theorem Held.after_end (h : Held) (t : Token) (ht : isEnd t = true) :
    h.after t = h.onEnd := by
  cases t <;> first | exact (Bool.false_ne_true ht).elim | (cases h <;> simp [onBegin, onEnd, onPush, onFrag, after, isFrag, isEnd, isBegin])

theorem Held.after_lost (h : Held) (t : Token) (hk : keeps t = false) : h.after t = some h := by
  cases t <;> first | exact (Bool.false_ne_true hk.symm).elim | (cases h <;> simp [onBegin, onEnd, onPush, onFrag, after, isFrag, isEnd, isBegin, hk])

theorem Held.step (h : Held) (t : Token) (s : St) (hs : h.Is s) : To (h.after t) (Buf.step false t s) := by
  have hm : ∀ (m : Meta) (o : Meta → Opener), isBegin t = true → keptLabelOf t = m.label → To (h.after t) (beginMeta false m o s) := by
    intro m o hb hl
    by_cases hk : keeps t = true
    · rw [after_begin h t hb hk]
      obtain ⟨m', hm'⟩ := (ownMeta_keeps m).1 (by simpa [keeps, hl] using hk)
      simp only [beginMeta, hm']
      exact to_begin h s hs _
    · have hk : keeps t = false := by simpa using hk
      rw [after_lost h t hk]
      have hm' := (ownMeta_keeps m).2 (by simpa [keeps, hl] using hk)
      simp only [beginMeta, hm']
      exact to_fail h s hs _
  have hl : ∀ (l : Label) (o : Label → Opener), isBegin t = true → keptLabelOf t = some l → To (h.after t) (beginLabel false l o s) := by
    intro l o hb hl
    by_cases hk : keeps t = true
    · rw [after_begin h t hb hk]
      obtain ⟨m', hm'⟩ := (ownLabel_keeps l).1 (by simpa [keeps, hl] using hk)
      simp only [beginLabel, hm']
      exact to_begin h s hs _
    · have hk : keeps t = false := by simpa using hk
      rw [after_lost h t hk]
      have hm' := (ownLabel_keeps l).2 (by simpa [keeps, hl] using hk)
      simp only [beginLabel, hm']
      exact to_fail h s hs _
  have hp : ∀ (k : Part), isBegin t = false → isEnd t = false → isFrag t = false → keeps t = true → t ≠ .textEnd → t ≠ .binaryEnd →
      To (h.after t) (pushKind false k s) := by
    intro k h1 h2 h3 h4 h5 h6
    have e : h.after t = h.onPush := by
      cases h <;> simp [onBegin, onEnd, onPush, onFrag, after, h1, h2, h3, h4, h5, h6]
    rw [e]; exact to_push h s hs k
  have hf : isFrag t = true → h.after t = h.onFrag := by
    intro ht
    cases t <;> first | exact (Bool.false_ne_true ht).elim | (cases h <;> simp [onBegin, onEnd, onPush, onFrag, after, isFrag, isEnd, isBegin])
  cases t with
  | textBegin n =>
    have e : h.after (.textBegin n) = h.onPush := by
      cases h <;> simp [onBegin, onEnd, onPush, onFrag, after, isFrag, isEnd, isBegin, keeps, keptLabelOf]
    rw [e]; exact to_push h { s with inText := true } (hs.text _) _
  | binaryBegin n =>
    have e : h.after (.binaryBegin n) = h.onPush := by
      cases h <;> simp [onBegin, onEnd, onPush, onFrag, after, isFrag, isEnd, isBegin, keeps, keptLabelOf]
    rw [e]; exact to_push h { s with inText := true } (hs.text _) _
  | textEnd =>
    have e : h.after .textEnd = some h := by cases h <;> simp [onBegin, onEnd, onPush, onFrag, after, isFrag, isEnd, isBegin, keeps, keptLabelOf]
    rw [e]; exact hs.text _
  | binaryEnd =>
    have e : h.after .binaryEnd = some h := by cases h <;> simp [onBegin, onEnd, onPush, onFrag, after, isFrag, isEnd, isBegin, keeps, keptLabelOf]
    rw [e]; exact hs.text _
  | textFragment f => rw [hf rfl]; exact to_text h s hs _
  | textFragmentComputed f => rw [hf rfl]; exact to_text h s hs (fun c => c.pushComputed false f)
  | binaryFragment f => rw [hf rfl]; exact to_binary h s hs _
  | binaryFragmentComputed f => rw [hf rfl]; exact to_binary h s hs (fun c => c.pushComputed false f)
  | tag m =>
    by_cases hk : keeps (.tag m) = true
    · obtain ⟨m', hm'⟩ := (ownMeta_keeps m).1 (by simpa [keeps, keptLabelOf] using hk)
      simp only [Buf.step, hm']
      exact hp _ rfl rfl rfl hk (by simp) (by simp)
    · have hk : keeps (.tag m) = false := by simpa using hk
      rw [after_lost h _ hk]
      have hm' := (ownMeta_keeps m).2 (by simpa [keeps, keptLabelOf] using hk)
      simp only [Buf.step, hm']
      exact to_fail h s hs _
  | _ =>
    first
    | exact hp _ rfl rfl rfl rfl (by simp) (by simp)
    | (rw [after_begin h _ rfl rfl]; exact to_begin h s hs _)
    | (rw [after_end h _ rfl]; exact to_end h s hs)
    | exact hm _ _ rfl rfl
    | exact hl _ _ rfl rfl

theorem Held.panics (ts : List Token) (h : Held) (s : St) (hs : h.Is s) :
    (ts.foldl (fun s t => (guarded (Buf.step false) t s).1) (s, false)).2 = true ↔ ts.foldlM Held.after h = none := by
  have stuck : ∀ (ts : List Token) (b : St), (ts.foldl (fun s t => (guarded (Buf.step false) t s).1) (b, true)).2 = true := by
    intro ts
    induction ts with
    | nil => intro b; rfl
    | cons t ts ih => intro b; rw [List.foldl_cons]; exact ih b
  induction ts generalizing h s with
  | nil => simp
  | cons t ts ih =>
    have := Held.step h t s hs
    rw [List.foldl_cons, List.foldlM_cons]
    revert this
    cases h.after t with
    | none =>
      simp only [guarded]
      cases Buf.step false t s with
      | panic => exact fun _ => ⟨fun _ => rfl, fun _ => stuck ts _⟩
      | ok => exact False.elim
      | err => exact False.elim
    | some h' =>
      simp only [guarded]
      cases Buf.step false t s <;> simp only [To, Bool.false_eq_true, if_false, false_implies] <;> exact fun hs' => ih h' _ hs'

/-- C93 without an allocator. Exactly when collecting a value in a `ValueBuf` panics: as with one if there is a fragment and
nothing is held, but also if a call begins something when the buffer is full, which is an error, and another ends something
nevertheless. -/
theorem C93_buffer_noalloc (computed : Bool) (p : Prog) :
    Buf.collect false computed p = .panic ↔
      (received (Buf.stepB false) p (if computed then .computed .base else .base) ({}, false)).foldlM Held.after .nothing = none := by
  have hg : Buf.stepB false = guarded (Buf.step false) := by
    funext t s
    simp only [Buf.stepB, guarded]
    split
    · rfl
    · cases Buf.step false t s.1 <;> rfl
  rw [hg, ← Held.panics _ .nothing {} ⟨rfl, rfl⟩, ← exec_received]
  simp only [Buf.collect, hg]
  generalize exec (guarded (Buf.step false)) p (if computed then .computed .base else .base) ({}, false) = r
  split
  · rename_i h; simp [h]
  · rename_i h
    simp only [h]
    split
    · simp
    · split <;> simp

/-- A text, then a sequence for which there is no room, from code that does not look at errors: a panic without an allocator,
two parts with one. -/
theorem C93_fails_buffer_noalloc :
    Buf.collect false false (jumble [.textBegin none, .textFragment (t! "a"), .textEnd, .seqBegin none, .seqEnd]) = .panic ∧
    (match Buf.collect true false (jumble [.textBegin none, .textFragment (t! "a"), .textEnd, .seqBegin none, .seqEnd]) with
      | .ok b => b.parts.length | _ => 0) = 2 := by
  decide +kernel

/-- Nothing that ends before it, or with a label that cannot be kept. -/
example : (match Buf.collect false false (jumble [.mapEnd, .enumBegin { label := some (Label.newComputed (t! "a")) }, .null,
      .recordBegin { label := some (Label.newComputed (t! "b")) } none, .textFragment (t! "a"), .recordEnd {}]) with
    | .ok b => b.parts | _ => []) = [.null] := by decide +kernel

end Sval
