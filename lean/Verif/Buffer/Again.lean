import Verif.Buffer.More
import Verif.Buffer.Reach

set_option autoImplicit false

/-!
# Collecting a buffer in a buffer
-/

namespace Sval.Buf

/-- A label that stays the same when it is owned. -/
def keptMeta (m : Meta) : Prop := own m = m
def keptLabel (l : Label) : Prop := l.toOwned = l

/-- Its labels stay the same when they are owned. -/
def Opener.kept : Opener → Prop
  | .enum m | .tagged m | .record m _ | .tuple m _ | .recordTuple m _ => keptMeta m
  | .recordValue _ l | .recordTupleValue _ l _ => keptLabel l
  | _ => True

def Part.kept : Part → Prop
  | .tag m => keptMeta m
  | .opened o _ => o.kept
  | _ => True

theorem own_kept (m : Meta) : keptMeta (own m) := own_idem m
theorem toOwned_kept (l : Label) : keptLabel l.toOwned := toOwned_idem l

/-- All the parts of a state are kept. -/
def St.kept (s : St) : Prop := ∀ k ∈ s.parts, k.kept

theorem kept_snoc {s : St} (h : s.kept) (k : Part) (hk : k.kept) (b : Bool) (st : List Nat) (e : Option Err) :
    St.kept { parts := s.parts ++ [k], stack := st, inText := b, err := e } := by
  intro k' hk'
  rcases List.mem_append.1 hk' with h' | h'
  · exact h _ h'
  · rw [List.mem_singleton] at h'; exact h' ▸ hk

theorem kept_begin {s s' : St} (h : s.kept) (o : Opener) (ho : o.kept) (h' : pushBegin true o s = .ok s' ∨ ∃ e, pushBegin true o s = .err e s') :
    s'.kept := by
  rw [pushBegin_true] at h'
  rcases h' with h' | ⟨e, h'⟩ <;> cases h'
  exact kept_snoc h (.opened o 0) ho _ _ _

theorem kept_set {s : St} (h : s.kept) (i : Nat) (k : Part) (hk : k.kept) (st : List Nat) (b : Bool) (e : Option Err) :
    St.kept { parts := s.parts.set i k, stack := st, inText := b, err := e } := by
  intro k' hk'
  rcases List.mem_or_eq_of_mem_set hk' with h' | h'
  · exact h _ h'
  · exact h' ▸ hk

theorem kept_end {s s' : St} (h : s.kept) (h' : pushEnd s = .ok s' ∨ ∃ e, pushEnd s = .err e s') : s'.kept := by
  unfold pushEnd at h'
  split at h'
  · rcases h' with h' | ⟨e, h'⟩ <;> cases h'
    exact h
  · dsimp only at h'
    split at h'
    · rcases h' with h' | ⟨e, h'⟩ <;> cases h'
    · split at h'
      · rcases h' with h' | ⟨e, h'⟩ <;> cases h'
      · next o l hp =>
        rcases h' with h' | ⟨e, h'⟩ <;> cases h'
        have ho : o.kept := h _ (List.mem_of_getElem? hp)
        exact kept_set h _ (.opened o _) ho _ _ _
      · rcases h' with h' | ⟨e, h'⟩ <;> cases h'
        exact h

theorem kept_text {s s' : St} (h : s.kept) (f : Cow Char → Except Err (Cow Char))
    (h' : textPush f s = .ok s' ∨ ∃ e, textPush f s = .err e s') : s'.kept := by
  unfold textPush at h'
  split at h'
  · rcases h' with h' | ⟨e, h'⟩ <;> cases h'
  · split at h' <;> rcases h' with h' | ⟨e, h'⟩ <;> cases h'
    · exact kept_set h _ _ (by exact trivial) _ _ _
    · exact h
  · rcases h' with h' | ⟨e, h'⟩ <;> cases h'
    exact h

theorem kept_binary {s s' : St} (h : s.kept) (f : Cow UInt8 → Except Err (Cow UInt8))
    (h' : binaryPush f s = .ok s' ∨ ∃ e, binaryPush f s = .err e s') : s'.kept := by
  unfold binaryPush at h'
  split at h'
  · rcases h' with h' | ⟨e, h'⟩ <;> cases h'
  · split at h' <;> rcases h' with h' | ⟨e, h'⟩ <;> cases h'
    · exact kept_set h _ _ (by exact trivial) _ _ _
    · exact h
  · rcases h' with h' | ⟨e, h'⟩ <;> cases h'
    exact h

theorem kept_push {s s' : St} (h : s.kept) (k : Part) (hk : k.kept) (h' : pushKind true k s = .ok s' ∨ ∃ e, pushKind true k s = .err e s') :
    s'.kept := by
  rcases h' with h' | ⟨e, h'⟩ <;> cases h'
  exact kept_snoc h _ hk _ _ _

theorem step_kept (t : Token) (s s' : St) (h : s.kept) (h' : step true t s = .ok s' ∨ ∃ e, step true t s = .err e s') : s'.kept := by
  cases t with
  | null => exact kept_push h _ (by exact trivial) h'
  | bool b => exact kept_push h _ (by exact trivial) h'
  | int t v => exact kept_push h _ (by exact trivial) h'
  | f32 b => exact kept_push h _ (by exact trivial) h'
  | f64 b => exact kept_push h _ (by exact trivial) h'
  | textBegin n => exact kept_push (s := { s with inText := true }) h _ (by exact trivial) h'
  | binaryBegin n => exact kept_push (s := { s with inText := true }) h _ (by exact trivial) h'
  | textEnd => rcases h' with h' | ⟨e, h'⟩ <;> cases h'; exact h
  | binaryEnd => rcases h' with h' | ⟨e, h'⟩ <;> cases h'; exact h
  | textFragment f => exact kept_text h _ h'
  | textFragmentComputed f => exact kept_text h (fun c => c.pushComputed true f) h'
  | binaryFragment f => exact kept_binary h _ h'
  | binaryFragmentComputed f => exact kept_binary h (fun c => c.pushComputed true f) h'
  | mapBegin n => exact kept_begin h _ (by exact trivial) h'
  | mapKeyBegin => exact kept_begin h _ (by exact trivial) h'
  | mapValueBegin => exact kept_begin h _ (by exact trivial) h'
  | seqBegin n => exact kept_begin h _ (by exact trivial) h'
  | seqValueBegin => exact kept_begin h _ (by exact trivial) h'
  | enumBegin m => rw [step, beginMeta_true] at h'; exact kept_begin h _ (by exact own_kept m) h'
  | taggedBegin m => rw [step, beginMeta_true] at h'; exact kept_begin h _ (by exact own_kept m) h'
  | tag m => rw [step, ownMeta_true] at h'; exact kept_push h (.tag (own m)) (by exact own_kept m) h'
  | tagHint t => exact kept_push h _ (by exact trivial) h'
  | recordBegin m n => rw [step, beginMeta_true] at h'; exact kept_begin h _ (by exact own_kept m) h'
  | recordValueBegin t l => rw [step, beginLabel_true] at h'; exact kept_begin h _ (by exact toOwned_kept l) h'
  | tupleBegin m n => rw [step, beginMeta_true] at h'; exact kept_begin h _ (by exact own_kept m) h'
  | tupleValueBegin t i => exact kept_begin h _ (by exact trivial) h'
  | recordTupleBegin m n => rw [step, beginMeta_true] at h'; exact kept_begin h _ (by exact own_kept m) h'
  | recordTupleValueBegin t l i => rw [step, beginLabel_true] at h'; exact kept_begin h _ (by exact toOwned_kept l) h'
  | _ => exact kept_end h h'

theorem Part.kept_intoOwned (k : Part) : k.intoOwned.kept ↔ k.kept := by cases k <;> rfl

theorem Reach.kept {s : St} (h : Reach s) : s.kept := by
  induction h with
  | new => exact nofun
  | ok t _ h ih => exact step_kept t _ _ ih (.inl h)
  | err t _ h ih => exact step_kept t _ _ ih (.inr ⟨_, h⟩)
  | clear _ _ => exact nofun
  | own _ ih =>
    intro k hk
    obtain ⟨k', hk', rfl⟩ := List.mem_map.1 hk
    exact (Part.kept_intoOwned k').2 (ih _ hk')

/-! ## What a buffer replays is collected as that buffer -/

theorem Opener.begin_step (o : Opener) (h : o.kept) (s : St) : step true o.begin s = pushBegin true o s := by
  cases o <;> first | rfl | (simp only [Opener.begin, step, beginMeta_true, beginLabel_true]; exact congrArg (fun x => pushBegin true x s) (by
    first
    | exact congrArg _ h
    | (have : own _ = _ := h; rw [this])
    | (have : Label.toOwned _ = _ := h; rw [this])))

theorem Opener.end_step (o : Opener) (s : St) : step true o.end s = pushEnd s := by cases o <;> rfl

theorem Appends.text (c : Cow Char) : Appends c.textToks [.text c] := by
  intro s hs
  cases c <;> simp [Cow.textToks, run, step, pushKind, textPush, Cow.push, Cow.pushComputed, Cow.new, Cow.content, setLast, hs]

theorem Appends.binary (c : Cow UInt8) : Appends c.binaryToks [.binary c] := by
  intro s hs
  cases c <;> simp [Cow.binaryToks, run, step, pushKind, binaryPush, Cow.push, Cow.pushComputed, Cow.new, Cow.content, setLast, hs]

theorem Appends.part (k : Part) (h : k.isOpened = false) (hk : k.kept) : Appends k.leafToks [k] := by
  cases k with
  | text c => exact Appends.text c
  | binary c => exact Appends.binary c
  | tag m =>
    refine Appends.leaf _ _ fun s => ?_
    rw [step, ownMeta_true]
    exact congrArg (fun x => pushKind true (.tag x) s) hk
  | opened o l => cases h
  | _ => exact Appends.leaf _ _ fun _ => rfl

/-- The calls that closed parts replay append those parts. -/
theorem Closed.appends {B : List Part} (h : Closed B) (hk : ∀ k ∈ B, k.kept) : ∃ T, Replays B T ∧ Appends T B := by
  induction h with
  | nil => exact ⟨[], .nil, .nil⟩
  | leaf k rest h _ ih =>
    obtain ⟨T, h1, h2⟩ := ih fun k hk' => hk k (by simp [hk'])
    exact ⟨_, (Replays.leaf k h).append h1, (Appends.part k h (hk k (by simp))).append h2⟩
  | opened o B rest _ _ ihB ih =>
    obtain ⟨T1, h1, h1'⟩ := ihB fun k hk' => hk k (by simp [hk'])
    obtain ⟨T2, h2, h2'⟩ := ih fun k hk' => hk k (by simp [hk'])
    have ho : o.kept := hk (.opened o B.length) (by simp)
    refine ⟨_, (h1.wrap o).append h2, ?_⟩
    have := (h1'.wrap o o.begin o.end (o.begin_step ho) o.end_step).append h2'
    simpa using this

end Sval.Buf
