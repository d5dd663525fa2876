import Verif.Core.LabelHeap

set_option autoImplicit false

/-!
# Properties of indexes, tags and labels: C11, C12, C13, C46
-/

namespace Sval

/-! ## C11 -/

/-- The pointer widths Rust supports. -/
def PtrWidth (pw : Nat) : Prop := pw = 16 ∨ pw = 32 ∨ pw = 64

/-- Specification: `n` is a value of the integer type. -/
def IxTy.Has (pw : Nat) (t : IxTy) (n : Int) : Prop :=
  if t.signed then -2 ^ (t.bits pw - 1) ≤ n ∧ n < 2 ^ (t.bits pw - 1) else 0 ≤ n ∧ n < 2 ^ t.bits pw

instance (pw : Nat) (t : IxTy) (n : Int) : Decidable (t.Has pw n) := by
  unfold IxTy.Has; infer_instance

theorem IxTy.Has.bound {pw : Nat} (hp : PtrWidth pw) {t : IxTy} {n : Int} (h : t.Has pw n) :
    -2 ^ 63 ≤ n ∧ n < 2 ^ 64 := by
  unfold IxTy.Has at h
  rcases hp with rfl | rfl | rfl <;> cases t <;> simp [IxTy.signed, IxTy.bits] at h <;> omega

theorem castI128_id (n : Int) (h : -2 ^ 127 ≤ n ∧ n < 2 ^ 127) : castI128 n = n := by
  unfold castI128 asInt
  simp only [true_and]
  split <;> omega

/-- C11. An index built from any number `n` of any of the six index types (`s`) converts to a type
`t` exactly when `n` is a value of `t`, and then to `n` itself, on every pointer width. -/
theorem C11_index_exact (pw : Nat) (hp : PtrWidth pw) (s t : IxTy) (n : Int) (hn : s.Has pw n) :
    (Index.ofInt n).toTy pw t = if t.Has pw n then some n else none := by
  have hb := hn.bound hp
  have e : (Index.ofInt n).val = n := castI128_id n (by omega)
  unfold Index.toTy
  rw [e]
  have hmin : castI128 (t.min pw) = t.min pw := by
    rcases hp with rfl | rfl | rfl <;> cases t <;> decide +kernel
  have hmax : castI128 (t.max pw) = t.max pw := by
    rcases hp with rfl | rfl | rfl <;> cases t <;> decide +kernel
  rw [hmin, hmax]
  have hiff : (n ≥ t.min pw ∧ n ≤ t.max pw) ↔ t.Has pw n := by
    unfold IxTy.min IxTy.max IxTy.Has
    rcases hp with rfl | rfl | rfl <;> cases t <;> simp [IxTy.signed, IxTy.bits] <;> omega
  by_cases h : t.Has pw n
  · rw [if_pos (hiff.2 h), if_pos h]
    congr 1
    unfold IxTy.Has at h
    unfold asInt
    rcases hp with rfl | rfl | rfl <;> cases t <;> simp [IxTy.signed, IxTy.bits] at h ⊢ <;>
      first | omega | (split <;> omega)
  · rw [if_neg (fun h' => h (hiff.1 h')), if_neg h]

/-- C11. Comparing, ordering and hashing indexes is comparing, ordering and hashing the numbers;
hints make no difference. -/
theorem C11_index_compare (pw : Nat) (hp : PtrWidth pw) (s t : IxTy) (a b : Int) (ha : s.Has pw a)
    (hb : t.Has pw b) (i j : Index) (hi : i = .ofInt a ∨ ∃ g, i = (Index.ofInt a).withTag g)
    (hj : j = .ofInt b ∨ ∃ g, j = (Index.ofInt b).withTag g) :
    (i.beq j = true ↔ a = b) ∧ i.cmp j = compare a b ∧ (i.hashInput = j.hashInput ↔ a = b) := by
  have ea : (Index.ofInt a).val = a := castI128_id a (by have := ha.bound hp; omega)
  have eb : (Index.ofInt b).val = b := castI128_id b (by have := hb.bound hp; omega)
  have hi' : i.val = a := by rcases hi with rfl | ⟨g, rfl⟩ <;> exact ea
  have hj' : j.val = b := by rcases hj with rfl | ⟨g, rfl⟩ <;> exact eb
  simp [Index.beq, Index.cmp, Index.hashInput, hi', hj']

example : IxTy.Has 64 .usize (2 ^ 64 - 1) ∧ (Index.ofInt (2 ^ 64 - 1)).toTy 64 .usize = some (2 ^ 64 - 1) ∧
    (Index.ofInt (2 ^ 64 - 1)).toTy 64 .i64 = none ∧ (Index.ofInt (-1)).toTy 32 .usize = none ∧
    (Index.ofInt (-1)).toTy 32 .isize = some (-1) := by decide +kernel

/-! ## C12 -/

theorem slice_some (bytes : Bytes) (n b : Nat) (h : b + n ≤ bytes.length) :
    ∃ xs, RawTag.slice bytes b n = some xs := by
  induction n generalizing b with
  | zero => exact ⟨[], rfl⟩
  | succ n ih =>
    obtain ⟨xs, hxs⟩ := ih (b + 1) (by omega)
    refine ⟨bytes[b] :: xs, ?_⟩
    simp [RawTag.slice, hxs, List.getElem?_eq_getElem (show b < bytes.length by omega)]

theorem block_some (le : Bool) (bytes : Bytes) (n : Nat) (hb : UInt64 × Nat) :
    ∃ r, RawTag.block le bytes n hb = some r := by
  unfold RawTag.block
  split
  · next h =>
    obtain ⟨xs, hxs⟩ := slice_some bytes n hb.2 h
    exact ⟨_, by rw [hxs]; rfl⟩
  · exact ⟨_, rfl⟩

theorem loop8_some (le : Bool) (bytes : Bytes) (fuel : Nat) (h : UInt64) (b : Nat) :
    ∃ r, RawTag.loop8 le bytes fuel h b = some r := by
  induction fuel generalizing h b with
  | zero => exact ⟨_, rfl⟩
  | succ fuel ih =>
    unfold RawTag.loop8
    split
    · next hb =>
      obtain ⟨xs, hxs⟩ := slice_some bytes 8 b hb
      rw [hxs]
      exact ih _ _
    · exact ⟨_, rfl⟩

theorem computeId_some (le : Bool) (bytes : Bytes) : ∃ id, RawTag.computeId le bytes = some id := by
  unfold RawTag.computeId
  obtain ⟨r, hr⟩ := loop8_some le bytes (bytes.length + 1) 0 0
  obtain ⟨r4, h4⟩ := block_some le bytes 4 r
  obtain ⟨r2, h2⟩ := block_some le bytes 2 r4
  obtain ⟨r1, h1⟩ := block_some le bytes 1 r2
  exact ⟨r1.1, by simp [hr, h4, h2, h1]⟩

/-- The loop of `compute_id` is not cut short by the fuel of the model: it always reaches a state
with fewer than 8 bytes left, and the blocks after it consume the rest. -/
theorem loop8_end (le : Bool) (bytes : Bytes) (fuel : Nat) (h : UInt64) (b : Nat) (r : UInt64 × Nat)
    (hb : b ≤ bytes.length) (hf : bytes.length < b + fuel) (hr : RawTag.loop8 le bytes fuel h b = some r) :
    r.2 ≤ bytes.length ∧ bytes.length < r.2 + 8 := by
  induction fuel generalizing h b with
  | zero => omega
  | succ fuel ih =>
    unfold RawTag.loop8 at hr
    split at hr
    · next hlt =>
      obtain ⟨xs, hxs⟩ := slice_some bytes 8 b hlt
      rw [hxs] at hr
      exact ih _ _ hlt (by omega) hr
    · cases hr
      exact ⟨hb, by omega⟩

theorem block_end (le : Bool) (bytes : Bytes) (n : Nat) (hb r : UInt64 × Nat)
    (h1 : hb.2 ≤ bytes.length) (h2 : bytes.length < hb.2 + 2 * n) (hr : RawTag.block le bytes n hb = some r) :
    r.2 ≤ bytes.length ∧ bytes.length < r.2 + n := by
  unfold RawTag.block at hr
  split at hr
  · next hlt =>
    obtain ⟨xs, hxs⟩ := slice_some bytes n hb.2 hlt
    rw [hxs] at hr
    cases hr
    exact ⟨hlt, by show _ < hb.2 + n + n; omega⟩
  · cases hr
    exact ⟨h1, by omega⟩

/-- Hashing a tag consumes all its bytes. -/
theorem C12_hash_covers_all (le : Bool) (bytes : Bytes) :
    ∃ r, (do
      let hb ← RawTag.loop8 le bytes (bytes.length + 1) 0 0
      let hb ← RawTag.block le bytes 4 hb
      let hb ← RawTag.block le bytes 2 hb
      RawTag.block le bytes 1 hb) = some r ∧ r.2 = bytes.length ∧ RawTag.computeId le bytes = some r.1 := by
  obtain ⟨r, hr⟩ := loop8_some le bytes (bytes.length + 1) 0 0
  obtain ⟨r4, h4⟩ := block_some le bytes 4 r
  obtain ⟨r2, h2⟩ := block_some le bytes 2 r4
  obtain ⟨r1, h1⟩ := block_some le bytes 1 r2
  refine ⟨r1, by simp [hr, h4, h2, h1], ?_, by simp [RawTag.computeId, hr, h4, h2, h1]⟩
  obtain ⟨a1, b1⟩ := loop8_end le bytes _ 0 0 r (by omega) (by omega) hr
  obtain ⟨a2, b2⟩ := block_end le bytes 4 r r4 a1 (by omega) h4
  obtain ⟨a3, b3⟩ := block_end le bytes 2 r4 r2 a2 (by omega) h2
  obtain ⟨a4, b4⟩ := block_end le bytes 1 r2 r1 a3 (by omega) h1
  omega

/-- C12. Creating a tag never panics, and two tags are equal exactly when they were created from the
same string, whether or not their hashes collide; clones are equal to the original. -/
theorem C12_tag_identity (le : Bool) (a b : Text) :
    ∃ ta tb, RawTag.new le a = some ta ∧ RawTag.new le b = some tb ∧
      (ta.beq tb = true ↔ a = b) ∧ (ta.cloned.beq tb = true ↔ a = b) := by
  obtain ⟨ia, ha⟩ := computeId_some le (utf8 a)
  obtain ⟨ib, hb⟩ := computeId_some le (utf8 b)
  refine ⟨⟨ia, a⟩, ⟨ib, b⟩, by simp [RawTag.new, ha], by simp [RawTag.new, hb], ?_⟩
  have : a = b → ia = ib := by rintro rfl; rw [ha] at hb; cases hb; rfl
  simp only [RawTag.beq, RawTag.cloned, Bool.and_eq_true, beq_iff_eq]
  exact ⟨⟨fun h => h.2, fun h => ⟨this h, h⟩⟩, ⟨fun h => h.2, fun h => ⟨this h, h⟩⟩⟩

/-- C12. Labels are equal, and hash equal, exactly when their text is, however they were made. -/
theorem C12_label_identity (s t : Text) (a b : Label)
    (ha : a ∈ [Label.new s, .newComputed s, .newOwned s] ∨
      ∃ g, a ∈ [(Label.new s).withTag g, (Label.newComputed s).withTag g, (Label.newOwned s).withTag g])
    (hb : b ∈ [Label.new t, .newComputed t, .newOwned t] ∨
      ∃ g, b ∈ [(Label.new t).withTag g, (Label.newComputed t).withTag g, (Label.newOwned t).withTag g]) :
    (a.beq b = true ↔ s = t) ∧ (a.hashInput = b.hashInput ↔ s = t) := by
  have ea : a.text = s := by
    rcases ha with ha | ⟨g, ha⟩ <;> simp at ha <;> rcases ha with rfl | rfl | rfl <;> rfl
  have eb : b.text = t := by
    rcases hb with hb | ⟨g, hb⟩ <;> simp at hb <;> rcases hb with rfl | rfl | rfl <;> rfl
  simp [Label.beq, Label.hashInput, ea, eb]

example : ((RawTag.new true (t! "RUST_OPTION_SOME")).map (·.id)).isSome = true := by decide +kernel
example : RawTag.computeId true (utf8 (t! "NUMBER")) ≠ RawTag.computeId true (utf8 (t! "NUMBERS")) := by
  decide +kernel
example : (Label.new (t! "a")).beq ((Label.newOwned (t! "a")).withTag tags.VALUE_IDENT) = true := by decide

/-! ## C13 -/

/-- C13 is false: cloning an owned label, or owning any label, loses its tag hint. -/
theorem C13_counterexample :
    (((Label.newOwned (t! "a")).withTag tags.VALUE_IDENT).clone).tag = none ∧
    (((Label.new (t! "a")).withTag tags.VALUE_IDENT).toOwned).tag = none := by decide

/-- C13, as far as it holds: cloning and owning keep the text and whether the text is available as a
static string; an owned label borrows from nothing; a clone of a label that is not owned also keeps
the hint. Missing: the tag hint of `to_owned`, and of clones of owned labels. -/
theorem C13_label_preserved_partial (l : Label) :
    l.clone.text = l.text ∧ l.toOwned.text = l.text ∧
    l.clone.asStaticStr = l.asStaticStr ∧ l.toOwned.asStaticStr = l.asStaticStr ∧
    l.toOwned.backing ≠ .computed ∧
    (l.backing ≠ .owned → l.clone = l) ∧ (l.tag = none → l.clone = l) ∧
    (l.tryToOwnedNoAlloc.isSome ↔ l.asStaticStr.isSome) := by
  obtain ⟨t, b, g⟩ := l
  cases b <;> simp [Label.clone, Label.toOwned, Label.asStaticStr, Label.newOwned, Label.new,
    Label.tryToOwnedNoAlloc]
  intro h; exact h.symm

/-- C13, exactly: which labels are the same after cloning, and which hints are kept. -/
theorem C13_exact (l : Label) :
    (l.clone = l ↔ l.backing ≠ .owned ∨ l.tag = none) ∧ l.clone.tag = (if l.backing = .owned then none else l.tag) ∧ l.toOwned.tag = none := by
  obtain ⟨t, b, g⟩ := l
  cases b <;> simp [Label.clone, Label.toOwned, Label.newOwned, Label.new]
  exact eq_comm

example : ((Label.new (t! "a")).withTag tags.VALUE_IDENT).clone = (Label.new (t! "a")).withTag tags.VALUE_IDENT ∧
    ((Label.newOwned (t! "a")).withTag tags.VALUE_IDENT).clone ≠ (Label.newOwned (t! "a")).withTag tags.VALUE_IDENT := by decide

/-! ## C46 -/

open LabelHeap

/-- C46. After any history of label operations that the compiler accepts, with any behaviour of the
allocator: the next operation is never undefined behaviour (no box is freed twice, nothing freed is
read), every live label reads exactly as the same history over plain values says, and when no label
is left no box is. -/
theorem C46_label_memory_safe (ops : List Op) (s : St) (h : Reach ops s) :
    (∀ op, Legal s op → ∃ s', step s op = some s') ∧
    (∀ i l, s.labels i = some l →
      ∃ v, view s l = some v ∧ (Spec.run ops .init).labels i = some v) ∧
    ((∀ i, s.labels i = none) → ∀ a, s.heap a = none) := by
  have hi := h.inv
  refine ⟨?_, ?_, ?_⟩
  · intro op hop
    obtain ⟨s', h1, _⟩ := hi.step op hop
    exact ⟨s', h1⟩
  · intro i l hl
    exact h.refines.live hl
  · intro hn a
    cases ha : s.heap a with
    | none => rfl
    | some t =>
      obtain ⟨i, l, hl, _⟩ := hi.noLeak a (by simp [ha])
      rw [hn i] at hl; cases hl

/-- A history: own a label, borrow it, clone the borrow and the original, drop in a legal order, and
reuse the freed address. -/
def exampleHistory : List Op :=
  [.newOwned (t! "a") 7, .newComputedFrom 0, .clone 1 0, .clone 0 8, .drop 1, .drop 2, .drop 0,
   .newOwned (t! "b") 7]

/-- A checker for `Legal`, to exhibit histories. -/
def legalB (s : St) : Op → Bool
  | .new _ | .newComputed _ => true
  | .newComputedFrom i => (s.labels i).isSome
  | .newOwned _ a => (s.heap a).isNone
  | .clone i a => (s.labels i).isSome && (s.heap a).isNone
  | .toOwned i a => (s.labels i).isSome && (s.heap a).isNone
  | .withTag i _ | .drop i =>
    (s.labels i).isSome && (List.range s.next).all fun j =>
      match s.labels j with | none => true | some l => l.lender != some i

def runB : List Op → St → Option St
  | [], s => some s
  | op :: ops, s => if legalB s op then (step s op).bind (runB ops) else none

theorem reach_runB (ops rest : List Op) (s s' : St) (h : Reach ops s) (hr : runB rest s = some s') :
    Reach (ops ++ rest) s' := by
  induction rest generalizing ops s with
  | nil => cases hr; simpa using h
  | cons op rest ih =>
    simp only [runB] at hr
    split at hr
    · next hl =>
      cases hs : step s op with
      | none => simp [hs] at hr
      | some s1 =>
        rw [hs] at hr
        have legal : Legal s op := by
          have some_ne : ∀ {o : Option RawLabel}, o.isSome = true → o ≠ none := by
            rintro _ h rfl; cases h
          have noLender : ∀ i, (List.range s.next).all (fun j =>
              match s.labels j with | none => true | some l => l.lender != some i) = true →
              ∀ j l, s.labels j = some l → l.lender ≠ some i := by
            intro i h1 j l hl
            have := List.all_eq_true.1 h1 j (by simpa using h.inv.fresh j l hl)
            rw [hl] at this
            simpa using this
          cases op <;> simp only [legalB, Bool.and_eq_true] at hl <;> simp only [Legal] <;>
            first
              | trivial
              | (intro e; rw [e] at hl; cases hl)
              | simpa using hl
              | exact ⟨some_ne hl.1, by simpa using hl.2⟩
              | exact ⟨some_ne hl.1, noLender _ hl.2⟩
        have := ih (ops ++ [op]) s1 (.step h legal hs) hr
        simpa using this
    · cases hr

example : ∃ s, Reach exampleHistory s ∧ (s.labels 3).bind (asStr s) = some (t! "a") ∧
    (s.labels 4).bind (asStr s) = some (t! "b") ∧ s.labels 0 = none ∧ s.heap 8 = some (t! "a") := by
  have h : (runB exampleHistory .init).isSome = true := by decide +kernel
  obtain ⟨s, hs⟩ := Option.isSome_iff_exists.1 h
  refine ⟨s, by simpa using reach_runB [] _ _ s .init hs, ?_⟩
  have e : s = (runB exampleHistory .init).get h := by simp [hs]
  rw [e]
  clear e hs s
  revert h
  decide +kernel

end Sval
