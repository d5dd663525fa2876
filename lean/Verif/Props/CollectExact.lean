import Verif.Buffer.CollectExact
import Verif.Props.TextBuf

set_option autoImplicit false

/-!
# C47 in full: collecting, with `alloc` and without
-/

namespace Sval
open Buf

/-- C47. With `alloc` or without, for text and for binary: the panic takes a value that fails without any call that
it made having failed. -/
theorem C47_panic (alloc : Bool) (p : Prog) (h : collectText alloc p = .panic ∨ collectBinary alloc p = .panic) :
    ∀ ans, (∀ log t, ans log t = true) → (exec (recorder ans) p .base []).2 = false := by
  intro ans hans
  rcases h with h | h
  · exact (textCStep_keeps alloc).gather textCCaps ans hans p h
  · exact (binaryCStep_keeps alloc).gather binaryCCaps ans hans p h

/-- A value whose text is computed, without `alloc`: an error, and no panic. -/
example : collectText false (valueOf (.text none [.computed (t! "a")])) = .err .noAlloc ∧
    collectBinary false (valueOf (.seq none [.int .u8 1])) = .err .noAlloc ∧
    collectText false (.ret false) = .panic ∧ (exec (recorder fun _ _ => true) (.ret false) .base []).2 = false := by
  decide +kernel

/-- C47. `BinaryBuf::collect` with `alloc`: what comes of pushing the fragments in turn, so borrowed if one borrowed
fragment gives it, and the error that it is not binary for a value not made of bytes. -/
theorem C47_binary_exact (v : V) :
    collectBinary true (valueOf v) =
      match binPieces v with
      | some fs => .ok (merged fs)
      | none => .err .unsupported := by
  have h := pushes true v {}
  cases hb : binPieces v with
  | some fs =>
    rw [hb] at h
    dsimp only at h
    have hm : fs.foldl pushFrag (Cow.new : Cow UInt8) = merged fs := merged_foldl [] fs
    rw [pushAll_true] at h
    have := gather_ok binaryCCaps (binaryCStep true) (toks v) _ h
    dsimp only at this ⊢
    rw [← hm]
    exact this
  | none =>
    rw [hb] at h
    obtain ⟨e, s', h1, h2, h3⟩ := h
    rw [h3 rfl] at h1 h2
    exact gather_err binaryCCaps (binaryCStep true) (toks v) s' _ _ h1 h2

/-- C47. Without `alloc`: `TextBuf::collect` gives the last fragment, borrowed, of a value that is text under any
wrappers, if all its fragments are borrowed and only the last may be other than empty. For other text the error is that
there is no allocator, and for other values that they are not text. -/
theorem C47_text_no_alloc (v : V) (hv : ∀ u n, leaf v = .int u n → u.fits n = true) :
    collectText false (valueOf v) =
      match textPieces (leaf v) with
      | some fs => if lendable fs then .ok (.borrowed (lastOf fs)) else .err .noAlloc
      | none => .err .unsupported := by
  have hl := lower_leaf textCCaps rfl rfl rfl v
  have hr := run_textLeaf_false (leaf v) (leaf_ne_tagged v) (leaf_ne_enum v) (leaf_ne_hint v) hv
  rw [← hl] at hr
  cases ht : textPieces (leaf v) with
  | some fs =>
    rw [ht] at hr
    dsimp only at hr ⊢
    split
    · next h => rw [if_pos h] at hr; exact gather_ok textCCaps (textCStep false) (toks v) _ hr
    · next h =>
      rw [if_neg h] at hr
      obtain ⟨s', h1, h2⟩ := hr
      exact gather_err textCCaps (textCStep false) (toks v) _ _ _ h1 h2
  | none =>
    rw [ht] at hr
    exact gather_err textCCaps (textCStep false) (toks v) _ _ _ hr rfl

/-- C47. Without `alloc`: `BinaryBuf::collect` succeeds exactly for values made of bytes whose fragments are borrowed
and empty but for the last, which it gives. Otherwise it returns an error, and does not panic. -/
theorem C47_binary_no_alloc (v : V) :
    match binPieces v with
    | some fs =>
      collectBinary false (valueOf v) = if lendable fs then .ok (.borrowed (lastOf fs)) else .err .noAlloc
    | none => ∃ e, collectBinary false (valueOf v) = .err e := by
  have h := pushes false v {}
  cases hb : binPieces v with
  | some fs =>
    rw [hb] at h
    dsimp only at h ⊢
    have hp := pushAll_new fs
    split
    · next hl => rw [if_pos hl, ← h] at hp; exact gather_ok binaryCCaps (binaryCStep false) (toks v) _ hp
    · next hl =>
      rw [if_neg hl, ← h] at hp
      obtain ⟨s', h1, h2⟩ := hp
      exact gather_err binaryCCaps (binaryCStep false) (toks v) s' _ _ h1 h2
  | none =>
    rw [hb] at h
    obtain ⟨e, s', h1, h2, -⟩ := h
    exact ⟨e, gather_err binaryCCaps (binaryCStep false) (toks v) s' _ _ h1 h2⟩

/-- C47. What is collected without `alloc` is what is collected with it. -/
theorem C47_no_alloc_agrees (v : V) (hv : ∀ u n, leaf v = .int u n → u.fits n = true) :
    (∀ c, collectText false (valueOf v) = .ok c → collectText true (valueOf v) = .ok c) ∧
    (∀ c, collectBinary false (valueOf v) = .ok c → collectBinary true (valueOf v) = .ok c) := by
  have key : ∀ {α : Type} (fs : List (Frag (List α))), lendable fs = true → merged fs = .borrowed (lastOf fs) := by
    intro α fs h
    have hm : fs.foldl pushFrag (Cow.new : Cow α) = merged fs := merged_foldl [] fs
    have h1 := (pushAll_false fs {}).1 rfl h
    suffices ∀ (fs : List (Frag (List α))) (s s' : Coll α), pushAll false fs s = .ok s' → s'.buf = fs.foldl pushFrag s.buf by
      have := this fs {} _ h1
      rw [← hm]
      refine this.symm.trans ?_
      cases fs <;> rfl
    intro fs
    induction fs with
    | nil => intro s s' h; cases h; rfl
    | cons f fs ih =>
      intro s s' h
      cases f with
      | computed f => cases h
      | borrowed f =>
        simp only [pushAll, Cow.push, Cow.pushComputed, Bool.false_eq_true, if_false] at h
        simp only [List.foldl_cons, pushFrag]
        split at h
        · next hc => rw [if_pos hc]; exact ih _ _ h
        · cases h
  constructor
  · intro c h
    rw [C47_text_no_alloc v hv] at h
    rw [C47_collect_text_partial v hv]
    cases hp : textPieces (leaf v) with
    | none => rw [hp] at h; cases h
    | some fs =>
      rw [hp] at h
      dsimp only at h
      split at h
      · next hl =>
        cases h
        have : textOf (leaf v) = some (merged fs) := by
          revert hp
          cases leaf v with
          | text n gs => intro hp; cases hp; rfl
          | int t n =>
            simp only [textPieces, textOf]
            split <;> intro hp <;> cases hp
            cases hl
          | tag m =>
            simp only [textPieces, textOf]
            split
            · intro hp; cases hp
            · cases m.label with
              | none => intro hp; cases hp
              | some l =>
                simp only [Option.map]
                split <;> intro hp <;> cases hp <;> first | rfl | cases hl
          | _ => intro hp; cases hp
        rw [this, key fs hl]
      · cases h
  · intro c h
    have hn := C47_binary_no_alloc v
    rw [C47_binary_exact]
    cases hp : binPieces v with
    | none => rw [hp] at hn; obtain ⟨e, hn⟩ := hn; rw [hn] at h; cases h
    | some fs =>
      rw [hp] at hn
      dsimp only at hn ⊢
      rw [hn] at h
      split at h
      · next hl => cases h; rw [key fs hl]
      · cases h

/-- Text under a tag, with an empty fragment before the one that is lent. With `alloc` two fragments that are not empty
make a computed text, and without it none. -/
example :
    collectText false (valueOf (.tagged {} (.text none [.borrowed [], .borrowed (t! "ab")]))) = .ok (.borrowed (t! "ab")) ∧
    collectText false (valueOf (.text none [.borrowed (t! "a"), .borrowed []])) = .err .noAlloc ∧
    collectText true (valueOf (.text none [.borrowed (t! "a"), .borrowed []])) = .ok (.owned (t! "a")) ∧
    collectText false (valueOf (.int .u64 18446744073709551615)) = .err .noAlloc ∧
    collectBinary true (valueOf (.seq none [.binary none [.borrowed []], .binary none [.borrowed [1, 2]]])) =
      .ok (.borrowed [1, 2]) ∧
    collectBinary false (valueOf (.seq none [.binary none [.borrowed []], .binary none [.borrowed [1, 2]]])) =
      .ok (.borrowed [1, 2]) ∧
    collectBinary false (valueOf (.seq none [.null, .int .u8 1])) = .err .unsupported ∧
    collectBinary false (valueOf (.seq none [.int .u8 1, .null])) = .err .noAlloc := by
  decide +kernel

end Sval
