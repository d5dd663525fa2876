import Verif.Props.Nested
import Verif.Nested.Bare

set_option autoImplicit false

/-!
# Exactly which elements can be streamed on (C33)
-/

namespace Sval

open Nested (Arg Cb prog flat seen Makes Matches strip noFilled variant BareArg noFilled_seen strip_toks_iff strip_bare bare_makes recordCb runCb runCb_recordCb wrapper exec_accepts text binary seenMap)

/-- What the argument does when it is streamed on: the calls of a value with that tree, always without those around
the elements of sequences. They are the calls of a value just if every sequence in it is empty. -/
def RestreamsBare (a : Arg) (v : V) : Prop :=
  (∃ w, seen w = v ∧ Streams a ((toks w).filter fun t => t ≠ .seqValueBegin && t ≠ .seqValueEnd)) ∧
    ((∃ w, Streams a (toks w)) ↔ noFilled v = true)

theorem restreamsBare {a : Arg} {v : V} (h : Restreams a v) (ha : BareArg a) : RestreamsBare a v := by
  obtain ⟨w, T, hT, hw, hs, _⟩ := h
  obtain ⟨q, hq, hb⟩ := ha
  have hT' : T = flat q (!a.borrowed) := by
    have := exec_accepts q (!a.borrowed) []
    unfold Streams at hT
    rw [hq] at hT
    cases hb : a.borrowed <;>
      simp only [hb, wrapper, Bool.not_true, Bool.not_false, if_true, Bool.false_eq_true, if_false, List.nil_append] at this hT ⊢ <;>
      rw [this] at hT <;> exact (Prod.mk.inj hT).1.symm
  have e : T = strip (toks w) := by
    rw [← show strip T = strip (toks w) from hs]
    exact (strip_bare (hT' ▸ hb _)).symm
  subst e
  refine ⟨⟨w, hw, hT⟩, ?_⟩
  rw [← hw, noFilled_seen, ← strip_toks_iff]
  constructor
  · rintro ⟨w', hw'⟩
    exact ⟨w', (Prod.mk.inj (hT.symm.trans hw')).1⟩
  · rintro ⟨w', hw'⟩
    exact ⟨w', hw' ▸ hT⟩

/-- C33. Exactly what the arguments do that methods get for a value that makes its calls itself: streamed on, each
makes the calls of a value with the same tree, but never those around the elements of sequences. So it makes the calls
of a value just if there is no element of a sequence in it. -/
theorem C33_exact (v : V) (hv : ∀ m w, rootEnum v = some (m, w) → variant false w = true) (borrowed : Bool) :
    ∃ X, Matches RestreamsBare X (seen v) ∧ Makes (!borrowed) (valueOf v) X := by
  obtain ⟨X, hX, hm⟩ := C32_methods v hv borrowed
  have hb := bare_makes (toks v) (!borrowed) X (valueOf_prog v ▸ hm)
  refine ⟨X, ?_, hm⟩
  rcases hX with hX | ⟨a, rfl, ha⟩
  · exact .inl (hX.withArgs hb fun a w h h' => restreamsBare (restreams h) h')
  · exact .inr ⟨a, rfl, restreamsBare (restreams ha) (hb _ (List.mem_singleton.2 rfl) a rfl)⟩

/-- C33. The methods are determined by the value. -/
theorem C33_methods_unique (p : Prog) (c : Bool) (X Y : List Cb) (hX : Makes c p X) (hY : Makes c p Y) : X = Y := by
  have h := (hX (List Cb) recordCb []).symm.trans (hY (List Cb) recordCb [])
  rw [runCb_recordCb, runCb_recordCb] at h
  simpa [Res.outcome] using h

/-- The element with an empty sequence can be streamed on, the one with a sequence of one element cannot. -/
example : ∃ a b, Makes false (valueOf (.map none [(.map none [(.null, .seq none [])], .tagged {} (.seq none [.null]))]))
      [.mapBegin none, .mapKey a, .mapValue b, .mapEnd] ∧
    (∃ w, Streams a (toks w)) ∧ ¬ ∃ w, Streams b (toks w) := by
  obtain ⟨X, hX, hm⟩ := C33_exact (.map none [(.map none [(.null, .seq none [])], .tagged {} (.seq none [.null]))])
    (by simp [rootEnum]) true
  rcases hX with hX | ⟨a, rfl, ha⟩
  · generalize hu : seen _ = u at hX
    cases hX <;> simp [seen, seenMap, text, binary] at hu
    rename_i n L h1 h2
    obtain ⟨rfl, hL⟩ := hu
    match L, hL with
    | [((a, u), (b, w))], hL =>
      simp only [List.map_cons, List.map_nil, List.cons.injEq, Prod.mk.injEq, and_true] at hL
      refine ⟨a, b, hm, (h1 _ (List.mem_singleton.2 rfl)).2.2 ?_, fun h => ?_⟩
      · rw [← hL.1]; rfl
      · have := (h2 _ (List.mem_singleton.2 rfl)).2.1 h
        rw [← hL.2] at this
        cases this
  · have h := hm Bool (fun c _ => match c with | .value _ => .ok true | _ => .ok false) false
    simp [runCb, Res.bind, Res.outcome, valueOf] at h
    exact absurd h (by decide)

end Sval
