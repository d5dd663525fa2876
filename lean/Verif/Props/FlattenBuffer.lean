import Verif.Flatten.Buffered
import Verif.Buffer.Through
import Verif.Props.Flatten
import Verif.Props.Compose

set_option autoImplicit false

/-!
# Flattening a buffered value: C84
-/

namespace Sval
open Flatten Buf

/-- Buffering `v`, with `ValueBuf::collect` or with `ValueBuf::collect_owned`, succeeds, and the buffer then streams the
calls of `w`. -/
def Buffers (owned : Bool) (v w : V) : Prop :=
  ∃ s, collect true owned (valueOf v) = .ok s ∧ replay s.parts = ⟨toks w, false⟩

/-- The second entry is the first one with what is in it buffered. It has the same tag and index, and the text of its
label is the same, or else empty, which can only be if it is made from a key with a text without fragments in it. -/
structure BufferedEntry (cfg : Flatten.Cfg) (owned : Bool) (x y : Entry × Index) : Prop where
  index : y.2 = x.2
  tag : y.1.tag = x.1.tag
  val : Buffers owned x.1.val y.1.val
  key : ∀ k, x.1.key = some k → ∃ k', y.1.key = some k' ∧ Buffers owned k k'
  noKey : x.1.key = none → y.1.key = none
  label : (labelOf (keyLabel cfg) y.1 y.2).text = (labelOf (keyLabel cfg) x.1 x.2).text ∨
    (∃ k, x.1.key = some k ∧ hasVoid k) ∧ (labelOf (keyLabel cfg) y.1 y.2).text = []

theorem buffers_kept (owned : Bool) (v : V) : Buffers owned v (asBuffered owned v) := by
  obtain ⟨⟨s, h1, h2⟩, ⟨s', h1', h2'⟩⟩ := C15_collect v
  cases owned
  · exact ⟨s, h1, h2⟩
  · exact ⟨s', h1', h2'⟩

theorem hasVoid_comp {v : V} (h : hasVoid (comp v)) : hasVoid v := by
  obtain ⟨n, a, b, h⟩ := h
  rw [toks_comp] at h
  rw [List.append_assoc] at h
  obtain ⟨x, y, h1, -, h3⟩ := List.map_eq_append_iff.1 h.symm
  obtain ⟨p, q, rfl, h4, h5⟩ := List.map_eq_append_iff.1 h3
  have hp : p = [.textBegin n, .textEnd] := by
    obtain ⟨c, p, rfl, hc, h4⟩ := List.map_eq_cons_iff.1 h4
    obtain ⟨d, p, rfl, hd, h4⟩ := List.map_eq_cons_iff.1 h4
    obtain rfl := List.map_eq_nil_iff.1 h4
    have : c = .textBegin n := by cases c <;> simp_all [computedTok]
    have : d = .textEnd := by cases d <;> simp_all [computedTok]
    simp [*]
  exact ⟨n, x, q, by rw [h1, hp, List.append_assoc]⟩

theorem keyLabel_kept (cfg : Flatten.Cfg) (owned : Bool) (k : V) :
    keyLabel cfg (asBuffered owned k) = keyLabel cfg k ∨ (hasVoid k ∧ keyLabel cfg (asBuffered owned k) = []) := by
  cases owned
  · exact (merges_norm cfg.ryu k).kept_eq
  · have := (merges_norm cfg.ryu (comp k)).kept_eq
    rw [pieces_comp] at this
    exact this.imp id fun h => ⟨hasVoid_comp h.1, h.2⟩

theorem bufferedEntry (cfg : Flatten.Cfg) (owned : Bool) (x : Entry × Index) :
    BufferedEntry cfg owned x (x.1.buffered owned, x.2) := by
  obtain ⟨⟨t, k, l, i, v⟩, ix⟩ := x
  refine ⟨rfl, rfl, buffers_kept _ _, ?_, ?_, ?_⟩
  · rintro k' rfl
    exact ⟨_, rfl, buffers_kept _ _⟩
  · rintro rfl; rfl
  · cases k with
    | some k =>
      simp only [labelOf, Entry.buffered, Option.map_some, Label.newComputed]
      exact (keyLabel_kept cfg owned k).imp id fun hv => ⟨⟨k, rfl, hv.1⟩, hv.2⟩
    | none =>
      refine .inl ?_
      cases l with
      | none => rfl
      | some l => simp only [labelOf, Entry.buffered, Option.map_some, Option.map_none]; exact toOwned_text' l

theorem forall2_map {α β : Type} {R : α → β → Prop} (f : α → β) (h : ∀ x, R x (f x)) (l : List α) :
    List.Forall₂ R l (l.map f) := by
  induction l with
  | nil => exact .nil
  | cons x l ih => exact .cons (h x) ih

/-- C84. Flattening the buffer of a value makes calls for the same entries as flattening the value itself, with the same
labels and indexes, and ends with the same offset. The values of the entries are those a buffer of each would stream.
Nested maps are broken in the same way (C29). -/
theorem C84_partial (cfg : Flatten.Cfg) (ha : cfg.alloc = true) (v : V) (owned : Bool) (k : Int) (hk : isIsize k)
    (hu : untaggedEnum v = true) (hr : cfg.checks = true → inRange k k (entries v)) :
    let es := number k k (entries v)
    FlattensTo cfg v k (entryCalls cfg reopened es.1) es.2 ∧
    ∃ w es', Buffers owned v w ∧ List.Forall₂ (BufferedEntry cfg owned) es.1 es' ∧
      FlattensTo cfg w k (entryCalls cfg reopened es') es.2 := by
  intro es
  have hf : ∀ e, (Entry.buffered owned e).index = e.index := fun _ => rfl
  refine ⟨C29_exact cfg ha v k hk hu hr, asBuffered owned v, (number k k (entries (asBuffered owned v))).1, buffers_kept _ _, ?_, ?_⟩
  · rw [(entries_kept owned v).1, number_map _ hf]
    exact forall2_map _ (bufferedEntry cfg owned) _
  · have := C29_exact cfg ha (asBuffered owned v) k hk (by rw [(rootEnum_kept owned v).2.1]; exact hu)
      (fun hc => by rw [(entries_kept owned v).1]; exact (inRange_map _ hf k k _).2 (hr hc))
    rw [show (number k k (entries (asBuffered owned v))).2 = es.2 by
      rw [(entries_kept owned v).1, number_map _ hf]] at this
    exact this

/-- C84. Where flattening the value panics because it is a tagged enum, so does flattening the buffer. -/
theorem C84_panics (cfg : Flatten.Cfg) (ha : cfg.alloc = true) (hc : cfg.checks = true) (v : V) (owned : Bool) (k : Int)
    (hk : isIsize k) (ht : untaggedEnum v = false) (hr : inRange k k (entries v)) {σ : Type} (S : Token → σ → Res Unit σ)
    (hS : ∀ t s, ∃ s', S t s = .ok s') (s : σ) :
    flattenTo cfg S (valueOf v) k s = .panicked ∧
      ∃ w, Buffers owned v w ∧ flattenTo cfg S (valueOf w) k s = .panicked := by
  have hrun : ∀ ts s, ∃ s', run S ts s = .ok s' := by
    intro ts
    induction ts with
    | nil => exact fun s => ⟨s, rfl⟩
    | cons t ts ih => intro s; obtain ⟨s', h⟩ := hS t s; obtain ⟨r, h'⟩ := ih s'; exact ⟨r, by rw [run, h]; exact h'⟩
  have hf : ∀ e, (Entry.buffered owned e).index = e.index := fun _ => rfl
  have key : ∀ u : V, untaggedEnum u = false → inRange k k (entries u) → flattenTo cfg S (valueOf u) k s = .panicked := by
    intro u hu hr
    obtain ⟨m, hm⟩ := (tagged_or_not u).resolve_left (by simp [hu])
    have := C29_tagged_exact cfg ha hc u k hk m hm hr S s
    obtain ⟨s', h⟩ := hrun (entryCalls cfg reopened (number k k (entries u)).1 ++ [.taggedEnd m]) s
    rw [h] at this
    exact this
  refine ⟨key v ht hr, asBuffered owned v, buffers_kept _ _, key _ (by rw [(rootEnum_kept owned v).2.1]; exact ht) ?_⟩
  rw [(entries_kept owned v).1]
  exact (inRange_map _ hf k k _).2 hr

/-- C84. Where flattening the value ends tags that were not begun instead, because the build has no overflow checks, so
does flattening the buffer. -/
theorem C84_wraps (cfg : Flatten.Cfg) (ha : cfg.alloc = true) (hc : cfg.checks = false) (v : V) (owned : Bool) (k : Int)
    (hk : isIsize k) (ht : untaggedEnum v = false) :
    let es := number k k (entries v)
    ∃ ms ms' : List Meta, ms ≠ [] ∧ ms' = ms.map own ∧
    FlattensTo cfg v k (entryCalls cfg reopened es.1 ++ ms.map Token.taggedEnd) es.2 ∧
    ∃ w es', Buffers owned v w ∧ List.Forall₂ (BufferedEntry cfg owned) es.1 es' ∧
      FlattensTo cfg w k (entryCalls cfg reopened es' ++ ms'.map Token.taggedEnd) es.2 := by
  intro es
  have hf : ∀ e, (Entry.buffered owned e).index = e.index := fun _ => rfl
  have hne : enumTags v ≠ [] := fun h => by simp [enumTags_nil.1 h] at ht
  refine ⟨enumTags v, _, hne, rfl, C29_tagged_wraps cfg ha hc v k hk hne, asBuffered owned v,
    (number k k (entries (asBuffered owned v))).1, buffers_kept _ _, ?_, ?_⟩
  · rw [(entries_kept owned v).1, number_map _ hf]
    exact forall2_map _ (bufferedEntry cfg owned) _
  · have := C29_tagged_wraps cfg ha hc (asBuffered owned v) k hk (by rw [(rootEnum_kept owned v).2.2.2]; simpa using hne)
    rw [show (number k k (entries (asBuffered owned v))).2 = es.2 by
      rw [(entries_kept owned v).1, number_map _ hf], (rootEnum_kept owned v).2.2.2] at this
    exact this

/-- A container with these entries. -/
def containerOf (kind : Flatten.Kind) (K : V → Text) (es : List (Entry × Index)) : V :=
  match kind with
  | .record => .record {} none (asRecord K es)
  | .tuple => .tuple {} none (asTuple es)
  | .seq => .seq none (asSeq es)
  | .recordTuple => .recordTuple {} none (asRecordTuple K es)
  | .map => .map none (asMap es)

theorem norm_kept (v : V) : norm (asBuffered false v) = norm v := norm_idem v

theorem norm_containerOf (kind : Flatten.Kind) (K : V → Text) (es : List (Entry × Index))
    (hK : ∀ x ∈ es, ∀ k, x.1.key = some k → K (norm k) = K k) :
    norm (containerOf kind K (es.map fun x => (x.1.buffered false, x.2))) = norm (containerOf kind K es) := by
  have hl : ∀ x ∈ es, (labelOf K (x.1.buffered false) x.2).toOwned = (labelOf K x.1 x.2).toOwned := by
    rintro ⟨⟨t, k, l, i, v⟩, ix⟩ hx
    cases k with
    | some k =>
      have := hK _ hx k rfl
      simp [labelOf, Entry.buffered, asBuffered, this]
    | none =>
      cases l with
      | none => rfl
      | some l => simp [labelOf, Entry.buffered, toOwned_idem]
  cases kind with
  | record =>
    simp only [containerOf, norm, asRecord, normRec_eq, List.map_map]
    congr 1
    refine List.map_congr_left fun x hx => ?_
    simp only [Function.comp, hl x hx]
    simp [Entry.buffered, norm_kept]
  | tuple =>
    simp only [containerOf, norm, asTuple, normTup_eq, List.map_map]
    congr 1
    refine List.map_congr_left fun x hx => ?_
    simp [Function.comp, Entry.buffered, norm_kept]
  | seq =>
    simp only [containerOf, norm, asSeq, normSeq_eq, List.map_map]
    congr 1
    refine List.map_congr_left fun x hx => ?_
    simp [Function.comp, Entry.buffered, norm_kept]
  | recordTuple =>
    simp only [containerOf, norm, asRecordTuple, normRT_eq, List.map_map]
    congr 1
    refine List.map_congr_left fun x hx => ?_
    simp only [Function.comp, hl x hx]
    simp [Entry.buffered, norm_kept]
  | map =>
    simp only [containerOf, norm, asMap, normMap_eq, List.map_map]
    congr 1
    refine List.map_congr_left fun x hx => ?_
    obtain ⟨⟨t, k, l, i, v⟩, ix⟩ := x
    cases k with
    | some k => simp [Function.comp, Entry.buffered, norm_kept]
    | none =>
      cases l with
      | none => simp [Function.comp, Entry.buffered, norm_kept, labelOf]
      | some l =>
        have : labelV l.toOwned = labelV l := by
          unfold labelV
          rw [toOwned_text']
          unfold Label.toOwned
          split <;> simp_all [Label.new, Label.newOwned]
        simp [Function.comp, Entry.buffered, norm_kept, labelOf, this]

theorem toks_containerOf (kind : Flatten.Kind) (K : V → Text) (es : List (Entry × Index)) :
    ∃ a b, toks (containerOf kind K es) = a :: (entryToks kind K es ++ [b]) := by
  cases kind <;> exact ⟨_, _, rfl⟩

theorem keyEnd_norm (v : V) (h : Token.mapKeyEnd ∈ toks (norm v)) : Token.mapKeyEnd ∈ toks v := by
  induction v using V.ind with
  | text n fs =>
    exfalso
    revert h
    cases hm : mergedFrag fs <;> simp [norm, toks, hm, textFragTok]
  | binary n fs =>
    exfalso
    revert h
    cases hm : mergedFrag fs <;> simp [norm, toks, hm, binFragTok]
  | seq n xs ih =>
    simp only [norm, toks, List.mem_cons, List.mem_append, List.not_mem_nil, or_false, reduceCtorEq, false_or] at h ⊢
    induction xs with
    | nil => exact h
    | cons x xs ihx =>
      simp only [normSeq, toksSeq, List.mem_cons, List.mem_append, reduceCtorEq, false_or] at h ⊢
      exact h.imp (ih x (by simp)) (ihx fun y hy => ih y (by simp [hy]))
  | map n xs ih =>
    simp only [norm, toks, List.mem_cons, List.mem_append, List.not_mem_nil, or_false, reduceCtorEq, false_or] at h ⊢
    cases xs with
    | nil => exact h
    | cons x xs => simp [toksMap]
  | record m n xs ih =>
    simp only [norm, toks, List.mem_cons, List.mem_append, List.not_mem_nil, or_false, reduceCtorEq, false_or] at h ⊢
    induction xs with
    | nil => exact h
    | cons x xs ihx =>
      simp only [normRec, toksRec, List.mem_cons, List.mem_append, reduceCtorEq, false_or] at h ⊢
      exact h.imp (ih x (by simp)) (ihx fun y hy => ih y (by simp [hy]))
  | tuple m n xs ih =>
    simp only [norm, toks, List.mem_cons, List.mem_append, List.not_mem_nil, or_false, reduceCtorEq, false_or] at h ⊢
    induction xs with
    | nil => exact h
    | cons x xs ihx =>
      simp only [normTup, toksTup, List.mem_cons, List.mem_append, reduceCtorEq, false_or] at h ⊢
      exact h.imp (ih x (by simp)) (ihx fun y hy => ih y (by simp [hy]))
  | recordTuple m n xs ih =>
    simp only [norm, toks, List.mem_cons, List.mem_append, List.not_mem_nil, or_false, reduceCtorEq, false_or] at h ⊢
    induction xs with
    | nil => exact h
    | cons x xs ihx =>
      simp only [normRT, toksRT, List.mem_cons, List.mem_append, reduceCtorEq, false_or] at h ⊢
      exact h.imp (ih x (by simp)) (ihx fun y hy => ih y (by simp [hy]))
  | tagged m v ih =>
    simp only [norm, toks, List.mem_cons, List.mem_append, List.not_mem_nil, or_false, reduceCtorEq, false_or] at h ⊢
    exact ih h
  | enum m v ih =>
    simp only [norm, toks, List.mem_cons, List.mem_append, List.not_mem_nil, or_false, reduceCtorEq, false_or] at h ⊢
    exact ih h
  | hint m v ih =>
    simp only [norm, toks, List.mem_cons, reduceCtorEq, false_or] at h ⊢
    exact ih h
  | _ => simp [norm, toks] at h

/-- C84. A container with a value flattened into it, and one with the buffer of that value flattened into it instead,
are buffered as the same, formatted as the same text, and seen as the same by recursive streams. This is for values
without nested maps, and map keys without a text without fragments. -/
theorem C84_same_partial (cfg : Flatten.Cfg) (ha : cfg.alloc = true) (v : V) (k : Int) (hk : isIsize k)
    (hu : untaggedEnum v = true) (hr : cfg.checks = true → inRange k k (entries v))
    (hm : ∀ e ∈ entries v, Token.mapKeyEnd ∉ toks e.val) (hv : ∀ e ∈ entries v, ∀ k, e.key = some k → ¬ hasVoid k) :
    let C := containerOf cfg.kind (keyLabel cfg)
    let es := number k k (entries v)
    FlattensTo cfg v k (entryToks cfg.kind (keyLabel cfg) es.1) es.2 ∧
    ∃ w es', Buffers false v w ∧ FlattensTo cfg w k (entryToks cfg.kind (keyLabel cfg) es') es.2 ∧
      (∃ d, Buffers false (C es.1) d ∧ Buffers false (C es') d) ∧
      (∀ env, Fmt.toString env (valueOf (C es')) = Fmt.toString env (valueOf (C es.1))) ∧
      Nested.seen (C es') = Nested.seen (C es.1) := by
  intro C es
  have hf : ∀ e, (Entry.buffered false e).index = e.index := fun _ => rfl
  have he : (entries (norm v)) = (entries v).map (Entry.buffered false) := (entries_kept false v).1
  have hn : number k k (entries (norm v)) = (es.1.map fun x => (x.1.buffered false, x.2), es.2) := by
    rw [he, number_map _ hf]
  have hs : norm (C (es.1.map fun x => (x.1.buffered false, x.2))) = norm (C es.1) :=
    norm_containerOf _ _ _ fun x hx q hq =>
      ((keyLabel_kept cfg false q).resolve_right fun h => hv _ (number_mem hx) q hq h.1)
  refine ⟨C29_partial cfg ha v k hk hu hr hm, norm v, es.1.map fun x => (x.1.buffered false, x.2), buffers_kept false v, ?_, ?_, ?_, ?_⟩
  · have := C29_partial cfg ha (norm v) k hk (by have := (rootEnum_kept false v).2.1; exact this.trans hu)
      (fun hc => by rw [he]; exact (inRange_map _ hf k k _).2 (hr hc)) (by
        rw [he]
        intro e hx
        obtain ⟨e, hy, rfl⟩ := List.mem_map.1 hx
        exact fun h => hm e hy (keyEnd_norm _ h))
    rw [hn] at this
    exact this
  · exact ⟨norm (C es.1), buffers_kept false _, by have := buffers_kept false (C (es.1.map fun x => (x.1.buffered false, x.2))); rwa [asBuffered, if_neg (by simp), hs] at this⟩
  · intro env
    rw [C26_exact, C26_exact, ← Through.layout_norm, hs, Through.layout_norm]
  · rw [← Through.seen_norm, hs, Through.seen_norm]

/-- A map with a key in pieces, in an enum, for flattening. -/
def pieced : V := .enum {} (.map none [(.seq none [.int .u8 1, .text none [.borrowed (t! "a"), .computed (t! "b")]],
  .text none [.borrowed (t! "x"), .computed (t! "y")])])

example : untaggedEnum pieced = true ∧ inRange 3 3 (entries pieced) ∧
    (∀ e ∈ entries pieced, Token.mapKeyEnd ∉ toks e.val) := by
  refine ⟨rfl, by decide, ?_⟩
  simp [pieced, entries, variantEntries, toks, textFragTok]

example : ∀ e ∈ entries pieced, ∀ k, e.key = some k → ¬ hasVoid k := by
  simp only [pieced, entries, variantEntries, List.map_cons, List.map_nil, List.mem_singleton, forall_eq, Option.some.injEq, forall_eq']
  rintro ⟨n, h⟩
  simp [toks, toksSeq, textFragTok, List.infix_cons_iff, List.cons_prefix_cons] at h

/-- C84 is false for keys with a text without fragments: what comes after a number in a key replaces it, but not if
nothing comes, and the buffer makes an empty fragment of no fragments. -/
theorem C84_fails : ∃ v w, Buffers false v w ∧
    flattenTo (flat .record) keepAll (valueOf v) 0 [] = .done true
      (toksRec [(none, Label.newComputed (t! "1"), .null)], 1) ∧
    flattenTo (flat .record) keepAll (valueOf w) 0 [] = .done true
      (toksRec [(none, Label.newComputed [], .null)], 1) := by
  refine ⟨.map none [(.seq none [.int .u8 1, .text none []], .null)], _, buffers_kept false _, ?_, ?_⟩ <;> decide +kernel

end Sval
