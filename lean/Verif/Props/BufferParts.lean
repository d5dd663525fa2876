import Verif.Buffer.Parts
import Verif.Core.Unique
import Verif.Props.Compose
import Verif.Props.BufferExtract

set_option autoImplicit false

/-!
# Buffers as parts of values: C97
-/

namespace Sval
open Buf Nested

/-- Code that streams the value with a part at the place, where for the part it hands over a buffer: `stream.value(&buf)`, or
with `computed` `stream.value_computed(&buf)`. -/
def Place.holding (p : Place) (computed : Bool) (b : St) : Prog :=
  let part := regroup (replay b.parts).toks
  prog (p.before.map .tok ++ [if computed then .comp part else .val part] ++ p.after.map .tok)

/-- What streaming such code shows in place of the part `u`: what the buffer replays, with the fragments of text and bytes
computed after `value_computed`. -/
def Shown (owned computed : Bool) (u w : V) : Prop :=
  ∃ b r, collect true owned (valueOf u) = .ok b ∧ replay b.parts = ⟨toks r, false⟩ ∧ w = if computed then comp r else r

/-- `w` is `v` with any number of parts, also parts of parts, replaced by buffers of them. With `own` as false, by buffers
that `ValueBuf::collect` made, and that are not handed over by `value_computed`. -/
inductive Replaced (own : Bool) (v : V) : V → Prop where
  | none : Replaced own v v
  | part (p : Place) (u w : V) (owned computed : Bool) (h : Replaced own v (p.fill u)) (hw : Shown owned computed u w)
    (ho : own = false → owned = false ∧ computed = false) : Replaced own v (p.fill w)

theorem flat_append (q r : List Item) (c : Bool) : flat (q ++ r) c = flat q c ++ flat r c := by
  induction q with
  | nil => rfl
  | cons i q ih => simp only [List.cons_append, flat, ih, List.append_assoc]

theorem flat_toks (ts : List Token) (c : Bool) : flat (ts.map .tok) c = ts.map fun t => if c then computedTok t else t := by
  induction ts with
  | nil => rfl
  | cons t ts ih => simp only [List.map_cons, flat, Item.flat, ih, List.cons_append, List.nil_append]

theorem shown_of_collect {owned : Bool} {u : V} {b : St} (h : collect true owned (valueOf u) = .ok b) :
    replay b.parts = ⟨toks (norm (if owned then comp u else u)), false⟩ := by
  obtain ⟨⟨s, h1, h2⟩, ⟨s', h1', h2'⟩⟩ := C15_collect u
  cases owned
  · rw [h1] at h; cases h; exact h2
  · rw [h1'] at h; cases h; exact h2'

/-- C97. Code that hands over a buffer for a part does to any stream what a value does, one in which some part is replaced by
a buffer. -/
theorem C97_streams (p : Place) (u : V) (owned computed : Bool) :
    ∃ b w, collect true owned (valueOf u) = .ok b ∧ Shown owned computed u w ∧ StreamsAs (p.holding computed b) (p.fill w) := by
  obtain ⟨b, r, h1, h2⟩ : ∃ b r, collect true owned (valueOf u) = .ok b ∧ replay b.parts = ⟨toks r, false⟩ := by
    obtain ⟨⟨s, h1, h2⟩, ⟨s', h1', h2'⟩⟩ := C15_collect u
    cases owned
    · exact ⟨s, _, h1, h2⟩
    · exact ⟨s', _, h1', h2'⟩
  refine ⟨b, _, h1, ⟨b, r, h1, h2, rfl⟩, streamsAs_of_flat fun c => ?_⟩
  rw [h2, flat_toks, Place.toks_fill]
  simp only [flat_append, flat_toks, List.map_append]
  congr 2
  cases computed
  · simp only [Bool.false_eq_true, if_false, flat, Item.flat, List.append_nil, flat_regroup, flat_toks]
  · simp only [if_true, flat, Item.flat, List.append_nil, flat_regroup, flat_toks, toks_comp, List.map_map]
    refine List.map_congr_left fun t _ => ?_
    cases c
    · rfl
    · cases t <;> rfl

theorem Shown.eq {owned computed : Bool} {u w : V} (h : Shown owned computed u w) :
    w = if computed then comp (norm (if owned then comp u else u)) else norm (if owned then comp u else u) := by
  obtain ⟨b, r, h1, h2, h3⟩ := h
  rw [shown_of_collect h1] at h2
  have : toks (norm (if owned then comp u else u)) = toks r := by injection h2
  rw [toks_inj this]
  exact h3

theorem comp_idem (v : V) : comp (comp v) = comp v := by
  refine toks_inj ?_
  rw [toks_comp, toks_comp, List.map_map]
  exact List.map_congr_left fun t _ => by cases t <;> rfl

/-- A replaced part looks the same but for what is borrowed. -/
theorem Shown.key {owned computed : Bool} {u w : V} (h : Shown owned computed u w) : comp (norm w) = comp (norm u) := by
  rw [h.eq]
  cases owned <;> cases computed
  · simp [norm_idem]
  · simp [key_comp, norm_idem]
  · simp [norm_idem, key_comp]
  · simp [key_comp, norm_idem]

theorem Replaced.key {own : Bool} {v w : V} (h : Replaced own v w) : comp (norm w) = comp (norm v) := by
  induction h with
  | none => rfl
  | part p u w owned computed _ hw _ ih => rw [p.key_fill w u hw.key, ih]

theorem Replaced.norm {v w : V} (h : Replaced false v w) : norm w = norm v := by
  induction h with
  | none => rfl
  | part p u w owned computed _ hw ho ih =>
    obtain ⟨rfl, rfl⟩ := ho rfl
    have := hw.eq
    simp only [Bool.false_eq_true, if_false] at this
    subst this
    rw [p.norm_fill _ u (norm_idem u), ih]

theorem Shown.steadier {owned computed : Bool} {u w : V} (h : Shown owned computed u w) : Place.Steadier u w := by
  rw [h.eq]
  have hc := Place.steady_comp u
  cases owned <;> cases computed
  · exact Place.steady_norm u
  · exact (Place.steady_norm u).trans (Place.steady_comp _)
  · exact hc.trans (Place.steady_norm _)
  · exact (hc.trans (Place.steady_norm _)).trans (Place.steady_comp _)

theorem Replaced.steady {own : Bool} {v w : V} (h : Replaced own v w) (hv : Json.steady false v = true) :
    Json.steady false w = true := by
  induction h with
  | none => exact hv
  | part p u w owned computed _ hw _ ih => exact (p.steady_fill hw.steadier).steady _ ih

/-- C97. Replace any parts of a value by buffers of them, and parts of those, and so on. Then `sval_fmt` gives the same text,
whatever code streams the result. -/
theorem C97_fmt (env : Fmt.Env) (own : Bool) (v w : V) (h : Replaced own v w) (p : Prog) (hp : StreamsAs p w) :
    Fmt.toString env p = Fmt.toString env (valueOf v) := by
  have hl : ∀ x, Fmt.layout env Fmt.twice false (comp (norm x)) = Fmt.layout env Fmt.twice false x := fun x => by
    rw [Through.layout_comp, Through.layout_norm]
  rw [hp.fmt, C26_exact, C26_exact, ← hl w, h.key, hl]

theorem Replaced.seen {own : Bool} {v w : V} (h : Replaced own v w) : Nested.seen w = Nested.seen v := by
  have hl : ∀ x, Nested.seen (comp (Buf.norm x)) = Nested.seen x := fun x => by rw [Through.seen_comp, Through.seen_norm]
  rw [← hl w, h.key, hl]

theorem collect_enc (owned : Bool) (v : V) :
    collect true owned (valueOf v) = .ok { parts := enc (if owned then comp v else v) } := by
  have h := (exec_stepB true (if owned then .computed .base else .base) (toks v) {}).1
    { parts := [] ++ enc (if owned then comp v else v) } (by
    have := appends_enc (if owned then comp v else v) {} rfl
    cases owned
    · simpa [Wrapper.tok] using this
    · simp only [if_true, toks_comp] at this
      exact this)
  simp [collect, valueOf, h]

/-! ### Code that hands over a buffer, for recursive streams -/

theorem seenSeq_append (a b : List V) : seenSeq (a ++ b) = seenSeq a ++ seenSeq b := by
  induction a with
  | nil => rfl
  | cons x a ih => simp [seenSeq, ih]
theorem seenMap_append (a b : List (V × V)) : seenMap (a ++ b) = seenMap a ++ seenMap b := by
  induction a with
  | nil => rfl
  | cons x a ih => obtain ⟨k, v⟩ := x; simp [seenMap, ih]
theorem seenRec_append (a b : List (Option Tag × Label × V)) : seenRec (a ++ b) = seenRec a ++ seenRec b := by
  induction a with
  | nil => rfl
  | cons x a ih => obtain ⟨t, l, v⟩ := x; simp [seenRec, ih]
theorem seenTup_append (a b : List (Option Tag × Index × V)) : seenTup (a ++ b) = seenTup a ++ seenTup b := by
  induction a with
  | nil => rfl
  | cons x a ih => obtain ⟨t, l, v⟩ := x; simp [seenTup, ih]
theorem seenRT_append (a b : List (Option Tag × Label × Index × V)) : seenRT (a ++ b) = seenRT a ++ seenRT b := by
  induction a with
  | nil => rfl
  | cons x a ih => obtain ⟨t, l, i, v⟩ := x; simp [seenRT, ih]

theorem elems_toks (xs : List V) : ((xs.map fun x => (itoks x, seen x)).flatMap fun x =>
      Item.tok .seqValueBegin :: (x.1 ++ [.tok .seqValueEnd])) = (toksSeq xs).map Item.tok ∧
    (xs.map fun x => (itoks x, seen x)).map (·.2) = seenSeq xs := by
  induction xs with
  | nil => exact ⟨rfl, rfl⟩
  | cons x xs ih => exact ⟨by simpa [toksSeq, itoks] using ih.1, by simpa [seenSeq] using ih.2⟩
theorem entries_toks (xs : List (V × V)) : ((xs.map fun x => ((itoks x.1, seen x.1), (itoks x.2, seen x.2))).flatMap fun x =>
      Item.tok .mapKeyBegin :: (x.1.1 ++ [.tok .mapKeyEnd]) ++ .tok .mapValueBegin :: (x.2.1 ++ [.tok .mapValueEnd])) =
      (toksMap xs).map Item.tok ∧
    (xs.map fun x => ((itoks x.1, seen x.1), (itoks x.2, seen x.2))).map (fun x => (x.1.2, x.2.2)) = seenMap xs := by
  induction xs with
  | nil => exact ⟨rfl, rfl⟩
  | cons x xs ih =>
    obtain ⟨k, v⟩ := x
    exact ⟨by simpa [toksMap, itoks] using ih.1, by simpa [seenMap] using ih.2⟩
theorem fields_toks (xs : List (Option Tag × Label × V)) : ((xs.map fun x => (x.1, x.2.1, itoks x.2.2, seen x.2.2)).flatMap fun x =>
      Item.tok (.recordValueBegin x.1 x.2.1) :: (x.2.2.1 ++ [.tok (.recordValueEnd x.1 x.2.1)])) = (toksRec xs).map Item.tok ∧
    (xs.map fun x => (x.1, x.2.1, itoks x.2.2, seen x.2.2)).map (fun x => (x.1, x.2.1.toOwned, x.2.2.2)) = seenRec xs := by
  induction xs with
  | nil => exact ⟨rfl, rfl⟩
  | cons x xs ih =>
    obtain ⟨t, l, v⟩ := x
    exact ⟨by simpa [toksRec, itoks] using ih.1, by simpa [seenRec] using ih.2⟩
theorem places_toks (xs : List (Option Tag × Index × V)) : ((xs.map fun x => (x.1, x.2.1, itoks x.2.2, seen x.2.2)).flatMap fun x =>
      Item.tok (.tupleValueBegin x.1 x.2.1) :: (x.2.2.1 ++ [.tok (.tupleValueEnd x.1 x.2.1)])) = (toksTup xs).map Item.tok ∧
    (xs.map fun x => (x.1, x.2.1, itoks x.2.2, seen x.2.2)).map (fun x => (x.1, x.2.1, x.2.2.2)) = seenTup xs := by
  induction xs with
  | nil => exact ⟨rfl, rfl⟩
  | cons x xs ih =>
    obtain ⟨t, l, v⟩ := x
    exact ⟨by simpa [toksTup, itoks] using ih.1, by simpa [seenTup] using ih.2⟩
theorem boths_toks (xs : List (Option Tag × Label × Index × V)) :
    ((xs.map fun x => (x.1, x.2.1, x.2.2.1, itoks x.2.2.2, seen x.2.2.2)).flatMap fun x =>
      Item.tok (.recordTupleValueBegin x.1 x.2.1 x.2.2.1) ::
        (x.2.2.2.1 ++ [.tok (.recordTupleValueEnd x.1 x.2.1 x.2.2.1)])) = (toksRT xs).map Item.tok ∧
    (xs.map fun x => (x.1, x.2.1, x.2.2.1, itoks x.2.2.2, seen x.2.2.2)).map (fun x => (x.1, x.2.1.toOwned, x.2.2.2.2)) =
      seenRT xs := by
  induction xs with
  | nil => exact ⟨rfl, rfl⟩
  | cons x xs ih =>
    obtain ⟨t, l, i, v⟩ := x
    exact ⟨by simpa [toksRT, itoks] using ih.1, by simpa [seenRT] using ih.2⟩

theorem mem_mid {α : Type} {P : α → Prop} {a b : List α} {x : α} (ha : ∀ y ∈ a, P y) (hx : P x) (hb : ∀ y ∈ b, P y) :
    ∀ y ∈ a ++ x :: b, P y := by
  intro y hy
  rcases List.mem_append.1 hy with h | h
  · exact ha y h
  · rcases List.mem_cons.1 h with h | h
    · exact h ▸ hx
    · exact hb y h

/-- A part can be shown by any code that shows it. -/
theorem Place.shows (p : Place) (q : List Item) (u : V) (h : Shows q (seen u)) :
    Shows (p.before.map .tok ++ q ++ p.after.map .tok) (seen (p.fill u)) := by
  induction p with
  | here => simpa [before, after, fill] using h
  | tagged m p ih => simpa [before, after, fill, seen] using Shows.tagged m _ _ ih
  | enum m p ih => simpa [before, after, fill, seen] using Shows.enum m _ _ ih
  | hint t p ih => simpa [before, after, fill, seen] using Shows.hint t _ _ ih
  | element n pre p post ih =>
    have all : ∀ xs : List V, ∀ y ∈ xs.map (fun x => (itoks x, seen x)), Shows y.1 y.2 := fun xs y hy => by
      obtain ⟨x, _, rfl⟩ := List.mem_map.1 hy; exact shows_toks x
    have := Shows.seq n (pre.map (fun x => (itoks x, seen x)) ++ (_, _) :: post.map fun x => (itoks x, seen x))
      (mem_mid (all pre) ih (all post))
    rw [List.flatMap_append, List.map_append, List.flatMap_cons, List.map_cons, (elems_toks pre).1, (elems_toks pre).2,
      (elems_toks post).1, (elems_toks post).2] at this
    simpa [before, after, fill, seen, seenSeq_append, seenSeq] using this
  | key n pre p v post ih =>
    have all : ∀ xs : List (V × V), (∀ y ∈ xs.map (fun x => ((itoks x.1, seen x.1), (itoks x.2, seen x.2))), Shows y.1.1 y.1.2) ∧
        ∀ y ∈ xs.map (fun x => ((itoks x.1, seen x.1), (itoks x.2, seen x.2))), Shows y.2.1 y.2.2 := fun xs =>
      ⟨fun y hy => by obtain ⟨x, _, rfl⟩ := List.mem_map.1 hy; exact shows_toks x.1,
        fun y hy => by obtain ⟨x, _, rfl⟩ := List.mem_map.1 hy; exact shows_toks x.2⟩
    have := Shows.map n (pre.map (fun x => ((itoks x.1, seen x.1), (itoks x.2, seen x.2))) ++ ((_, _), (itoks v, seen v)) ::
      post.map fun x => ((itoks x.1, seen x.1), (itoks x.2, seen x.2)))
      (mem_mid (all pre).1 ih (all post).1) (mem_mid (all pre).2 (shows_toks v) (all post).2)
    rw [List.flatMap_append, List.map_append, List.flatMap_cons, List.map_cons, (entries_toks pre).1, (entries_toks pre).2,
      (entries_toks post).1, (entries_toks post).2] at this
    simpa [before, after, fill, seen, seenMap_append, seenMap, itoks] using this
  | value n pre k p post ih =>
    have all : ∀ xs : List (V × V), (∀ y ∈ xs.map (fun x => ((itoks x.1, seen x.1), (itoks x.2, seen x.2))), Shows y.1.1 y.1.2) ∧
        ∀ y ∈ xs.map (fun x => ((itoks x.1, seen x.1), (itoks x.2, seen x.2))), Shows y.2.1 y.2.2 := fun xs =>
      ⟨fun y hy => by obtain ⟨x, _, rfl⟩ := List.mem_map.1 hy; exact shows_toks x.1,
        fun y hy => by obtain ⟨x, _, rfl⟩ := List.mem_map.1 hy; exact shows_toks x.2⟩
    have := Shows.map n (pre.map (fun x => ((itoks x.1, seen x.1), (itoks x.2, seen x.2))) ++ ((itoks k, seen k), (_, _)) ::
      post.map fun x => ((itoks x.1, seen x.1), (itoks x.2, seen x.2)))
      (mem_mid (all pre).1 (shows_toks k) (all post).1) (mem_mid (all pre).2 ih (all post).2)
    rw [List.flatMap_append, List.map_append, List.flatMap_cons, List.map_cons, (entries_toks pre).1, (entries_toks pre).2,
      (entries_toks post).1, (entries_toks post).2] at this
    simpa [before, after, fill, seen, seenMap_append, seenMap, itoks] using this
  | record m n pre t l p post ih =>
    have all : ∀ xs : List (Option Tag × Label × V), ∀ y ∈ xs.map (fun x => (x.1, x.2.1, itoks x.2.2, seen x.2.2)),
        Shows y.2.2.1 y.2.2.2 := fun xs y hy => by obtain ⟨x, _, rfl⟩ := List.mem_map.1 hy; exact shows_toks x.2.2
    have := Shows.record m n (pre.map (fun x => (x.1, x.2.1, itoks x.2.2, seen x.2.2)) ++ (t, l, _, _) ::
      post.map fun x => (x.1, x.2.1, itoks x.2.2, seen x.2.2)) (mem_mid (all pre) ih (all post))
    rw [List.flatMap_append, List.map_append, List.flatMap_cons, List.map_cons, (fields_toks pre).1, (fields_toks pre).2,
      (fields_toks post).1, (fields_toks post).2] at this
    simpa [before, after, fill, seen, seenRec_append, seenRec] using this
  | tuple m n pre t i p post ih =>
    have all : ∀ xs : List (Option Tag × Index × V), ∀ y ∈ xs.map (fun x => (x.1, x.2.1, itoks x.2.2, seen x.2.2)),
        Shows y.2.2.1 y.2.2.2 := fun xs y hy => by obtain ⟨x, _, rfl⟩ := List.mem_map.1 hy; exact shows_toks x.2.2
    have := Shows.tuple m n (pre.map (fun x => (x.1, x.2.1, itoks x.2.2, seen x.2.2)) ++ (t, i, _, _) ::
      post.map fun x => (x.1, x.2.1, itoks x.2.2, seen x.2.2)) (mem_mid (all pre) ih (all post))
    rw [List.flatMap_append, List.map_append, List.flatMap_cons, List.map_cons, (places_toks pre).1, (places_toks pre).2,
      (places_toks post).1, (places_toks post).2] at this
    simpa [before, after, fill, seen, seenTup_append, seenTup] using this
  | recordTuple m n pre t l i p post ih =>
    have all : ∀ xs : List (Option Tag × Label × Index × V),
        ∀ y ∈ xs.map (fun x => (x.1, x.2.1, x.2.2.1, itoks x.2.2.2, seen x.2.2.2)),
        Shows y.2.2.2.1 y.2.2.2.2 := fun xs y hy => by obtain ⟨x, _, rfl⟩ := List.mem_map.1 hy; exact shows_toks x.2.2.2
    have := Shows.recordTuple m n (pre.map (fun x => (x.1, x.2.1, x.2.2.1, itoks x.2.2.2, seen x.2.2.2)) ++ (t, l, i, _, _) ::
      post.map fun x => (x.1, x.2.1, x.2.2.1, itoks x.2.2.2, seen x.2.2.2)) (mem_mid (all pre) ih (all post))
    rw [List.flatMap_append, List.map_append, List.flatMap_cons, List.map_cons, (boths_toks pre).1, (boths_toks pre).2,
      (boths_toks post).1, (boths_toks post).2] at this
    simpa [before, after, fill, seen, seenRT_append, seenRT] using this

/-- A buffer shows what it was collected from. -/
theorem shows_buffer {owned : Bool} {u : V} {b : St} (h : collect true owned (valueOf u) = .ok b) :
    Shows (regroup (replay b.parts).toks) (seen u) := by
  obtain ⟨B, T, I, h1, h2, h3, h4⟩ := keeps_direct (shows_toks u) owned
  rw [collect_enc] at h
  cases h
  have hf : flat ((toks u).map .tok) owned = toks (if owned then comp u else u) := by
    rw [flat_toks]
    cases owned
    · simp
    · simp only [if_true, toks_comp]
  have hB : B = enc (if owned then comp u else u) := by
    have e1 := h1 {} rfl
    rw [hf, appends_enc _ {} rfl] at e1
    simpa using e1.symm
  subst hB
  have hr : replay (enc (if owned then comp u else u)) = ⟨T, false⟩ := by
    unfold replay
    rw [if_neg (by simpa using enc_ne_nil _)]
    exact h2.out
  have := h3 []
  simp only [List.append_nil] at this
  rw [hr, this]
  simpa [regroup] using h4

theorem Place.shows_holding (p : Place) {owned : Bool} {u : V} {b : St} (h : collect true owned (valueOf u) = .ok b)
    (computed : Bool) : Shows (p.before.map .tok ++ [if computed then .comp (regroup (replay b.parts).toks)
      else .val (regroup (replay b.parts).toks)] ++ p.after.map .tok) (seen (p.fill u)) := by
  refine p.shows _ u ?_
  cases computed
  · exact .val _ _ (shows_buffer h)
  · exact .comp _ _ (shows_buffer h)

/-- C97. A recursive stream sees the same tree. -/
theorem C97_nested (I : Nested.Impl) (own : Bool) (v w : V) (h : Replaced own v w) (hv : Nested.supported v = true)
    (b b' : Bool) :
    ∃ r, Nested.Gets I ⟨b, valueOf v⟩ r ∧ Nested.Gets I ⟨b', valueOf w⟩ r := by
  refine ⟨_, C61 I v hv b, ?_⟩
  rw [← h.seen]
  exact C61 I w (by rw [← Nested.supported_seen, h.seen, Nested.supported_seen]; exact hv) b'

/-- C97. The same for the code that hands over the buffer. -/
theorem C97_nested_code (I : Nested.Impl) (p : Place) (u : V) (hv : Nested.supported (p.fill u) = true)
    (owned computed borrowed : Bool) :
    ∃ b, collect true owned (valueOf u) = .ok b ∧
      Nested.Gets I ⟨borrowed, p.holding computed b⟩ (Nested.lower I (Nested.seen (p.fill u))) := by
  obtain ⟨b, _, h, _⟩ := C97_streams p u owned computed
  exact ⟨b, h, C61_parts I _ _ (p.shows_holding h computed) (by rw [Nested.supported_seen]; exact hv) borrowed⟩

/-- C97. A serializer does the same, whether or not it fails. -/
theorem C97_serde {ε τ : Type} (custom : ε) (S : Serde.SCall ε τ → τ → Res ε τ) (own : Bool) (v w : V)
    (h : Replaced own v w) (hv : Nested.supported v = true) :
    ∃ N, ∀ d ≥ N, ∀ t, Serde.serialize custom S d (valueOf w) t = Serde.serialize custom S d (valueOf v) t := by
  obtain ⟨N, h1⟩ := C37_calls custom S v hv
  obtain ⟨M, h2⟩ := C37_calls custom S w (by rw [← Nested.supported_seen, h.seen, Nested.supported_seen]; exact hv)
  refine ⟨max N M, fun d hd t => ?_⟩
  rw [h1 d (by omega) t, h2 d (by omega) t, ← (Serde.serV_seen custom S v).1, ← (Serde.serV_seen custom S w).1, h.seen]

/-- C97. The same for the code that hands over the buffer. -/
theorem C97_serde_code {ε τ : Type} (custom : ε) (S : Serde.SCall ε τ → τ → Res ε τ) (p : Place) (u : V)
    (hv : Nested.supported (p.fill u) = true) (owned computed : Bool) :
    ∃ b, collect true owned (valueOf u) = .ok b ∧ ∃ N, ∀ d ≥ N, ∀ t,
      Serde.serialize custom S d (p.holding computed b) t = Serde.serialize custom S d (valueOf (p.fill u)) t := by
  obtain ⟨b, _, h, _⟩ := C97_streams p u owned computed
  refine ⟨b, h, ?_⟩
  obtain ⟨N, h1⟩ := C37_calls custom S (p.fill u) hv
  obtain ⟨M, h2⟩ := Serde.serialize_shows custom S (p.shows_holding h computed) (by rw [Nested.supported_seen]; exact hv)
  refine ⟨max N M, fun d hd t => ?_⟩
  rw [h1 d (by omega) t, ← (Serde.serV_seen custom S _).1]
  exact h2 d (by omega) t

/-- C97. The JSON is the same, under the conditions under which a buffer of the whole has the same (C43). -/
theorem C97_json (env : Json.Env) (own : Bool) (v w : V) (h : Replaced own v w) (hv : Json.steady false v = true)
    (p : Prog) (hp : StreamsAs p w) :
    Json.toString env p = Json.toString env (valueOf v) := by
  have hn : Json.notNum ({ out := [] } : Json.St Text) := fun n h => by cases h
  have key : ∀ x, Json.steady false x = true →
      Json.toString env (valueOf (comp (norm x))) = Json.toString env (valueOf x) := by
    intro x hx
    refine (Json.toFmt_congr _ _ ?_ : Json.toString env (valueOf (comp (norm x))) = Json.toString env (valueOf x) ∧ _).1
    rw [toks_comp]
    exact (Json.run_computed _ _).trans (Json.same_norm x hx _ hn).1
  rw [hp.json, ← key w (h.steady hv), h.key, key v hv]

/-- C97. Collecting the value with replaced parts gives the same buffer: nothing tells the parts that were buffers from the
others. -/
theorem C97_collect (v w : V) (h : Replaced false v w) (p : Prog) (hp : StreamsAs p w) :
    ∃ b, collect true false p = .ok b ∧ collect true false (valueOf v) = .ok b := by
  refine ⟨_, ?_, collect_enc false v⟩
  have : collect true false p = collect true false (valueOf w) := by
    simp only [collect, Bool.false_eq_true, if_false, hp.base]
  rw [this, collect_enc]
  simp only [Bool.false_eq_true, if_false]
  rw [enc_of_norm h.norm]

/-! ### A case -/

/-- A record with a text in two pieces and a list. -/
def holderOf (a b : V) : V := .record {} (some 2)
  [(none, Label.new (t! "a"), a), (none, Label.new (t! "b"), .seq none [.bool true, b])]
def inTwo : V := .text none [.borrowed (t! "x"), .computed (t! "y")]

/-- Both texts replaced, one of them through `value_computed`. -/
theorem holder_replaced : Replaced true (holderOf inTwo (.text none [.borrowed (t! "z")]))
    (holderOf (.text (some 2) [.computed (t! "xy")]) (.text (some 1) [.computed (t! "z")])) := by
  refine .part (.record {} (some 2) [(none, Label.new (t! "a"), _)] none (Label.new (t! "b")) (.element none [.bool true] .here [])
    []) (.text none [.borrowed (t! "z")]) _ false true ?_ ⟨_, .text (some 1) [.borrowed (t! "z")], rfl, rfl, rfl⟩ nofun
  refine .part (.record {} (some 2) [] none (Label.new (t! "a")) .here [(none, Label.new (t! "b"), _)])
    inTwo _ true false .none ⟨_, .text (some 2) [.computed (t! "xy")], rfl, rfl, rfl⟩ nofun

example : Nested.supported (holderOf inTwo .null) = true ∧ Json.steady false (holderOf inTwo .null) = true ∧
    Json.toString anyEnv (valueOf (holderOf inTwo (.text none [.borrowed (t! "z")]))) =
      some (t! "{\"a\":\"xy\",\"b\":[true,\"z\"]}") := by decide +kernel

end Sval
