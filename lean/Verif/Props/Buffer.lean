import Verif.Buffer.More

set_option autoImplicit false

/-!
# Properties of `sval_buffer`: C14 to C18, C47
-/

namespace Sval
open Buf

/-! ## C14 -/

/-- `push_fragment` or `push_fragment_computed`. -/
def pushOne {α : Type} (alloc : Bool) (c : Cow α) : Frag (List α) → Except Err (Cow α)
  | .borrowed f => c.push alloc f
  | .computed f => c.pushComputed alloc f

/-- Specification: is the fragment borrowed? -/
def fragLent {α : Type} : Frag α → Bool
  | .borrowed _ => true
  | .computed _ => false

theorem pushOne_true {α : Type} (c : Cow α) (f : Frag (List α)) : pushOne true c f = .ok (pushFrag c f) := by
  cases f with
  | borrowed f => exact congrFun (push_true f) c
  | computed f => exact congrFun (pushComputed_true f) c

theorem pushes_true {α : Type} (c : Cow α) (fs : List (Frag (List α))) :
    fs.foldlM (pushOne true) c = .ok (fs.foldl pushFrag c) := by
  induction fs generalizing c with
  | nil => rfl
  | cons f fs ih => rw [List.foldlM_cons, pushOne_true]; exact ih _

theorem flatten_nil {α : Type} (fs : List (Frag (List α))) :
    (fs.map Frag.content).flatten.length = 0 ↔ ∀ g ∈ fs, g.content = [] := by
  rw [List.length_eq_zero_iff, List.flatten_eq_nil_iff]
  simp

/-- C14. After any pushes a text (characters) or binary (bytes) buffer holds the concatenation of what
was pushed. It hands out a borrowed slice exactly if nothing was pushed, or the last push was of that
borrowed slice and everything before it was empty. Making it owned keeps the content and leaves no
borrow. -/
theorem C14_buffer_concatenates {α : Type} (fs : List (Frag (List α))) :
    ∃ c : Cow α, fs.foldlM (pushOne true) Cow.new = .ok c ∧
      c.content = (fs.map Frag.content).flatten ∧
      (∀ s, c.asBorrowed = some s ↔
        (fs = [] ∧ s = []) ∨ ∃ pre, fs = pre ++ [.borrowed s] ∧ ∀ g ∈ pre, g.content = []) ∧
      c.intoOwned.content = c.content ∧ c.intoOwned.asBorrowed = none := by
  refine ⟨merged fs, ?_, merged_content fs, ?_, Cow.intoOwned_content _, ?_⟩
  · rw [pushes_true]
    exact congrArg _ (merged_foldl [] fs)
  · intro s
    rcases List.eq_nil_or_concat fs with rfl | ⟨P, f, rfl⟩
    · simp only [merged, List.getLast?_nil, Cow.asBorrowed, Option.some.injEq]
      constructor
      · rintro rfl; exact .inl ⟨trivial, rfl⟩
      · rintro (⟨_, h⟩ | ⟨pre, h, _⟩)
        · exact h.symm
        · simp at h
    · rw [List.concat_eq_append]
      cases f with
      | computed f => simp [merged, Cow.asBorrowed]
      | borrowed f =>
        simp only [merged, List.getLast?_concat, List.dropLast_concat]
        split
        · next h =>
          rw [flatten_nil] at h
          simp only [Cow.asBorrowed, Option.some.injEq]
          constructor
          · rintro rfl; exact .inr ⟨P, rfl, h⟩
          · rintro (⟨h, _⟩ | ⟨pre, h, _⟩)
            · simp at h
            · have := List.append_inj_right' h rfl
              simpa using this
        · next h =>
          rw [flatten_nil] at h
          simp only [Cow.asBorrowed, reduceCtorEq, false_iff, not_or]
          refine ⟨by simp, ?_⟩
          rintro ⟨pre, h1, h2⟩
          have := List.append_inj_left' h1 rfl
          subst this
          exact h h2
  · cases merged fs <;> rfl

/-- Without an allocator the same pushes give the same buffer or fail for lack of one, and those that
need to copy do fail. -/
theorem C14_buffer_without_alloc {α : Type} (fs : List (Frag (List α))) :
    (∀ c : Cow α, fs.foldlM (pushOne false) Cow.new = .ok c → fs.foldlM (pushOne true) Cow.new = .ok c ∧
      c.asBorrowed = some c.content) ∧
    (∀ e, fs.foldlM (pushOne false) (Cow.new : Cow α) = .error e → e = .noAlloc) ∧
    ((∃ e, fs.foldlM (pushOne false) (Cow.new : Cow α) = .error e) ↔
      ∃ pre f post, fs = pre ++ f :: post ∧ (fragLent f = false ∨ ∃ g ∈ pre, g.content ≠ [])) := by
  have main : ∀ (gs : List (Frag (List α))) (s : List α),
      ((∃ s', gs.foldlM (pushOne false) (Cow.borrowed s) = .ok (.borrowed s') ∧
          gs.foldlM (pushOne true) (Cow.borrowed s) = .ok (.borrowed s')) ∧
        ¬ ∃ pre f post, gs = pre ++ f :: post ∧ (fragLent f = false ∨ s ≠ [] ∨ ∃ g ∈ pre, g.content ≠ [])) ∨
      (gs.foldlM (pushOne false) (Cow.borrowed s) = .error .noAlloc ∧
        ∃ pre f post, gs = pre ++ f :: post ∧ (fragLent f = false ∨ s ≠ [] ∨ ∃ g ∈ pre, g.content ≠ [])) := by
    intro gs
    induction gs with
    | nil => intro s; exact .inl ⟨⟨s, rfl, rfl⟩, by rintro ⟨pre, f, post, h, _⟩; simp at h⟩
    | cons g gs ih =>
      intro s
      cases g with
      | computed f => exact .inr ⟨rfl, [], .computed f, gs, rfl, .inl rfl⟩
      | borrowed f =>
        by_cases hs : s = []
        · subst hs
          have e1 : ∀ a, (Frag.borrowed f :: gs).foldlM (pushOne a) (Cow.borrowed []) =
              gs.foldlM (pushOne a) (Cow.borrowed f) := fun a => rfl
          rw [e1, e1]
          rcases ih f with ⟨h1, h2⟩ | ⟨h1, pre, x, post, h2, h3⟩
          · refine .inl ⟨h1, ?_⟩
            rintro ⟨pre, x, post, h3, h4⟩
            cases pre with
            | nil =>
              simp only [List.nil_append, List.cons.injEq] at h3
              rcases h4 with h4 | h4 | ⟨y, h4, _⟩
              · rw [← h3.1] at h4; simp [fragLent] at h4
              · exact h4 rfl
              · simp at h4
            | cons p pre =>
              simp only [List.cons_append, List.cons.injEq] at h3
              refine h2 ⟨pre, x, post, h3.2, ?_⟩
              rcases h4 with h4 | h4 | ⟨y, h4, h5⟩
              · exact .inl h4
              · exact absurd rfl h4
              · rcases List.mem_cons.1 h4 with rfl | h4
                · rw [← h3.1] at h5; exact .inr (.inl h5)
                · exact .inr (.inr ⟨y, h4, h5⟩)
          · refine .inr ⟨h1, .borrowed f :: pre, x, post, by rw [h2]; rfl, ?_⟩
            rcases h3 with h3 | h3 | ⟨y, h3, h4⟩
            · exact .inl h3
            · exact .inr (.inr ⟨.borrowed f, by simp, h3⟩)
            · exact .inr (.inr ⟨y, by simp [h3], h4⟩)
        · refine .inr ⟨?_, [], .borrowed f, gs, rfl, .inr (.inl hs)⟩
          have : pushOne false (Cow.borrowed s) (.borrowed f) = .error .noAlloc := by
            simp [pushOne, Cow.push, Cow.pushComputed, Cow.content, hs]
          rw [List.foldlM_cons, this]; rfl
  rcases main fs [] with ⟨⟨s', h1, h2⟩, h3⟩ | ⟨h1, h2⟩
  · refine ⟨?_, ?_, ?_⟩
    · intro c hc
      have : Cow.borrowed s' = c := by
        have := h1.symm.trans hc
        simpa using this
      subst this
      exact ⟨h2, rfl⟩
    · intro e he
      have := h1.symm.trans he
      cases this
    · constructor
      · rintro ⟨e, he⟩
        have := h1.symm.trans he
        cases this
      · rintro ⟨pre, f, post, h4, h5⟩
        refine absurd ⟨pre, f, post, h4, ?_⟩ h3
        rcases h5 with h5 | h5
        · exact .inl h5
        · exact .inr (.inr h5)
  · refine ⟨?_, ?_, ?_⟩
    · intro c hc
      have := h1.symm.trans hc
      cases this
    · intro e he
      have := h1.symm.trans he
      simpa [eq_comm] using this
    · constructor
      · rintro _
        obtain ⟨pre, f, post, h4, h5⟩ := h2
        refine ⟨pre, f, post, h4, ?_⟩
        rcases h5 with h5 | h5 | h5
        · exact .inl h5
        · exact absurd rfl h5
        · exact .inr h5
      · intro _; exact ⟨_, h1⟩

example : [Frag.computed [], .borrowed (t! "ab")].foldlM (pushOne true) (Cow.new : Cow Char) = .ok (.borrowed (t! "ab"))
    ∧ [Frag.borrowed (t! "a"), .borrowed (t! "b")].foldlM (pushOne true) (Cow.new : Cow Char) = .ok (.owned (t! "ab"))
    ∧ [Frag.borrowed (t! "a"), .borrowed (t! "b")].foldlM (pushOne false) (Cow.new : Cow Char) = .error .noAlloc :=
  ⟨rfl, rfl, rfl⟩

/-! ## C15 -/

/-- C15. Streaming a value into an empty buffer succeeds, and the buffer replays the calls of that value
normalised: each text and binary as one fragment with an exact size hint, labels as owned labels. -/
theorem C15_round_trip (v : V) :
    ∃ s, run (Buf.step true) (toks v) {} = .ok s ∧ replay s.parts = ⟨toks (norm v), false⟩ ∧
      isComplete s = true := by
  refine ⟨_, appends_enc v {} rfl, ?_, ?_⟩
  · exact replay_enc v
  · have := List.length_pos_iff.2 (enc_ne_nil v)
    simpa [isComplete] using this

/-- C15. The same through `ValueBuf::collect` and `ValueBuf::collect_owned`. The latter keeps nothing
borrowed: a borrowed fragment it replays is empty. -/
theorem C15_collect (v : V) :
    (∃ s, collect true false (valueOf v) = .ok s ∧ replay s.parts = ⟨toks (norm v), false⟩) ∧
    (∃ s, collect true true (valueOf v) = .ok s ∧ replay s.parts = ⟨toks (norm (comp v)), false⟩) := by
  constructor
  · have h := (exec_stepB true .base (toks v) {}).1 { parts := [] ++ enc v } (by
      have := appends_enc v {} rfl
      simpa [Wrapper.tok] using this)
    exact ⟨_, by simp [collect, valueOf, h]; rfl, replay_enc v⟩
  · have h := (exec_stepB true (.computed .base) (toks v) {}).1 { parts := [] ++ enc (comp v) } (by
      have e : (toks v).map (Wrapper.computed .base).tok = toks (comp v) := by
        rw [toks_comp]; rfl
      rw [e]
      exact appends_enc (comp v) {} rfl)
    exact ⟨_, by simp [collect, valueOf, h]; rfl, replay_enc (comp v)⟩

/-- Specification: a call that does not lend anything. -/
def lendsNothing : Token → Prop
  | .textFragment s => s = []
  | .binaryFragment s => s = []
  | _ => True

theorem lends_text (fs : List (Frag Text)) : lendsNothing (textFragTok (mergedFrag (fs.map fragComp))) := by
  unfold mergedFrag
  cases h : merged (fs.map fragComp) with
  | borrowed s => exact merged_comp fs s h
  | owned s => trivial

theorem lends_binary (fs : List (Frag Bytes)) : lendsNothing (binFragTok (mergedFrag (fs.map fragComp))) := by
  unfold mergedFrag
  cases h : merged (fs.map fragComp) with
  | borrowed s => exact merged_comp fs s h
  | owned s => trivial

theorem lends (v : V) : ∀ t ∈ toks (norm (comp v)), lendsNothing t := by
  induction v using V.ind with
  | text n fs =>
    simp only [comp, norm, toks, List.forall_mem_cons, List.map_cons, List.map_nil, List.cons_append, List.nil_append]
    exact ⟨trivial, lends_text fs, trivial, by simp⟩
  | binary n fs =>
    simp only [comp, norm, toks, List.forall_mem_cons, List.map_cons, List.map_nil, List.cons_append, List.nil_append]
    exact ⟨trivial, lends_binary fs, trivial, by simp⟩
  | seq n xs ih =>
    have : ∀ t ∈ toksSeq (normSeq (compSeq xs)), lendsNothing t := by
      induction xs with
      | nil => simp [compSeq, normSeq, toksSeq]
      | cons x xs ihx =>
        simp only [compSeq, normSeq, toksSeq, List.forall_mem_cons, List.forall_mem_append]
        exact ⟨trivial, ih x (by simp), trivial, ihx fun y hy => ih y (by simp [hy])⟩
    simp only [comp, norm, toks, List.forall_mem_cons, List.forall_mem_append]
    exact ⟨trivial, this, trivial, by simp⟩
  | map n kvs ih =>
    have : ∀ t ∈ toksMap (normMap (compMap kvs)), lendsNothing t := by
      induction kvs with
      | nil => simp [compMap, normMap, toksMap]
      | cons x xs ihx =>
        obtain ⟨k, v⟩ := x
        have h := ih (k, v) (by simp)
        simp only [compMap, normMap, toksMap, List.forall_mem_cons, List.forall_mem_append]
        exact ⟨trivial, h.1, trivial, trivial, h.2, trivial, ihx fun y hy => ih y (by simp [hy])⟩
    simp only [comp, norm, toks, List.forall_mem_cons, List.forall_mem_append]
    exact ⟨trivial, this, trivial, by simp⟩
  | record m n fs ih =>
    have : ∀ t ∈ toksRec (normRec (compRec fs)), lendsNothing t := by
      induction fs with
      | nil => simp [compRec, normRec, toksRec]
      | cons x xs ihx =>
        obtain ⟨t, l, v⟩ := x
        simp only [compRec, normRec, toksRec, List.forall_mem_cons, List.forall_mem_append]
        exact ⟨trivial, ih (t, l, v) (by simp), trivial, ihx fun y hy => ih y (by simp [hy])⟩
    simp only [comp, norm, toks, List.forall_mem_cons, List.forall_mem_append]
    exact ⟨trivial, this, trivial, by simp⟩
  | tuple m n fs ih =>
    have : ∀ t ∈ toksTup (normTup (compTup fs)), lendsNothing t := by
      induction fs with
      | nil => simp [compTup, normTup, toksTup]
      | cons x xs ihx =>
        obtain ⟨t, l, v⟩ := x
        simp only [compTup, normTup, toksTup, List.forall_mem_cons, List.forall_mem_append]
        exact ⟨trivial, ih (t, l, v) (by simp), trivial, ihx fun y hy => ih y (by simp [hy])⟩
    simp only [comp, norm, toks, List.forall_mem_cons, List.forall_mem_append]
    exact ⟨trivial, this, trivial, by simp⟩
  | recordTuple m n fs ih =>
    have : ∀ t ∈ toksRT (normRT (compRT fs)), lendsNothing t := by
      induction fs with
      | nil => simp [compRT, normRT, toksRT]
      | cons x xs ihx =>
        obtain ⟨t, l, i, v⟩ := x
        simp only [compRT, normRT, toksRT, List.forall_mem_cons, List.forall_mem_append]
        exact ⟨trivial, ih (t, l, i, v) (by simp), trivial, ihx fun y hy => ih y (by simp [hy])⟩
    simp only [comp, norm, toks, List.forall_mem_cons, List.forall_mem_append]
    exact ⟨trivial, this, trivial, by simp⟩
  | tagged m v ih =>
    simp only [comp, norm, toks, List.forall_mem_cons, List.forall_mem_append]
    exact ⟨trivial, ih, trivial, by simp⟩
  | enum m v ih =>
    simp only [comp, norm, toks, List.forall_mem_cons, List.forall_mem_append]
    exact ⟨trivial, ih, trivial, by simp⟩
  | hint t v ih =>
    simp only [comp, norm, toks, List.forall_mem_cons]
    exact ⟨trivial, ih⟩
  | _ => simp [comp, norm, toks, lendsNothing]

/-- C15. An owned buffer lends nothing: a fragment it replays as borrowed is empty. -/
theorem C15_owned_lends_nothing (v : V) :
    ∃ s, collect true true (valueOf v) = .ok s ∧ ∀ t ∈ (replay s.parts).toks, lendsNothing t := by
  obtain ⟨s, h1, h2⟩ := (C15_collect v).2
  exact ⟨s, h1, by rw [h2]; exact lends v⟩

/-- C15. The normalisation is one: buffering what a buffer replays changes nothing more, and the data
a value carries survives. -/
theorem C15_normalisation (v : V) : norm (norm v) = norm v ∧ den (norm v) = den v :=
  ⟨norm_idem v, den_norm v⟩

/-- C15. Without an allocator, collecting a value gives the buffer it would give with one, or fails
for lack of one. -/
theorem C15_without_alloc (v : V) :
    (∃ s, collect false false (valueOf v) = .ok s ∧ replay s.parts = ⟨toks (norm v), false⟩) ∨
      collect false false (valueOf v) = .err .noAlloc := by
  have ht : (toks v).map Wrapper.base.tok = toks v := by simp [Wrapper.tok]
  rcases run_noalloc (toks v) {} _ (appends_enc v {} rfl) with h | ⟨s1, h⟩
  · refine .inl ⟨{ parts := enc v }, ?_, replay_enc v⟩
    have := (exec_stepB false .base (toks v) {}).1 _ (ht.symm ▸ h)
    simp [collect, valueOf, this]
  · have := (exec_stepB false .base (toks v) {}).2.1 _ _ (ht.symm ▸ h)
    refine .inr ?_
    have he : s1.err = some .noAlloc := run_err_recorded false (toks v) {} s1 .noAlloc h
    simp [collect, valueOf, this, he]

/-- A record with text in two fragments, a nested sequence, and a tuple in a tagged value. -/
def sampleV : V :=
  .record { label := some (Label.new (t! "R")) } (some 2)
    [(none, Label.new (t! "a"), .seq (some 2) [.text none [.borrowed (t! "x"), .computed (t! "y")], .null]),
     (none, Label.newComputed (t! "b"),
      .tagged { tag := some tags.RUST_OPTION_SOME } (.tuple {} (some 1) [(none, ⟨0, none⟩, .int .u8 1)]))]

example : (collect true false (valueOf sampleV)) =
    .ok { parts :=
      [.opened (.record { label := some (Label.new (t! "R")) } (some 2)) 11,
       .opened (.recordValue none (Label.new (t! "a"))) 5, .opened (.seq (some 2)) 4,
       .opened .seqValue 1, .text (.owned (t! "xy")), .opened .seqValue 1, .null,
       .opened (.recordValue none (Label.newOwned (t! "b"))) 4,
       .opened (.tagged { tag := some tags.RUST_OPTION_SOME }) 3, .opened (.tuple {} (some 1)) 2,
       .opened (.tupleValue none ⟨0, none⟩) 1, .int .u8 1] } := by
  decide +kernel
example : collect false false (valueOf (.seq none [])) = .ok { parts := [.opened (.seq none) 0] } ∧
    collect false false (valueOf (.seq none [.null])) = .err .noAlloc := by
  decide +kernel

/-! ## C16 -/

/-- C16. After the last call of a value the buffer is complete; after a strict prefix it is complete
exactly if that prefix is a non-empty run of tag hints, which stand alone. -/
theorem C16_complete_iff (v : V) :
    (∃ s, run (Buf.step true) (toks v) {} = .ok s ∧ isComplete s = true) ∧
    ∀ p, p <+: toks v → p ≠ toks v → ∃ s, run (Buf.step true) p {} = .ok s ∧
      (isComplete s = true ↔ p ≠ [] ∧ ∀ t ∈ p, ∃ g, t = .tagHint g) := by
  constructor
  · obtain ⟨s, h1, _, h2⟩ := C15_round_trip v
    exact ⟨s, h1, h2⟩
  · intro p hp hne
    by_cases hh : ∀ t ∈ p, ∃ g, t = .tagHint g
    · obtain ⟨B, h1, h2⟩ := run_hints p hh {}
      refine ⟨_, h2, ?_⟩
      have : 0 < B.length ↔ p ≠ [] := by rw [h1]; exact List.length_pos_iff
      simp only [isComplete, List.nil_append]
      simp [this]
      exact fun _ => hh
    · obtain ⟨s, h1, _, h3⟩ := strict_toks v p hp hne {} rfl
      refine ⟨s, h1, ?_⟩
      have hf : isComplete s = false := by
        rcases h3 with h3 | h3 | h3
        · simp only [List.length_nil] at h3
          simp [isComplete]
          intro h; rw [h] at h3; simp at h3
        · simp [isComplete, h3]
        · exact absurd h3 hh
      rw [hf]
      simp [hh]

/-- C16. More generally, whatever the calls: once they have all succeeded, the buffer is complete
exactly if something was buffered, as many containers were closed as opened, and no text or binary is
open. -/
theorem C16_complete_balance (ts : List Token) (s : St) (h : run (Buf.step true) ts {} = .ok s) :
    s.stack.length + ts.countP isEnd = ts.countP isBegin ∧
    (isComplete s = true ↔ s.parts ≠ [] ∧ s.inText = false ∧ ts.countP isBegin = ts.countP isEnd) := by
  have key : ∀ (ts : List Token) (s0 s : St), run (Buf.step true) ts s0 = .ok s →
      s.stack.length + ts.countP isEnd = s0.stack.length + ts.countP isBegin := by
    intro ts
    induction ts with
    | nil => intro s0 s h; cases h; rfl
    | cons t ts ih =>
      intro s0 s h
      rw [run_cons] at h
      generalize hr : Buf.step true t s0 = r at h
      have hst := step_to t s0
      rw [hr] at hst
      have one : ∀ s1, r = .ok s1 → s1.stack.length + (if isEnd t then 1 else 0)
          = s0.stack.length + (if isBegin t then 1 else 0) := by
        intro s1 h1
        cases hst with
        | push k b h2 h3 h4 => cases h1; simp [h3, h4]
        | begin o h2 h3 => rw [pushBegin_true] at h1; cases h1; simp [h2, h3]
        | «end» h2 h3 =>
          cases hs0 : s0.stack with
          | nil => simp only [pushEnd, hs0, fail] at h1; cases h1
          | cons i st =>
            simp only [pushEnd, hs0] at h1
            split at h1
            · cases h1
            · split at h1
              · cases h1
              · cases h1; simp [h2, h3]
              · cases h1
        | text b h2 h3 => cases h1; simp [h2, h3]
        | frag P k k' h2 h3 => cases h1; simp [h2, h3]
        | outside => cases h1
        | none => cases h1
      cases r with
      | ok s1 =>
        have h1 := one s1 rfl
        have h2 := ih s1 s h
        rw [List.countP_cons, List.countP_cons]
        omega
      | err e s1 => cases h
      | panic => cases h
  have hk := key ts {} s h
  simp only [List.length_nil, Nat.zero_add] at hk
  refine ⟨hk, ?_⟩
  have h0 : s.stack = [] ↔ ts.countP isBegin = ts.countP isEnd := by
    rw [← List.length_eq_zero_iff]; omega
  have hp : 0 < s.parts.length ↔ s.parts ≠ [] := List.length_pos_iff
  simp only [isComplete, Bool.and_eq_true, beq_iff_eq, List.length_eq_zero_iff, decide_eq_true_eq, gt_iff_lt, hp, h0]
  cases s.inText <;> simp [and_comm]

example : run (Buf.step true) ((toks sampleV).take 5) {} = .ok
    { parts := [.opened (.record { label := some (Label.new (t! "R")) } (some 2)) 0,
        .opened (.recordValue none (Label.new (t! "a"))) 0, .opened (.seq (some 2)) 0, .opened .seqValue 0,
        .text .new], stack := [3, 2, 1, 0], inText := true } ∧
    (run (Buf.step true) ((toks (.hint tags.NUMBER .null)).take 1) {}) = .ok { parts := [.tagHint tags.NUMBER] } ∧
    isComplete { parts := [.tagHint tags.NUMBER] } = true := by
  decide +kernel

/-! ## C17 -/

/-- C17. In every state a buffer can be in, whatever calls led there, an end call with nothing open is
an error that leaves the content alone; with something open it closes the innermost container. The only
call that panics is a fragment with nothing buffered at all. What is buffered can always be replayed. -/
theorem C17_unbalanced_end (s : St) (h : Reach s) :
    (∀ t, isEnd t = true → s.stack = [] →
      Buf.step true t s = .err .unbalanced { s with err := some .unbalanced }) ∧
    (∀ t i st, isEnd t = true → s.stack = i :: st → ∃ Q B o l, s.parts = Q ++ .opened o l :: B ∧
      Q.length = i ∧
      Buf.step true t s = .ok { s with parts := Q ++ .opened o B.length :: B, stack := st }) ∧
    (∀ t, Buf.step true t s = .panic ↔ isFrag t = true ∧ s.parts = []) ∧
    (replay s.parts).panic = false := by
  have hs := h.shape
  have hend : ∀ t, isEnd t = true → Buf.step true t s = pushEnd s := by
    intro t ht
    cases t <;> first | rfl | simp [isEnd] at ht
  refine ⟨?_, ?_, ?_, ?_⟩
  · intro t ht h0
    rw [hend t ht]
    simp [pushEnd, h0, fail]
  · intro t i st ht h0
    rw [hend t ht]
    rw [h0] at hs
    obtain ⟨Q, B, o, h1, h2, _⟩ := hs.end
    exact ⟨Q, B, o, 0, h1, h2.symm, pushEnd_opened Q B o 0 st s h1 (by rw [h0, h2])⟩
  · intro t
    refine ⟨(step_shape t s hs).1, ?_⟩
    rintro ⟨h1, h2⟩
    cases t <;> first
      | (simp [isFrag] at h1; done)
      | simp [Buf.step, textPush, binaryPush, h2]
  · obtain ⟨T, hT⟩ := replay_closed hs.closed
    rw [hT]

/-- A history with an unbalanced end, a mismatched end, and open containers. -/
example : ∃ s, Reach s ∧ s.stack = [2] ∧ s.err = some .unbalanced ∧
    replay s.parts = ⟨[.seqBegin none, .bool true, .seqEnd, .mapBegin none, .mapEnd], false⟩ := by
  refine ⟨{
      parts := [.opened (.seq none) 1, .bool true, .opened (.map none) 0]
      stack := [2]
      err := some .unbalanced }, ?_, rfl, rfl, by decide +kernel⟩
  refine .ok (.mapBegin none) (s := { parts := [.opened (.seq none) 1, .bool true], err := some .unbalanced }) ?_ rfl
  refine .ok .mapEnd (s := { parts := [.opened (.seq none) 0, .bool true], stack := [0], err := some .unbalanced }) ?_ rfl
  refine .ok (.bool true) (s := { parts := [.opened (.seq none) 0], stack := [0], err := some .unbalanced }) ?_ rfl
  refine .ok (.seqBegin none) (s := { err := some .unbalanced }) ?_ rfl
  exact .err (s := {}) .seqEnd .new rfl

/-! ## C18 -/

/-- C18. After `clear`, whatever came before, a buffer answers every sequence of calls as a new one
does. -/
theorem C18_clear (s : St) (alloc : Bool) (ts : List Token) :
    run (Buf.step alloc) ts (clear s) = run (Buf.step alloc) ts {} := rfl

/-- C18. An owned buffer replays the same calls with every fragment computed, is complete when the
original is, and later calls cannot tell them apart: they have the same results, and the buffers
they lead to replay the same calls, but for fragments being borrowed or computed. -/
theorem C18_into_owned (s : St) :
    (replay (intoOwned s).parts).toks = (replay s.parts).toks.map computedTok ∧
    (replay (intoOwned s).parts).panic = (replay s.parts).panic ∧
    (∀ t ∈ (replay (intoOwned s).parts).toks, isBorrowed t = false) ∧
    isComplete (intoOwned s) = isComplete s ∧
    ∀ ts, Res.mapS intoOwned (run (Buf.step true) ts (intoOwned s)) = Res.mapS intoOwned (run (Buf.step true) ts s) := by
  have hr : replay (intoOwned s).parts = (replay s.parts).map computedTok := by
    unfold replay intoOwned
    simp only [List.length_map]
    split
    · rfl
    · exact replayN_own _ _
  refine ⟨by rw [hr]; rfl, by rw [hr]; rfl, ?_, ?_, ?_⟩
  · rw [hr]
    intro t ht
    simp only [Out.map, List.mem_map] at ht
    obtain ⟨u, _, rfl⟩ := ht
    exact computedTok_not_borrowed u
  · simp [isComplete, intoOwned]
  · intro ts
    exact run_own ts _ _ (intoOwned_intoOwned s)

example : replay (intoOwned { parts := [.text (.borrowed (t! "a")), .text .new] }).parts =
    ⟨[.textBegin (some 1), .textFragmentComputed (t! "a"), .textEnd, .textBegin (some 0), .textFragmentComputed [],
      .textEnd], false⟩ := by
  decide +kernel

/-! ## C47 -/

/-- C47, where it fails: a value that itself fails makes `TextBuf::collect` and `BinaryBuf::collect`
panic instead of returning an error. -/
theorem C47_counterexample :
    collectText true (.ret false) = .panic ∧ collectBinary true (.ret false) = .panic := ⟨rfl, rfl⟩

/-- C47. For a value that does not itself fail: `TextBuf::collect` gives the text under any wrappers
(the text, the label of a bare tag, the digits of an integer beyond `i64`), borrowed where it can be,
and the error that it is not text otherwise. -/
theorem C47_collect_text_partial (v : V) (hv : ∀ u n, leaf v = .int u n → u.fits n = true) :
    collectText true (valueOf v) =
      match textOf (leaf v) with
      | some c => .ok c
      | none => .err .unsupported := by
  have hl := lower_leaf textCCaps rfl rfl rfl v
  have hr := run_textLeaf (leaf v) (leaf_ne_tagged v) (leaf_ne_enum v) (leaf_ne_hint v) hv
  rw [← hl] at hr
  cases ht : textOf (leaf v) with
  | some c =>
    rw [ht] at hr
    exact gather_ok textCCaps (textCStep true) (toks v) _ hr
  | none =>
    rw [ht] at hr
    exact gather_err textCCaps (textCStep true) (toks v) _ _ _ hr rfl

/-- The same for `BinaryBuf::collect`: the bytes of a binary, or of sequences and tuples of `u8`s to any
depth, and otherwise an error. -/
theorem C47_collect_binary_partial (v : V) :
    match bytesIn v with
    | some bs => ∃ c, collectBinary true (valueOf v) = .ok c ∧ c.content = bs
    | none => collectBinary true (valueOf v) = .err .unsupported := by
  have h := gathers v {}
  cases hb : bytesIn v with
  | some bs =>
    rw [hb] at h
    obtain ⟨s', h1, h2⟩ := h
    exact ⟨s'.buf, gather_ok binaryCCaps (binaryCStep true) (toks v) s' h1, h2⟩
  | none =>
    rw [hb] at h
    obtain ⟨s', h1, h2⟩ := h
    exact gather_err binaryCCaps (binaryCStep true) (toks v) s' _ _ h1 h2

/-- C47. Whatever the value does, a call the collectors reject is recorded, so that the panic takes a
value that fails without any call having failed. -/
theorem C47_panic_only_if_no_call_failed (p : Prog) (h : collectText true p = .panic) :
    ∀ ans, (∀ log t, ans log t = true) → (exec (recorder ans) p .base []).2 = false := by
  intro ans hans
  have key : ∀ (p : Prog) (w : Wrapper) (s : Coll Char) (l : List Token),
      (exec (stepE textCCaps (textCStep true)) p w s).1.err = none →
      s.err = none ∧ (exec (stepE textCCaps (textCStep true)) p w s).2 = (exec (recorder ans) p w l).2 := by
    intro p
    induction p with
    | ret ok => intro w s l h; exact ⟨h, rfl⟩
    | call t k ih =>
      intro w s l h
      simp only [exec, recorder, hans] at h ⊢
      have h1 := (ih _ w _ (l ++ [w.tok t]) h).1
      have h2 := textC_err (w.tok t) s h1
      rw [h2.2] at h ⊢
      exact ⟨h2.1, (ih true w _ (l ++ [w.tok t]) h).2⟩
    | value v k ihv ih =>
      intro w s l h
      simp only [exec] at h ⊢
      have h1 := (ih _ w _ (exec (recorder ans) v w.valueTarget l).1 h).1
      have h2 := ihv w.valueTarget s l h1
      refine ⟨h2.1, ?_⟩
      rw [← h2.2]
      exact (ih _ w _ _ h).2
    | valueComputed v k ihv ih =>
      intro w s l h
      simp only [exec] at h ⊢
      have h1 := (ih _ w _ (exec (recorder ans) v w.computedTarget l).1 h).1
      have h2 := ihv w.computedTarget s l h1
      refine ⟨h2.1, ?_⟩
      rw [← h2.2]
      exact (ih _ w _ _ h).2
  unfold collectText gather at h
  by_cases h2 : (exec (stepE textCCaps (textCStep true)) p .base {}).2 = true
  · rw [if_pos h2] at h; cases h
  · rw [if_neg h2] at h
    cases he : (exec (stepE textCCaps (textCStep true)) p .base {}).1.err with
    | some e => rw [he] at h; cases h
    | none => rw [← (key p .base {} [] he).2]; simpa using h2

example : collectText true (valueOf (.tagged {} (.text none [.borrowed (t! "a"), .computed (t! "b")]))) =
      .ok (.owned (t! "ab")) ∧
    collectText true (valueOf (.int .u64 18446744073709551615)) = .ok (.owned (t! "18446744073709551615")) ∧
    collectText true (valueOf .null) = .err .unsupported ∧
    collectBinary true (valueOf (.seq none [.int .u8 1, .tuple {} none [(none, ⟨0, none⟩, .int .u8 2)]])) =
      .ok (.owned [1, 2]) ∧
    collectBinary true (valueOf (.seq none [.int .u8 1, .int .u16 2])) = .err .unsupported := by
  decide +kernel

end Sval
