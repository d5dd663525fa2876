import Verif.Core.Received
import Verif.Json.Refuse
import Verif.Json.Escape

set_option autoImplicit false

/-!
# Where `sval_json` can panic

Whatever is called, in whatever order: only in slicing text while a number is being read from text.
-/

namespace Sval.Json

/-- The text a call has the formatter write as text, if any: a fragment, or the label of a tag. -/
def wording : Token → Text
  | .textFragment t => t
  | .textFragmentComputed t => t
  | .tag m => (m.label.map (·.text)).getD []
  | .taggedEnd m => (m.label.map (·.text)).getD []
  | .enumEnd m => (m.label.map (·.text)).getD []
  | _ => []

/-- Does the call begin a number in text? -/
def opensNumber : Token → Prop
  | .taggedBegin m => m.tag = some tags.NUMBER
  | _ => False

section
variable {ω : Type}

/-- Is a number being read from text? -/
def inNumber (s : St ω) : Prop := ∃ n, s.handler = some (.number n)

/-- A panic is for text `A` in a number; a number is one that had begun, or `B`. -/
def Tame (A B : Prop) (r : Res Unit (St ω)) (s : St ω) : Prop :=
  match r with
  | .panic => inNumber s ∧ A
  | .ok s' => inNumber s' → inNumber s ∨ B
  | .err _ s' => inNumber s' → inNumber s ∨ B

theorem Tame.bind {A B : Prop} {r : Res Unit (St ω)} {s : St ω} {g : St ω → Res Unit (St ω)} (h : Tame A False r s)
    (hg : ∀ s', Tame A B (g s') s') : Tame A B (r.bind g) s := by
  cases r with
  | panic => exact h
  | err e s' => exact fun h' => .inl ((h h').resolve_right id)
  | ok s' =>
    have := hg s'
    simp only [Res.bind]
    cases e : g s' with
    | panic => rw [e] at this; exact ⟨(h this.1).resolve_right id, this.2⟩
    | ok s2 => rw [e] at this; exact fun h2 => (this h2).elim (fun h3 => .inl ((h h3).resolve_right id)) .inr
    | err x s2 => rw [e] at this; exact fun h2 => (this h2).elim (fun h3 => .inl ((h h3).resolve_right id)) .inr

theorem Tame.mono {A B A' B' : Prop} {r : Res Unit (St ω)} {s : St ω} (h : Tame A B r s) (hA : A → A') (hB : B → B') :
    Tame A' B' r s := by
  cases r with
  | panic => exact ⟨h.1, hA h.2⟩
  | ok s' => exact fun x => (h x).imp id hB
  | err e s' => exact fun x => (h x).imp id hB

/-- From a state with the same handler. -/
theorem Tame.same {A B : Prop} {r : Res Unit (St ω)} {s s' : St ω} (h : Tame A B r s') (hs : s'.handler = s.handler) :
    Tame A B r s := by
  have hn : inNumber s' → inNumber s := fun ⟨n, hn⟩ => ⟨n, by rw [← hs]; exact hn⟩
  cases r with
  | panic => exact ⟨hn h.1, h.2⟩
  | ok s' => exact fun x => (h x).imp hn id
  | err e s' => exact fun x => (h x).imp hn id

theorem tame_ok {A : Prop} {s s' : St ω} (h : inNumber s' → inNumber s) : Tame A False (.ok s') s := fun x => .inl (h x)

variable {w : Writer ω} (hw : ∀ t o, w t o ≠ .panic)
include hw

theorem writes_no_panic (ts : List Text) (o : ω) : writes w ts o ≠ .panic := by
  induction ts generalizing o with
  | nil => simp [writes]
  | cons t ts ih =>
    rw [writes]
    cases e : w t o with
    | ok o' => exact ih o'
    | err x o' => simp [Res.bind]
    | panic => exact absurd e (hw t o)

theorem escapeStr_no_panic (v : Text) (o : ω) : escapeStr w v o ≠ .panic := by
  rw [escapeStr, escapeLoop_writes]
  exact writes_no_panic hw _ o

omit hw in
theorem wr_tame {A : Prop} {f : ω → Res Unit ω} (hf : ∀ o, f o ≠ .panic) (s : St ω) : Tame A False (wr f s) s := by
  rw [wr]
  cases e : f s.out with
  | panic => exact absurd e (hf _)
  | ok o => exact tame_ok id
  | err x o => exact fun h => .inl h

theorem w_tame {A : Prop} (t : Text) (s : St ω) : Tame A False (wr (w t) s) s := wr_tame (hw t) s

theorem scalar_tame {A : Prop} (t : Text) (s : St ω) : Tame A False (scalar w t s) s :=
  (w_tame hw t { s with empty := false }).same rfl

theorem textBegin_tame {A : Prop} (s : St ω) : Tame A False (textBegin w s) s := by
  rw [textBegin]
  split
  · exact (w_tame hw _ { s with empty := false }).same rfl
  · exact tame_ok id

theorem textEnd_tame {A : Prop} (s : St ω) : Tame A False (textEnd w s) s := by
  rw [textEnd]
  split
  · exact w_tame hw _ s
  · exact tame_ok id

theorem write_keeps (t : Text) (r : NumRun ω) :
    (∃ o, NumRun.write w t r = .ok { r with out := o }) ∨ ∃ o, NumRun.write w t r = .err () { r with out := o } := by
  rw [NumRun.write]
  cases e : w t r.out with
  | panic => exact absurd e (hw t _)
  | ok o => exact .inl ⟨o, rfl⟩
  | err x o => exact .inr ⟨o, rfl⟩

omit hw in
/-- The loop stops with a range of the text, or with an error of the writer. -/
def Ranged (v : Text) (n : Nat) : Res Unit (NumRun ω) → Prop
  | .panic => False
  | .err _ _ => True
  | .ok r' => ascii v = true → r'.start ≤ r'.stop ∧ (r'.stop = 0 ∨ r'.stop = n + v.length)

theorem numLoop_sound (v : Text) (r : NumRun ω) (hr : r.start ≤ r.stop) : Ranged v r.stop (numLoop w v r) := by
  induction v generalizing r with
  | nil => exact fun _ => ⟨hr, .inr rfl⟩
  | cons c v ih =>
    have key : ∀ q : NumRun ω, q.start ≤ q.stop → (c.toNat < 128 → q.stop = r.stop + 1) →
        Ranged (c :: v) r.stop (numLoop w v q) := by
      intro q h2 h3
      have := ih q h2
      cases e : numLoop w v q with
      | panic => rw [e] at this; exact this
      | err x q' => trivial
      | ok q' =>
        rw [e] at this
        intro ha
        have hc : c.toNat < 128 ∧ ascii v = true := by
          simp only [ascii, List.all_cons, Bool.and_eq_true, decide_eq_true_eq] at ha
          exact ha
        have h4 := this hc.2
        have h5 := h3 hc.1
        simp only [List.length_cons]
        omega
    rw [numLoop]
    split
    · exact key _ (by simpa using hr) fun _ => rfl
    · split
      · split
        · rcases write_keeps hw ['-'] r with ⟨o, h⟩ | ⟨o, h⟩ <;> rw [h]
          · exact key _ (by simp; omega) fun _ => rfl
          · trivial
        · exact key _ (by simp; omega) fun _ => rfl
      · split
        · split
          · split
            · rcases write_keeps hw ['-'] r with ⟨o, h⟩ | ⟨o, h⟩ <;> rw [h]
              · simp only [Res.bind]
                rcases write_keeps hw ['0'] { r with out := o } with ⟨o', h⟩ | ⟨o', h⟩ <;> rw [h]
                · exact key _ (by simp; omega) fun _ => rfl
                · trivial
              · trivial
            · simp only [Res.bind]
              rcases write_keeps hw ['0'] r with ⟨o', h⟩ | ⟨o', h⟩ <;> rw [h]
              · exact key _ (by simp; omega) fun _ => rfl
              · trivial
          · exact key _ (by simp; omega) fun _ => rfl
        · split
          · exact key _ (by simpa using hr) fun _ => rfl
          · split
            · exact key _ (by simpa using hr) fun _ => rfl
            · split
              · rcases write_keeps hw (t! "null") { r with st := { r.st with nan := true, atStart := false } } with ⟨o, h⟩ | ⟨o, h⟩ <;> rw [h]
                · exact fun _ => ⟨Nat.le_refl _, .inl rfl⟩
                · trivial
              · exact key _ (by simp; omega) fun hc => by simp [ascii_size hc]

theorem numFragment_panic (v : Text) (r : NumSt × ω) (h : numFragment w v r = .panic) : ascii v = false := by
  obtain ⟨n, o⟩ := r
  rw [numFragment] at h
  cases hn : n.nan with
  | true => simp [hn] at h
  | false =>
    have hl := numLoop_sound hw v { st := n, out := o } (Nat.le_refl _)
    simp only [hn, Bool.false_eq_true, if_false] at h
    cases e : numLoop w v { st := n, out := o } with
    | panic => rw [e] at hl; exact hl.elim
    | err x r' => rw [e] at h; simp at h
    | ok r' =>
      rw [e] at h hl
      cases hs : sliceBytes v r'.start r'.stop with
      | some t =>
        simp only [hs] at h
        cases e2 : w t r'.out with
        | panic => exact absurd e2 (hw _ _)
        | ok o' => simp [e2] at h
        | err x o' => simp [e2] at h
      | none =>
        cases ha : ascii v with
        | false => rfl
        | true =>
          have hr := hl ha
          have h1 : ascii (v.drop r'.start) = true := by
            simp only [ascii, List.all_eq_true] at ha ⊢
            exact fun c hc => ha c (List.mem_of_mem_drop hc)
          simp only [Nat.zero_add] at hr
          rw [sliceBytes, if_pos hr.1, ascii_drop v ha _ (by omega), Option.bind_some,
            ascii_take _ h1 _ (by rw [List.length_drop]; omega)] at hs
          cases hs

theorem textFragment_tame (v : Text) (s : St ω) : Tame (ascii v = false) False (textFragment w v s) s := by
  rw [textFragment]
  cases hs : s.handler with
  | none => exact wr_tame (escapeStr_no_panic hw v) s
  | some k =>
    cases k with
    | native => exact w_tame hw v s
    | number n =>
      have hn : inNumber s := ⟨n, hs⟩
      simp only
      cases e : numFragment w v (n, s.out) with
      | panic => exact ⟨hn, numFragment_panic hw _ _ e⟩
      | ok r => exact fun _ => .inl hn
      | err x r => exact fun _ => .inl hn

theorem mapBegin_tame {A : Prop} (s : St ω) : Tame A False (mapBegin w s) s := by
  rw [mapBegin]
  split
  · exact fun h => .inl h
  · exact (w_tame hw _ { s with empty := true }).same rfl

theorem mapKeyBegin_tame {A : Prop} (s : St ω) : Tame A False (mapKeyBegin w s) s := by
  simp only [mapKeyBegin]
  split <;> exact (w_tame hw _ { s with quoted := false, tagged := false }).same rfl

theorem mapKeyEnd_tame {A : Prop} (s : St ω) : Tame A False (mapKeyEnd w s) s := (w_tame hw _ s).bind fun _ => tame_ok id

theorem mapEnd_tame {A : Prop} (s : St ω) : Tame A False (mapEnd w s) s := (w_tame hw _ { s with empty := false }).same rfl

theorem seqBegin_tame {A : Prop} (s : St ω) : Tame A False (seqBegin w s) s := by
  rw [seqBegin]
  split
  · exact fun h => .inl h
  · exact (w_tame hw _ { s with empty := true }).same rfl

theorem seqValueBegin_tame {A : Prop} (s : St ω) : Tame A False (seqValueBegin w s) s := by
  simp only [seqValueBegin]
  split
  · exact (w_tame hw _ { s with tagged := false }).same rfl
  · exact tame_ok id

theorem seqEnd_tame {A : Prop} (s : St ω) : Tame A False (seqEnd w s) s := (w_tame hw _ { s with empty := false }).same rfl

theorem tagBegin_tame {A : Prop} (m : Meta) (s : St ω) : Tame A False (tagBegin w m s) s := by
  simp only [tagBegin]
  split
  · refine Tame.same (s' := { s with tagged := false }) ?_ rfl
    split
    · exact (mapBegin_tame hw _).bind fun s => (mapKeyBegin_tame hw s).bind fun s =>
        (wr_tame (escapeStr_no_panic hw _) s).bind fun s => mapKeyEnd_tame hw s
    · split
      · exact (mapBegin_tame hw _).bind fun s => (mapKeyBegin_tame hw s).bind fun s =>
          (scalar_tame hw _ s).bind fun s => mapKeyEnd_tame hw s
      · exact tame_ok id
  · exact tame_ok id

omit hw in
theorem tagEnd_tame {A : Prop} (m : Meta) (s : St ω) : Tame A False (tagEnd m s) s := tame_ok id

theorem tagStep_tame (m : Meta) (s : St ω) : Tame (ascii ((m.label.map (·.text)).getD []) = false) False (tagStep w m s) s := by
  simp only [tagStep]
  refine Tame.same (s' := { s with tagged := false, empty := false }) ?_ rfl
  split
  · exact scalar_tame hw _ _
  · cases m.label with
    | some l => exact (textBegin_tame hw _).bind fun s => (textFragment_tame hw _ s).bind fun s => textEnd_tame hw s
    | none =>
      simp only
      split <;> exact scalar_tame hw _ _

theorem taggedBegin_tame {A : Prop} (m : Meta) (s : St ω) :
    Tame A (m.tag = some tags.NUMBER) (taggedBegin w m s) s := by
  simp only [taggedBegin]
  generalize hs1 : (if m.tag = some tags.JSON_TEXT then { s with handler := some .native }
    else if m.tag = some tags.JSON_VALUE then { s with quoted := false, handler := some .native }
    else if m.tag = some tags.NUMBER then
      { s with quoted := false, handler := if s.handler.isNone then some (.number {}) else s.handler }
    else if m.tag = some tags.JSON_NUMBER then { s with quoted := false, handler := some .native }
    else s : St ω) = s1
  have h1 : inNumber s1 → inNumber s ∨ m.tag = some tags.NUMBER := by
    rintro ⟨n, hn⟩
    subst hs1
    split at hn
    · simp at hn
    · split at hn
      · simp at hn
      · split at hn
        · exact .inr (by assumption)
        · split at hn
          · simp at hn
          · exact .inl ⟨n, hn⟩
  have h2 : Tame False False ((tagBegin w m s1).bind fun s => .ok { s with empty := true }) s1 :=
    (tagBegin_tame hw m s1).bind fun _ => tame_ok id
  cases e : (tagBegin w m s1).bind fun s => Res.ok { s with empty := true } with
  | panic => rw [e] at h2; exact h2.2.elim
  | ok s' => rw [e] at h2; exact fun h => h1 ((h2 h).resolve_right id)
  | err x s' => rw [e] at h2; exact fun h => h1 ((h2 h).resolve_right id)

theorem numEnd_no_panic (n : NumSt) (o : ω) : numEnd w n o ≠ .panic := by
  rw [numEnd]
  split
  · exact hw _ _
  · simp

theorem tagStepIf_tame (m : Meta) (s : St ω) :
    Tame (ascii ((m.label.map (·.text)).getD []) = false) False (if s.empty then tagStep w m s else .ok s) s := by
  split
  · exact tagStep_tame hw m s
  · exact tame_ok id

theorem taggedEnd_tame (m : Meta) (s : St ω) :
    Tame (ascii ((m.label.map (·.text)).getD []) = false) False (taggedEnd w m s) s := by
  simp only [taggedEnd]
  refine Tame.bind ?_ fun s => (tagStepIf_tame hw m s).bind fun s => tagEnd_tame m s
  have hno : ∀ s' : St ω, s'.handler = none → inNumber s' → inNumber s := by
    rintro s' h ⟨n, hn⟩
    rw [h] at hn; cases hn
  split
  · exact tame_ok (hno _ rfl)
  · split
    · exact tame_ok (hno _ rfl)
    · split
      · cases hs : s.handler with
        | none => exact tame_ok (hno _ rfl)
        | some k =>
          cases k with
          | native => exact tame_ok (hno _ rfl)
          | number n =>
            have h2 := wr_tame (A := False) (numEnd_no_panic hw n) { s with quoted := true, handler := none }
            simp only
            cases e : wr (numEnd w n) { s with quoted := true, handler := none } with
            | panic => rw [e] at h2; exact h2.2.elim
            | ok s' => exact fun _ => .inl ⟨n, hs⟩
            | err x s' => exact fun _ => .inl ⟨n, hs⟩
      · split
        · exact tame_ok (hno _ rfl)
        · exact tame_ok id

theorem recordValueBegin_tame {A : Prop} (l : Label) (s : St ω) : Tame A False (recordValueBegin w l s) s := by
  simp only [recordValueBegin]
  refine Tame.same (s' := { s with tagged := false }) ?_ rfl
  refine Tame.bind ?_ fun s => Tame.bind ?_ fun s => w_tame hw _ s
  · split <;> exact w_tame hw _ _
  · split
    · exact w_tame hw _ _
    · exact wr_tame (escapeStr_no_panic hw _) _

theorem step_tame (env : Env) (t : Token) (s : St ω) :
    Tame (ascii (wording t) = false) (opensNumber t) (step w env t s) s := by
  have err : ∀ s : St ω, Tame (ascii (wording t) = false) False (Res.err () s) s := fun s h => .inl h
  cases t <;>
    first
    | exact (err s).mono id False.elim
    | exact (scalar_tame hw _ s).mono id False.elim
    | exact (textBegin_tame hw s).mono id False.elim
    | exact (textFragment_tame hw _ s).mono id False.elim
    | exact (textEnd_tame hw s).mono id False.elim
    | exact (mapBegin_tame hw s).mono id False.elim
    | exact (mapKeyBegin_tame hw s).mono id False.elim
    | exact (mapKeyEnd_tame hw s).mono id False.elim
    | exact (mapEnd_tame hw s).mono id False.elim
    | exact (seqBegin_tame hw s).mono id False.elim
    | exact (seqValueBegin_tame hw s).mono id False.elim
    | exact (seqEnd_tame hw s).mono id False.elim
    | exact (tame_ok (s := s) id).mono id False.elim
    | exact taggedBegin_tame hw _ s
    | exact (taggedEnd_tame hw _ s).mono id False.elim
    | exact (tagStep_tame hw _ s).mono id False.elim
    | exact (recordValueBegin_tame hw _ s).mono id False.elim
    | exact ((tagBegin_tame hw _ s).bind fun s => mapBegin_tame hw s).mono id False.elim
    | exact ((tagBegin_tame hw _ s).bind fun s => seqBegin_tame hw s).mono id False.elim
    | exact ((mapEnd_tame hw s).bind fun s => tagEnd_tame _ s).mono id False.elim
    | exact ((seqEnd_tame hw s).bind fun s => tagEnd_tame _ s).mono id False.elim
    | exact Tame.mono (B := False) ((tagBegin_tame hw _ s).bind fun s => tame_ok (s' := { s with tagged := true, empty := true }) id) id False.elim
    | (refine ((tagStepIf_tame hw _ s).bind fun s => ?_).mono id False.elim
       split
       · exact mapEnd_tame hw s
       · exact tagEnd_tame _ s)

/-- A call without text that does not begin a number. -/
def still (t : Token) : Prop := wording t = [] ∧ ¬ opensNumber t

theorem run_still (env : Env) (ts : List Token) (h : ∀ t ∈ ts, still t) (s : St ω) :
    Tame False False (run (step w env) ts s) s := by
  induction ts generalizing s with
  | nil => exact tame_ok id
  | cons t ts ih =>
    rw [run_cons]
    have ht := h t (.head _)
    refine Tame.bind ((step_tame hw env t s).mono (fun h => ?_) fun h => ht.2 h) fun s => ih (fun t hm => h t (.tail _ hm)) s
    rw [ht.1] at h
    cases h

omit hw in
/-- What a call on the formatter becomes. -/
theorem low_shape (t : Token) :
    (∃ t', Low.tok jsonCaps t = [t'] ∧ wording t' = wording t ∧ (opensNumber t' ↔ opensNumber t)) ∨
      ∀ t' ∈ Low.tok jsonCaps t, still t' := by
  cases t with
  | int ty v => cases ty <;> exact .inl ⟨_, rfl, rfl, .rfl⟩
  | binaryFragment b | binaryFragmentComputed b =>
    right
    intro t' h
    simp only [Low.tok, Low.binaryFragment, Low.binaryFragmentComputed, jsonCaps] at h
    simp [Low.u8] at h
    obtain ⟨x, _, h⟩ := h
    rcases h with h | h | h <;> subst h <;> exact ⟨rfl, id⟩
  | tagHint t => exact .inr fun t' h => by cases h
  | _ => exact .inl ⟨_, rfl, rfl, .rfl⟩

theorem call_tame (env : Env) (t : Token) (s : St ω) :
    Tame (ascii (wording t) = false) (opensNumber t) (call w env t s) s := by
  rw [call]
  rcases low_shape t with ⟨t', h1, h2, h3⟩ | h
  · rw [h1, run_cons, ← h2]
    have := step_tame hw env t' s
    cases e : step w env t' s with
    | panic => rw [e] at this; exact this
    | ok s' => rw [e] at this; exact fun h => (this h).imp id h3.1
    | err x s' => rw [e] at this; exact fun h => (this h).imp id h3.1
  · exact (run_still hw env _ h s).mono False.elim False.elim

/-- A number being read has begun. -/
theorem inNumber_begun (env : Env) (ts : List Token) (s s' : St ω)
    (h : ts.foldl (fun s t => (guarded (call w env) t s).1) (s, false) = (s', false)) (hn : inNumber s') :
    inNumber s ∨ ∃ t ∈ ts, opensNumber t := by
  induction ts generalizing s with
  | nil => cases h; exact .inl hn
  | cons t ts ih =>
    rw [List.foldl_cons] at h
    have ht := call_tame hw env t s
    cases e : call w env t s with
    | panic =>
      have hg : (guarded (call w env) t (s, false)).1 = (s, true) := by simp [guarded, e]
      have hst : ∀ (ts : List Token) (x : St ω × Bool), x.2 = true →
          (ts.foldl (fun s t => (guarded (call w env) t s).1) x).2 = true := by
        intro ts
        induction ts with
        | nil => exact fun x hx => hx
        | cons u us ihu => intro x hx; rw [List.foldl_cons]; exact ihu _ (by simp [guarded, hx])
      rw [hg] at h
      have := hst ts (s, true) rfl
      rw [h] at this; cases this
    | ok s1 =>
      have hg : (guarded (call w env) t (s, false)).1 = (s1, false) := by simp [guarded, e]
      rw [hg] at h; rw [e] at ht
      rcases ih s1 h with h2 | ⟨u, hu, h2⟩
      · exact (ht h2).imp id fun h3 => ⟨t, .head _, h3⟩
      · exact .inr ⟨u, .tail _ hu, h2⟩
    | err x s1 =>
      have hg : (guarded (call w env) t (s, false)).1 = (s1, false) := by simp [guarded, e]
      rw [hg] at h; rw [e] at ht
      rcases ih s1 h with h2 | ⟨u, hu, h2⟩
      · exact (ht h2).imp id fun h3 => ⟨t, .head _, h3⟩
      · exact .inr ⟨u, .tail _ hu, h2⟩

theorem toFmt_panic_where (env : Env) (p : Prog) (o : ω) (h : (toFmt w env p o).1 = .panic) :
    ∃ a t b, received (stepP w env) p .base ({ out := o }, false) = a ++ t :: b ∧ ascii (wording t) = false ∧
      ∃ u ∈ a, opensNumber u := by
  have hg : stepP w env = guarded (call w env) := by
    funext t s
    simp only [stepP, guarded]
    split
    · rfl
    · cases call w env t s.1 <;> rfl
  have hd : drive (call w env) p { out := o } = .panicked := by
    simp only [toFmt, hg] at h
    simp only [drive]
    split
    · rfl
    · rename_i hf
      simp only [hf, Bool.false_eq_true, if_false] at h
      split at h
      · cases h
      · dsimp only at h
        split at h <;> cases h
  obtain ⟨a, t, b, s', h1, h2, h3⟩ := drive_panicked _ p _ hd
  have ht := call_tame hw env t s'
  rw [h3] at ht
  refine ⟨a, t, b, by rw [hg]; exact h1, ht.2, ?_⟩
  rcases inNumber_begun hw env a _ s' h2 ht.1 with ⟨n, hn⟩ | h
  · cases hn
  · exact h

end
end Sval.Json
