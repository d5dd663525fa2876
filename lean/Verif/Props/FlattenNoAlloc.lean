import Verif.Props.Flatten

set_option autoImplicit false

/-!
# Flattening without an allocator: C76
-/

namespace Sval.Flatten

/-- Without an allocator a run is the same as with one, or it fails. -/
def Short {σ : Type} (r q : Res Unit σ) : Prop := r = q ∨ ∃ s, r = .err () s

theorem Short.bind {σ : Type} {r q : Res Unit σ} (h : Short r q) {f g : σ → Res Unit σ} (hf : ∀ s, Short (f s) (g s)) :
    Short (r.bind f) (q.bind g) := by
  rcases h with rfl | ⟨s, rfl⟩
  · cases r with
    | ok s => exact hf s
    | err e s => exact .inl rfl
    | panic => exact .inl rfl
  · exact .inr ⟨s, rfl⟩

theorem short_label (t : Token) (b : LabelBuf) : Short (LabelBuf.call false t b) (LabelBuf.call true t b) := by
  rcases LabelBuf.scraped_call t b with ⟨l, h1, h2, _⟩ | ⟨l, h, _⟩
  · exact .inl (h1.trans h2.symm)
  · exact .inr ⟨l, h⟩

section
variable {σ : Type} (kind : Kind) (ryu : UInt64 → Text) (ck : Bool) (S : Token → σ → Res Unit σ)

/-- `cfg` with and without an allocator. -/
abbrev withA : Cfg := ⟨kind, true, ryu, ck⟩
abbrev without : Cfg := ⟨kind, false, ryu, ck⟩

theorem short_toLabel (t : Token) (st : St σ) : Short (toLabel (without kind ryu ck) S t st) (toLabel (withA kind ryu ck) S t st) := by
  unfold toLabel
  have h := short_label t st.ctl.side.label
  cases kind with
  | record | recordTuple =>
    simp only
    rcases h with h | ⟨l, h⟩
    · rw [h]; exact .inl rfl
    · rw [h]; exact .inr ⟨_, rfl⟩
  | _ => exact .inl rfl

theorem short_index (i : Index) (l : Option Label) (f g : Label → Act σ) (hf : ∀ l st, Short (f l st) (g l st)) (st : St σ) :
    Short (withIndexLabel (without kind ryu ck) i l f st) (withIndexLabel (withA kind ryu ck) i l g st) := by
  unfold withIndexLabel
  cases l with
  | some l => exact hf l st
  | none =>
    rcases LabelBuf.scraped_index .empty i with ⟨b, h1, h2, _⟩ | ⟨b, h, _⟩
    · simp only [h1, h2]; exact hf _ st
    · simp only [h]; exact .inr ⟨st, rfl⟩

theorem Short.refl (r : Res Unit (St σ)) : Short r r := .inl rfl

theorem short_atRoot {a b p a' b' p' : Act σ} (ha : ∀ st, Short (a st) (a' st)) (hb : ∀ st, Short (b st) (b' st))
    (hp : ∀ st, Short (p st) (p' st)) (st : St σ) : Short (valueAtRoot a b p st) (valueAtRoot a' b' p' st) := by
  unfold valueAtRoot
  split
  · exact ha st
  · split
    · exact hb st
    · exact hp st

theorem short_value (t : Token) (st : St σ) : Short (value (without kind ryu ck) S t st) (value (withA kind ryu ck) S t st) :=
  short_atRoot (fun _ => .inl rfl) (short_toLabel kind ryu ck S t) (fun _ => .inl rfl) st

theorem short_fbegin {a b p a' b' p' : Act σ} (ha : ∀ st, Short (a st) (a' st)) (hb : ∀ st, Short (b st) (b' st))
    (hp : ∀ st, Short (p st) (p' st)) (st : St σ) : Short (flattenableBegin a b p st) (flattenableBegin a' b' p' st) := by
  unfold flattenableBegin
  dsimp only
  split
  · exact ha _
  · split
    · exact hb _
    · exact hp _

theorem short_fvalue {a b p a' b' p' : Act σ} (ha : ∀ st, Short (a st) (a' st)) (hb : ∀ st, Short (b st) (b' st))
    (hp : ∀ st, Short (p st) (p' st)) (st : St σ) : Short (flattenableValue a b p st) (flattenableValue a' b' p' st) := by
  unfold flattenableValue
  split
  · exact hb _
  · split
    · exact ha _
    · exact hp _

theorem short_fend {a b p a' b' p' : Act σ} (ha : ∀ st, Short (a st) (a' st)) (hb : ∀ st, Short (b st) (b' st))
    (hp : ∀ st, Short (p st) (p' st)) (st : St σ) : 
    Short (flattenableEnd (without kind ryu ck) a b p st) (flattenableEnd (withA kind ryu ck) a' b' p' st) := by
  unfold flattenableEnd
  refine Short.bind ?_ fun _ => .inl rfl
  split
  · exact ha _
  · split
    · exact hb _
    · exact hp _

theorem short_withBegin (i : Option Index) {f g : Index → Act σ} (h : ∀ i st, Short (f i st) (g i st)) (st : St σ) :
    Short (withBegin (without kind ryu ck) i f st) (withBegin (withA kind ryu ck) i g st) := by
  unfold withBegin
  dsimp only
  split
  · exact h _ _
  · exact .inl rfl

theorem short_withEnd (i : Option Index) {f g : Index → Act σ} (h : ∀ i st, Short (f i st) (g i st)) (st : St σ) :
    Short (withEnd (without kind ryu ck) i f st) (withEnd (withA kind ryu ck) i g st) := by
  unfold withEnd
  dsimp only
  split
  · exact h _ _
  · exact .inl rfl

/-- Every call does the same without an allocator, or fails. -/
theorem short_call (t : Token) (st : St σ) : Short (call (without kind ryu ck) S t st) (call (withA kind ryu ck) S t st) := by
  have hl := fun t => short_toLabel kind ryu ck S t
  have hr : ∀ {f : Act σ} st, Short (f st) (f st) := fun _ => .inl rfl
  have ho : ∀ t st, Short (opens (without kind ryu ck) S t st) (opens (withA kind ryu ck) S t st) := fun t =>
    short_fbegin (hl t) hr hr
  have hc : ∀ t st, Short (closes (without kind ryu ck) S t st) (closes (withA kind ryu ck) S t st) := fun t =>
    short_fend kind ryu ck (hl t) hr hr
  cases t with
  | null | bool _ | int _ _ | f32 _ | f64 _ | textBegin _ | textFragment _ | textFragmentComputed _ | textEnd
  | binaryBegin _ | binaryFragment _ | binaryFragmentComputed _ | binaryEnd | tag _ | tagHint _ =>
    exact short_value kind ryu ck S _ st
  | mapBegin _ | seqBegin _ | recordBegin _ _ | tupleBegin _ _ | recordTupleBegin _ _ => exact ho _ st
  | mapEnd | seqEnd | recordEnd _ | tupleEnd _ | recordTupleEnd _ => exact hc _ st
  | mapKeyBegin => exact short_fvalue (hl _) (fun st => (hl _ st).bind fun _ => .inl rfl) hr st
  | mapKeyEnd => exact short_fvalue (hl _) (fun st => (hl _ st).bind fun _ => .inl rfl) hr st
  | mapValueBegin => exact short_fvalue (hl _) hr hr st
  | mapValueEnd => exact short_fvalue (hl _) hr hr st
  | seqValueBegin =>
    exact short_fvalue (hl _) (short_withBegin kind ryu ck _ fun i => short_index kind ryu ck i none _ _ fun _ _ => .inl rfl) hr st
  | seqValueEnd =>
    exact short_fvalue (hl _) (short_withEnd kind ryu ck _ fun i => short_index kind ryu ck i none _ _ fun _ _ => .inl rfl) hr st
  | enumBegin _ =>
    exact short_atRoot (a := fun st => .ok { st with ctl.inEnum := true }) (a' := fun st => .ok { st with ctl.inEnum := true })
      hr (hl _) hr st
  | enumEnd _ => exact short_atRoot hr (hl _) hr st
  | taggedBegin m =>
    simp only [call]
    split
    · exact short_fbegin (hl _) (short_withBegin kind ryu ck _ fun i => short_index kind ryu ck i _ _ _ fun _ _ => .inl rfl) hr st
    · split
      · exact .inl rfl
      · exact short_value kind ryu ck S _ st
  | taggedEnd m =>
    simp only [call]
    split
    · exact short_fend kind ryu ck (hl _) (short_withEnd kind ryu ck _ fun i => short_index kind ryu ck i _ _ _ fun _ _ => .inl rfl) hr st
    · split
      · exact .inl rfl
      · exact short_value kind ryu ck S _ st
  | recordValueBegin _ _ | recordValueEnd _ _ | recordTupleValueBegin _ _ _ | recordTupleValueEnd _ _ _ =>
    exact short_fvalue (hl _) hr hr st
  | tupleValueBegin _ _ =>
    exact short_fvalue (hl _) (short_withBegin kind ryu ck _ fun i => short_index kind ryu ck i none _ _ fun _ _ => .inl rfl) hr st
  | tupleValueEnd _ _ =>
    exact short_fvalue (hl _) (short_withEnd kind ryu ck _ fun i => short_index kind ryu ck i none _ _ fun _ _ => .inl rfl) hr st

end

theorem short_guarded {σ : Type} {c c' : Token → σ → Res Unit σ} (h : ∀ t s, Short (c t s) (c' t s)) (t : Token) (x : σ × Bool) :
    guarded c t x = guarded c' t x ∨ ∃ s, guarded c t x = ((s, false), false) := by
  unfold guarded
  split
  · exact .inl rfl
  · rcases h t x.1 with h | ⟨s, h⟩
    · exact .inl (by rw [h])
    · exact .inr ⟨s, by rw [h]⟩

theorem short_exec {σ : Type} {c c' : Token → σ → Res Unit σ} (h : ∀ t s, Short (c t s) (c' t s)) (p : Prog) :
    ∀ (w : Wrapper) (x : σ × Bool), p.Propagates →
      exec (guarded c) p w x = exec (guarded c') p w x ∨ ∃ s, exec (guarded c) p w x = ((s, false), false) := by
  induction p with
  | ret ok => intro w x _; exact .inl rfl
  | call t k ih =>
    rintro w x ⟨h0, h1⟩
    simp only [exec]
    rcases short_guarded h (w.tok t) x with h | ⟨s, h⟩
    · rw [h]
      cases hr : (guarded c' (w.tok t) x).2 with
      | true => exact ih true _ _ h1
      | false => rw [h0]; exact .inl rfl
    · rw [h]; exact .inr ⟨s, by rw [h0]; rfl⟩
  | value v k ihv ih =>
    rintro w x ⟨hv, h0, h1⟩
    simp only [exec]
    rcases ihv w.valueTarget x hv with h | ⟨s, h⟩
    · rw [h]
      cases hr : (exec (guarded c') v w.valueTarget x).2 with
      | true => exact ih true _ _ h1
      | false => rw [h0]; exact .inl rfl
    · rw [h]; exact .inr ⟨s, by rw [h0]; rfl⟩
  | valueComputed v k ihv ih =>
    rintro w x ⟨hv, h0, h1⟩
    simp only [exec]
    rcases ihv w.computedTarget x hv with h | ⟨s, h⟩
    · rw [h]
      cases hr : (exec (guarded c') v w.computedTarget x).2 with
      | true => exact ih true _ _ h1
      | false => rw [h0]; exact .inl rfl
    · rw [h]; exact .inr ⟨s, by rw [h0]; rfl⟩

end Sval.Flatten

namespace Sval

open Flatten

/-- C76, for any code that uses `?`, correct or not, and any stream: without an allocator flattening does exactly
what it does with one, or it fails. -/
theorem C76 {σ : Type} (kind : Flatten.Kind) (ryu : UInt64 → Text) (ck : Bool) (S : Token → σ → Res Unit σ) (p : Prog)
    (hp : p.Propagates) (k : Int) (s : σ) :
    flattenTo ⟨kind, false, ryu, ck⟩ S p k s = flattenTo ⟨kind, true, ryu, ck⟩ S p k s ∨
      ∃ s', flattenTo ⟨kind, false, ryu, ck⟩ S p k s = .done false s' := by
  simp only [flattenTo, drive]
  rcases short_exec (short_call kind ryu ck S) p .base (begin k s, false) hp with h | ⟨st, h⟩
  · exact .inl (by rw [h])
  · exact .inr ⟨_, by rw [h]; rfl⟩

/-- C76: when every entry can be identified without an allocator, flattening without one does what it should. -/
theorem C76_free (cfg : Flatten.Cfg) (v : V) (k : Int) (hk : isIsize k) (hu : untaggedEnum v = true)
    (hr : cfg.checks = true → inRange k k (entries v)) (he : ∀ e ∈ entries v, affordable cfg.kind e = true) :
    FlattensTo cfg v k (entryCalls cfg reopened (number k k (entries v)).1) (number k k (entries v)).2 := by
  obtain ⟨c, h1, _, _, h4⟩ := flattens_value (cfg := cfg) v { alloc := { initial := k, current := k } }
    ⟨rfl, rfl, rfl, rfl, hk⟩ (.inr hu) (fun e h => .inr (he e h)) hr
  exact flattensTo_of_does h1 (by rw [h4]; rfl) (emit_congr _ _ _ _ _ fun x _ => reopened_eq _)

/-- C76: otherwise the container gets exactly the entries before the first that cannot be identified, and then
flattening fails. -/
theorem C76_exact (cfg : Flatten.Cfg) (ha : cfg.alloc = false) (v : V) (k : Int) (hk : isIsize k)
    (hr : cfg.checks = true → inRange k k (entries v)) (he : ∃ e ∈ entries v, affordable cfg.kind e = false) {σ : Type}
    (S : Token → σ → Res Unit σ) (s : σ) :
    match run S (entryCalls cfg reopened (number k k ((entries v).takeWhile (affordable cfg.kind))).1) s with
    | .ok s' | .err _ s' => ∃ o, flattenTo cfg S (valueOf v) k s = .done false (s', o)
    | .panic => flattenTo cfg S (valueOf v) k s = .panicked := by
  have := stops_value (cfg := cfg) ha v { alloc := { initial := k, current := k } } ⟨rfl, rfl, rfl, rfl, hk⟩ hr he σ S s
  rw [show rootEntries _ v = entries v from rfl] at this
  have hx : entryCalls cfg reopened (number k k ((entries v).takeWhile (affordable cfg.kind))).1 =
      emit cfg.kind (keyText cfg.ryu) broken (number k k ((entries v).takeWhile (affordable cfg.kind))).1 :=
    emit_congr _ _ _ _ _ fun x _ => reopened_eq _
  rw [hx]
  simp only [flattenTo, valueOf, drive_ofToks, begin]
  simp only at this
  cases hp : run S (emit cfg.kind (keyText cfg.ryu) broken (number k k ((entries v).takeWhile (affordable cfg.kind))).1) s <;>
    rw [hp] at this
  · obtain ⟨c', this⟩ := this; rw [this]; exact ⟨_, rfl⟩
  · obtain ⟨c', this⟩ := this; rw [this]; exact ⟨_, rfl⟩
  · simp only at this ⊢; rw [this]; rfl

/-- C76: values that never need an allocator: structs, tuples, sequences, and maps whose keys are each one borrowed
text or one number. -/
theorem C76_plain (kind : Flatten.Kind) (v : V)
    (h : ∀ e ∈ entries v, (∀ k, e.key = some k → (∃ n s, k = .text n [.borrowed s]) ∨ ∃ t i, k = .int t i) ∧
      ∀ i, e.index = some i → -2 ^ 63 ≤ i.val ∧ i.val ≤ 2 ^ 64 - 1) :
    ∀ e ∈ entries v, affordable kind e = true := by
  intro e he
  obtain ⟨h1, h2⟩ := h e he
  unfold affordable
  cases hk : e.key with
  | some k =>
    have : borrowable [] ((toks k).flatMap scraps) = true := by
      rcases h1 k hk with ⟨n, s, rfl⟩ | ⟨t, i, rfl⟩
      · simp [toks, textFragTok, scraps, borrowable]
      · simp [toks, scraps, borrowable]
    cases kind <;> simp [this]
  | none =>
    cases hl : e.label with
    | some l => rfl
    | none =>
      cases hi : e.index with
      | none => rfl
      | some i => exact decide_eq_true (h2 i hi)

example : ∀ e ∈ entries aField, affordable .record e = true :=
  C76_plain .record aField (by simp [aField, entries])

/-- A map with a borrowed and a computed key, for examples. -/
def twoKeys : V := .map none [(.text none [.borrowed (t! "a")], .bool true), (.text none [.computed (t! "b")], .null)]

/-- The first entry arrives, the second is an error. -/
example : flattenTo { flat .record with alloc := false } keepAll (valueOf twoKeys) 0 [] =
    .done false ([.recordValueBegin none (.newComputed (t! "a")), .bool true,
      .recordValueEnd none (.newComputed (t! "a"))], 1) := by decide +kernel

/-- Onto a map it makes no difference. -/
example : affordable .map ((entries twoKeys).getLast (by simp [twoKeys, entries])) = true ∧
    affordable .record ((entries twoKeys).getLast (by simp [twoKeys, entries])) = false := by decide

/-- A key in two pieces needs an allocator, a number among them does not. -/
example : borrowable [] ((toks (.text none [.borrowed (t! "a"), .borrowed (t! "b")])).flatMap scraps) = false ∧
    borrowable [] ((toks (.seq none [.text none [.borrowed (t! "a")], .int .u8 1, .text none [.borrowed (t! "b")]])).flatMap scraps)
      = true := by decide

end Sval
