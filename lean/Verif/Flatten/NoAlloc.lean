import Verif.Flatten.Labels

set_option autoImplicit false

/-!
# The label buffer without an allocator
-/

namespace Sval.Flatten

namespace LabelBuf

/-- `r` and `q` are what some calls do to the buffer `b` without and with an allocator. They leave the scraps `ss`:
either both do the same, or the first fails, and then the scraps could not be borrowed. -/
def Scraped (ss : List Scrap) (b : LabelBuf) (r q : Res Unit LabelBuf) : Prop :=
  (∃ l, r = .ok l ∧ q = .ok l ∧ ∀ rest, borrowable b.textBuf.content (ss ++ rest) = borrowable l.textBuf.content rest) ∨
  (∃ l, r = .err () l ∧ ∀ rest, borrowable b.textBuf.content (ss ++ rest) = false)

theorem Scraped.ok (b : LabelBuf) : Scraped [] b (.ok b) (.ok b) := .inl ⟨b, rfl, rfl, fun _ => rfl⟩

theorem Scraped.bind {ss ss' : List Scrap} {b : LabelBuf} {r q : Res Unit LabelBuf} (h : Scraped ss b r q)
    {f g : LabelBuf → Res Unit LabelBuf} (hf : ∀ l, Scraped ss' l (f l) (g l)) :
    Scraped (ss ++ ss') b (r.bind f) (q.bind g) := by
  rcases h with ⟨l, rfl, rfl, h⟩ | ⟨l, rfl, h⟩
  · rcases hf l with ⟨l', h1, h2, h3⟩ | ⟨l', h1, h3⟩
    · exact .inl ⟨l', h1, h2, fun rest => by rw [List.append_assoc, h, h3]⟩
    · exact .inr ⟨l', h1, fun rest => by rw [List.append_assoc, h, h3]⟩
  · exact .inr ⟨l, rfl, fun rest => by rw [List.append_assoc, h]⟩

theorem scraped_computed (b : LabelBuf) (s : Text) :
    Scraped [.made] b (b.textFragmentComputed false s) (b.textFragmentComputed true s) :=
  .inr ⟨_, rfl, fun _ => rfl⟩

theorem scraped_fragment (b : LabelBuf) (s : Text) :
    Scraped [.lent s] b (b.textFragment false s) (b.textFragment true s) := by
  unfold textFragment Buf.Cow.push
  by_cases h : b.textBuf.content = []
  · simp only [h, List.length_nil, if_true]
    exact .inl ⟨_, rfl, rfl, fun rest => by rw [h]; rfl⟩
  · have : ¬ b.textBuf.content.length = 0 := by simpa using h
    simp only [this, if_false]
    exact .inr ⟨_, rfl, fun rest => by simp [h, borrowable]⟩

theorem scraped_label (b : LabelBuf) (l : Label) : Scraped [labelScrap l] b (b.label false l) (b.label true l) := by
  unfold label Label.asStaticStr labelScrap
  by_cases h : l.backing = .static
  · simp only [h, if_true]; exact scraped_fragment b _
  · simp only [h, if_false]; exact scraped_computed b _

/-- A number. -/
theorem scraped_num (b l : LabelBuf) (h : l.textBuf = Buf.Cow.new) : Scraped [.num] b (.ok l) (.ok l) :=
  .inl ⟨l, rfl, rfl, fun rest => by rw [h]; rfl⟩

theorem scraped_index (b : LabelBuf) (i : Index) :
    Scraped (if -2 ^ 63 ≤ i.val ∧ i.val ≤ 2 ^ 64 - 1 then [.num] else [.made]) b (b.index false i) (b.index true i) := by
  unfold index
  rw [toIsize_eq, toUsize_eq]
  by_cases h1 : isIsize i.val
  · have : -2 ^ 63 ≤ i.val ∧ i.val ≤ 2 ^ 64 - 1 := ⟨h1.1, by have := h1.2; omega⟩
    rw [if_pos h1, if_pos this]
    exact scraped_num _ _ rfl
  · rw [if_neg h1]
    by_cases h2 : 0 ≤ i.val ∧ i.val ≤ 2 ^ 64 - 1
    · have : -2 ^ 63 ≤ i.val ∧ i.val ≤ 2 ^ 64 - 1 := ⟨by omega, h2.2⟩
      simp only [if_pos h2, if_pos this]
      exact scraped_num _ _ rfl
    · have : ¬ (-2 ^ 63 ≤ i.val ∧ i.val ≤ 2 ^ 64 - 1) := by
        unfold isIsize at h1
        omega
      simp only [if_neg h2, if_neg this]
      refine .inr ⟨.text b.textBuf, ?_, fun _ => rfl⟩
      unfold intDecFrags
      split <;> rfl

theorem scraped_bytes (s : Bytes) (b : LabelBuf) :
    Scraped (s.map fun _ => .num) b
      (run (step false) (s.flatMap fun b => [.seqValueBegin] ++ Low.u8 caps b.toNat ++ [.seqValueEnd]) b)
      (run (step true) (s.flatMap fun b => [.seqValueBegin] ++ Low.u8 caps b.toNat ++ [.seqValueEnd]) b) := by
  induction s generalizing b with
  | nil => exact Scraped.ok b
  | cons x s ih =>
    rw [List.flatMap_cons, run_append, run_append]
    exact Scraped.bind (ss := [.num]) (scraped_num b (.u128 x.toNat) rfl) ih

theorem scraped_labelValue (l : Label) (b : LabelBuf) :
    Scraped [labelScrap l] b (run (step false) (Low.labelValue caps l) b) (run (step true) (Low.labelValue caps l) b) := by
  have h : ∀ r : Res Unit LabelBuf, (r.bind fun s => Res.ok s) = r := fun r => by cases r <;> rfl
  unfold Low.labelValue labelScrap
  cases hb : l.backing
  · simpa [Low.textValue, Low.textFragment, caps, run, step, h] using scraped_fragment b l.text
  all_goals simpa [Low.textValueComputed, run, step, h] using scraped_computed b l.text

theorem scraped_recordBegin (l : Label) (b : LabelBuf) :
    Scraped [labelScrap l] b
      (run (step false) ([.seqValueBegin] ++ [.seqBegin (some 2)] ++ [.seqValueBegin] ++ Low.labelValue caps l ++
        [.seqValueEnd] ++ [.seqValueBegin]) b)
      (run (step true) ([.seqValueBegin] ++ [.seqBegin (some 2)] ++ [.seqValueBegin] ++ Low.labelValue caps l ++
        [.seqValueEnd] ++ [.seqValueBegin]) b) := by
  simp only [run_append, Res.bind_assoc]
  exact (scraped_labelValue l b).bind fun l => Scraped.ok l

theorem scraped_call (t : Token) (b : LabelBuf) : Scraped (scraps t) b (call false t b) (call true t b) := by
  have h : ∀ r : Res Unit LabelBuf, (r.bind fun s => Res.ok s) = r := fun r => by cases r <;> rfl
  unfold call
  cases t with
  | null => simpa [Low.tok, run, step, h, scraps] using scraped_fragment b _
  | bool v => simpa [Low.tok, run, step, h, scraps] using scraped_fragment b _
  | int ty v => cases ty <;> exact scraped_num _ _ rfl
  | f32 v => exact scraped_num _ _ rfl
  | f64 v => exact scraped_num _ _ rfl
  | textFragment s => simpa [Low.tok, Low.textFragment, caps, run, step, h, scraps] using scraped_fragment b _
  | textFragmentComputed s => simpa [Low.tok, run, step, h, scraps] using scraped_computed b _
  | binaryFragment s => exact scraped_bytes s b
  | binaryFragmentComputed s => exact scraped_bytes s b
  | tag m =>
    have : ∀ a, run (step a) (Low.tok caps (.tag m)) b = step a (.tag m) b := by
      simp [Low.tok, Low.tag, caps, run, h]
    rw [this, this]
    simp only [step, scraps]
    cases hl : m.label with
    | some l => exact scraped_label b l
    | none =>
      cases hi : m.index with
      | some i => exact scraped_index b i
      | none => exact scraped_fragment b _
  | recordValueBegin t l =>
    exact scraped_recordBegin l b
  | recordTupleValueBegin t l i =>
    exact scraped_recordBegin l b
  | _ => exact Scraped.ok b

theorem scraped_run (ts : List Token) (b : LabelBuf) :
    Scraped (ts.flatMap scraps) b (run (call false) ts b) (run (call true) ts b) := by
  induction ts generalizing b with
  | nil => exact Scraped.ok b
  | cons t ts ih =>
    rw [List.flatMap_cons, run_cons, run_cons]
    exact (scraped_call t b).bind ih

theorem run_true (ts : List Token) (b : LabelBuf) : run (call true) ts b = .ok (ts.foldl (fun b t => eff t b) b) := by
  induction ts generalizing b with
  | nil => rfl
  | cons t ts ih => rw [run_cons, call_eq, Res.bind_ok, ih]; rfl

/-- Calls that leave only what can be borrowed do not need an allocator. -/
theorem run_free (ts : List Token) (h : borrowable [] (ts.flatMap scraps) = true) :
    run (call false) ts .empty = .ok (ts.foldl (fun b t => eff t b) .empty) := by
  rcases scraped_run ts .empty with ⟨l, h1, h2, _⟩ | ⟨l, _, h'⟩
  · rw [h1, ← h2, run_true]
  · have := h' []
    rw [List.append_nil] at this
    exact absurd h (by rw [show ([] : Text) = LabelBuf.empty.textBuf.content from rfl, this]; decide)

/-- Other calls fail without one. -/
theorem run_stuck (ts : List Token) (h : borrowable [] (ts.flatMap scraps) = false) :
    ∃ l, run (call false) ts .empty = .err () l := by
  rcases scraped_run ts .empty with ⟨l, _, _, h'⟩ | ⟨l, h1, _⟩
  · have := h' []
    rw [List.append_nil] at this
    rw [show ([] : Text) = LabelBuf.empty.textBuf.content from rfl, this] at h
    cases h
  · exact ⟨l, h1⟩

end LabelBuf

end Sval.Flatten
