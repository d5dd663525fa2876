import Verif.Nested.Slots

set_option autoImplicit false

namespace Sval.Nested

open Buf (Appends Replays Part Opener)

theorem prog_toks (T : List Token) : prog (T.map .tok) = .ofToks T := by
  induction T with
  | nil => rfl
  | cons t T ih =>
    simp only [List.map_cons, prog, Item.prog, Prog.ofToks, ih]
    congr 1

/-- An argument that shows a tree. -/
def Showing (a : Arg) (v : V) : Prop := ∃ q, a.prog = prog q ∧ Shows q v

theorem Showing.toks {b : Bool} {T : List Token} {v : V} (h : Shows (T.map .tok) v) : Showing ⟨b, .ofToks T⟩ v :=
  ⟨T.map .tok, (prog_toks T).symm, h⟩

theorem Showing.tok {b : Bool} {t : Token} {v : V} (h : Shows [.tok t] v) : Showing ⟨b, .ofToks [t]⟩ v := .toks (T := [t]) h

theorem showing_text (b : Bool) (s : Text) : Showing (textArg b s) (text s) := by
  refine .toks ?_
  simpa [Frag.content, textFragTok] using Shows.text (some (utf8Len s)) [.borrowed s]

theorem showing_binary (b : Bool) (s : Bytes) : Showing (binaryArg b s) (binary s) := by
  refine .toks ?_
  simpa [Frag.content, binFragTok] using Shows.binary (some s.length) [.borrowed s]

/-! ## Values in slots -/

inductive Boxes : Token → Token → Opener → Prop
  | map (n : Option Nat) : Boxes (.mapBegin n) .mapEnd (.map n)
  | seq (n : Option Nat) : Boxes (.seqBegin n) .seqEnd (.seq n)
  | enum (m : Meta) : Boxes (.enumBegin m) (.enumEnd m) (.enum (own m))
  | tagged (m : Meta) : Boxes (.taggedBegin m) (.taggedEnd m) (.tagged (own m))
  | record (m : Meta) (n : Option Nat) : Boxes (.recordBegin m n) (.recordEnd m) (.record (own m) n)
  | tuple (m : Meta) (n : Option Nat) : Boxes (.tupleBegin m n) (.tupleEnd m) (.tuple (own m) n)
  | recordTuple (m : Meta) (n : Option Nat) : Boxes (.recordTupleBegin m n) (.recordTupleEnd m) (.record (own m) n)

theorem bufferOrBegin_slot {σ : Type} (t : Token) (a : Act σ) (a' : List Meta → Act σ) (b : Buf.St) (m : Mode)
    (hm : isSlot m = true) (s : σ) (h : Buf.step true t {} = .ok b) :
    bufferOrBegin t a a' ⟨none, m, s⟩ = .ok ⟨some (.value b), m, s⟩ := by
  cases m <;> first | exact Bool.noConfusion hm | simp [bufferOrBegin, tryCatch, h]

theorem Boxes.begin {b e : Token} {o : Opener} (h : Boxes b e o) {σ : Type} (C : Cb → σ → Res Unit σ) (m : Mode)
    (hm : isSlot m = true) (s : σ) :
    call C b ⟨none, m, s⟩ = .ok ⟨some (.value { parts := [.opened o 0], stack := [0] }), m, s⟩ := by
  cases h with
  | map n => exact bufferOrBegin_slot _ _ _ _ m hm s rfl
  | seq n => exact bufferOrBegin_slot _ _ _ _ m hm s rfl
  | enum mt => exact bufferOrBegin_slot _ _ _ _ m hm s (Buf.beginMeta_true mt .enum {})
  | tagged mt => exact bufferOrBegin_slot _ _ _ _ m hm s (Buf.beginMeta_true mt .tagged {})
  | record mt n => exact bufferOrBegin_slot _ _ _ _ m hm s (Buf.beginMeta_true mt (.record · n) {})
  | tuple mt n => exact bufferOrBegin_slot _ _ _ _ m hm s (Buf.beginMeta_true mt (.tuple · n) {})
  | recordTuple mt n => exact bufferOrBegin_slot _ _ _ _ m hm s (Buf.beginMeta_true mt (.record · n) {})

theorem bufferOrEnd_complete {σ : Type} (C : Cb → σ → Res Unit σ) (t : Token) (a : Act σ) (b b' : Buf.St) (m : Mode)
    (s : σ) (h : Buf.step true t b = .ok b') (hc : Buf.isComplete b' = true) :
    bufferOrEnd C t a ⟨some (.value b), m, s⟩ =
      tryCatch (put C (.value (bufferArg b')) (bufferArg b')) ⟨none, m, s⟩ := by
  simp [bufferOrEnd, tryCatch, h, hc]

theorem Boxes.end {b e : Token} {o : Opener} (h : Boxes b e o) {σ : Type} (C : Cb → σ → Res Unit σ) (m : Mode)
    (s : σ) (buf buf' : Buf.St) (he : Buf.pushEnd buf = .ok buf') (hc : Buf.isComplete buf' = true) :
    call C e ⟨some (.value buf), m, s⟩ = tryCatch (put C (.value (bufferArg buf')) (bufferArg buf')) ⟨none, m, s⟩ := by
  cases h <;> exact bufferOrEnd_complete C _ _ _ _ m s he hc

theorem does_box {b e : Token} {o : Opener} {q : List Item} {v : V} (h : Boxes b e o)
    (hq : Keeps Fills q fun I => Shows (.tok o.begin :: (I ++ [.tok o.end])) v) (m : Mode) (hm : isSlot m = true) :
    ∃ a, Showing a v ∧ Does (.tok b :: (q ++ [.tok e])) none m (slotCb m a) none (slotNext m) := by
  obtain ⟨B, T, I, h1, h2, h3, h4⟩ := hq
  refine ⟨⟨false, prog (.tok o.begin :: (I ++ [.tok o.end]))⟩, ⟨_, rfl, h4⟩, ?_⟩
  refine Does.cons (X := []) (does_ok fun σ C s => h.begin C m hm s) ?_
  refine Does.append (X := []) (b' := some (.value { parts := .opened o 0 :: B, stack := [0] })) (m' := m) ?_ ?_
  · intro σ C s
    rw [h1 σ C m s { parts := [.opened o 0], stack := [0] } rfl (by simp)]
    rfl
  · refine does_tok fun σ C s => ?_
    have he := Buf.pushEnd_opened [] B o 0 [] { parts := .opened o 0 :: B, stack := [0] } rfl rfl
    rw [h.end C m s _ _ he (by simp [Buf.isComplete])]
    refine Agrees₀.catch ?_
    have ha : bufferArg { parts := [] ++ .opened o B.length :: B, stack := [] } =
        ⟨false, prog (.tok o.begin :: (I ++ [.tok o.end]))⟩ := by
      have hr : Buf.replay (.opened o B.length :: B) = ⟨o.begin :: (T ++ [o.end]), false⟩ := (h2.wrap o).out
      have hg := (h3.wrap o) []
      simp only [List.append_nil, regroup] at hg
      simp [bufferArg, hr, hg]
    rw [ha]
    exact agrees₀_put C _ _ m hm s

/-- In a slot, any value becomes the argument of one method. -/
theorem does_slot {q : List Item} {v : V} (h : Shows q v) (m : Mode) (hm : isSlot m = true) :
    ∃ a, Showing a v ∧ Does q none m (slotCb m a) none (slotNext m) := by
  have puts : ∀ any a, Puts m any a (slotCb m a) (slotNext m) := fun _ _ => .inr ⟨hm, rfl, rfl⟩
  induction h with
  | null => exact ⟨_, .tok .null, does_scalar (brw := true) (fun _ _ => rfl) (puts _ _)⟩
  | bool b => exact ⟨_, .tok (.bool b), does_scalar (brw := false) (fun _ _ => rfl) (puts _ _)⟩
  | int t v => exact ⟨_, .tok (.int t v), does_scalar (brw := false) (fun _ _ => rfl) (puts _ _)⟩
  | f32 b => exact ⟨_, .tok (.f32 b), does_scalar (brw := false) (fun _ _ => rfl) (puts _ _)⟩
  | f64 b => exact ⟨_, .tok (.f64 b), does_scalar (brw := false) (fun _ _ => rfl) (puts _ _)⟩
  | tag mt => exact ⟨_, .tok (.tag mt), does_tag (puts _ _)⟩
  | text n fs =>
    obtain ⟨b, h⟩ := does_text n fs m
    exact ⟨_, showing_text b _, h _ _ (puts _ _)⟩
  | binary n fs =>
    obtain ⟨b, h⟩ := does_binary n fs m
    exact ⟨_, showing_binary b _, h _ _ (puts _ _)⟩
  | seq n L h => exact does_box (.seq n) (sink_fills.seqs n L fun x hx => keeps_fills (h x hx)) m hm
  | bareSeq n L h => exact does_box (.seq n) (sink_fills.bareSeqs n L fun x hx => keeps_fills (h x hx)) m hm
  | map n L h1 h2 =>
    exact does_box (.map n) (sink_fills.maps n L (fun x hx => keeps_fills (h1 x hx)) fun x hx => keeps_fills (h2 x hx)) m hm
  | tuple mt n L h => exact does_box (.tuple mt n) (sink_fills.tuples mt n L fun x hx => keeps_fills (h x hx)) m hm
  | record mt n L h => exact does_box (.record mt n) (sink_fills.records mt n L fun x hx => keeps_fills (h x hx)) m hm
  | recordTuple mt n L h =>
    exact does_box (.recordTuple mt n) (sink_fills.recordTuples mt n L fun x hx => keeps_fills (h x hx)) m hm
  | tagged mt q v h =>
    refine does_box (.tagged mt) ((keeps_fills h).imp fun I hI => ?_) m hm
    have := Shows.tagged (own mt) I v hI
    rwa [own_own] at this
  | enum mt q v h =>
    refine does_box (.enum mt) ((keeps_fills h).imp fun I hI => ?_) m hm
    have := Shows.enum (own mt) I v hI
    rwa [own_own] at this
  | hint t q v h ih =>
    obtain ⟨a, h1, h2⟩ := ih
    exact ⟨a, h1, Does.cons (X := []) (does_ok fun _ _ _ => rfl) h2⟩
  | val q v h => exact ⟨_, ⟨q, rfl, h⟩, does_val (puts _ _)⟩
  | comp q v h => exact ⟨_, ⟨q, rfl, h⟩, does_comp (puts _ _)⟩

/-! ## Lists of slots -/

theorem does_flatMap {α β : Type} (L : List α) (f : α → List Item) (g : β → List Cb) (Q : α → β → Prop) (m : Mode)
    (ok : Mode → Prop) (hm : ok m)
    (h : ∀ x ∈ L, ∀ m, ok m → ∃ y m', Q x y ∧ Does (f x) none m (g y) none m' ∧ ok m') :
    ∃ (M : List β) (m' : Mode), List.Forall₂ Q L M ∧ Does (L.flatMap f) none m (M.flatMap g) none m' ∧ ok m' := by
  induction L generalizing m with
  | nil => exact ⟨[], m, .nil, .nil _ _, hm⟩
  | cons x L ih =>
    obtain ⟨y, m1, hy, hd, hm1⟩ := h x (by simp) m hm
    obtain ⟨M, m2, hM, hd2, hm2⟩ := ih m1 hm1 fun z hz => h z (by simp [hz])
    exact ⟨y :: M, m2, .cons hy hM, by simpa [List.flatMap_cons] using hd.append hd2, hm2⟩

theorem flatMap_one {α β : Type} (L : List α) (f : α → β) : (L.flatMap fun x => [f x]) = L.map f := by
  induction L with
  | nil => rfl
  | cons x L ih => simp [List.flatMap_cons, ih]

theorem does_seqs (L : List (List Item × V)) (h : ∀ x ∈ L, Shows x.1 x.2) (f : List Item → List Item)
    (hf : f = id ∨ f = fun q => .tok .seqValueBegin :: (q ++ [.tok .seqValueEnd])) :
    ∃ M : List (Arg × V), (∀ y ∈ M, Showing y.1 y.2) ∧ M.map (·.2) = L.map (·.2) ∧
      Does (L.flatMap fun x => f x.1) none .seq (M.map fun x => .seqValue x.1) none .seq := by
  obtain ⟨M, m', h1, h2, rfl⟩ := does_flatMap L (fun x => f x.1) (fun y : Arg × V => [.seqValue y.1])
    (fun x y => y.2 = x.2 ∧ Showing y.1 y.2) .seq (· = .seq) rfl (by
      rintro x hx _ rfl
      obtain ⟨a, ha, hd⟩ := does_slot (h x hx) .seq rfl
      refine ⟨(a, x.2), .seq, ⟨rfl, ha⟩, ?_, rfl⟩
      rcases hf with rfl | rfl
      · exact hd
      · have := Does.cons (X := []) (does_ok (t := .seqValueBegin) (b := none) (m := .seq) fun _ _ _ => rfl)
          (hd.append (does_ok (t := .seqValueEnd) fun _ _ _ => rfl))
        exact this)
  refine ⟨M, forall₂_mem h1 fun _ _ h => h.2, forall₂_map _ _ h1 fun _ _ h => h.1, ?_⟩
  rwa [flatMap_one] at h2

theorem does_maps (L : List ((List Item × V) × (List Item × V))) (h1 : ∀ x ∈ L, Shows x.1.1 x.1.2)
    (h2 : ∀ x ∈ L, Shows x.2.1 x.2.2) (k : Bool) :
    ∃ (M : List ((Arg × V) × (Arg × V))) (k' : Bool), (∀ y ∈ M, Showing y.1.1 y.1.2) ∧ (∀ y ∈ M, Showing y.2.1 y.2.2) ∧
      (M.map fun x => (x.1.2, x.2.2)) = (L.map fun x => (x.1.2, x.2.2)) ∧
      Does (L.flatMap fun x => .tok .mapKeyBegin :: (x.1.1 ++ [.tok .mapKeyEnd]) ++
        .tok .mapValueBegin :: (x.2.1 ++ [.tok .mapValueEnd])) none (.map k)
        (M.flatMap fun x => [.mapKey x.1.1, .mapValue x.2.1]) none (.map k') := by
  obtain ⟨M, m', hM, hd, k', rfl⟩ := does_flatMap L _ (fun x : (Arg × V) × (Arg × V) => [Cb.mapKey x.1.1, .mapValue x.2.1])
    (fun x y => (y.1.2 = x.1.2 ∧ y.2.2 = x.2.2) ∧ Showing y.1.1 y.1.2 ∧ Showing y.2.1 y.2.2) (.map k)
    (fun m => ∃ k, m = .map k) ⟨k, rfl⟩ (by
      rintro x hx _ ⟨k, rfl⟩
      obtain ⟨a, ha, hda⟩ := does_slot (h1 x hx) (.map true) rfl
      obtain ⟨b, hb, hdb⟩ := does_slot (h2 x hx) (.map false) rfl
      refine ⟨((a, x.1.2), (b, x.2.2)), .map false, ⟨⟨rfl, rfl⟩, ha, hb⟩, ?_, false, rfl⟩
      have d1 := Does.cons (X := []) (does_ok (t := .mapKeyBegin) (b := none) (m := .map k) fun _ _ _ => rfl)
        (hda.append (does_ok (t := .mapKeyEnd) fun _ _ _ => rfl))
      have d2 := Does.cons (X := []) (does_ok (t := .mapValueBegin) (b := none) (m := .map true) fun _ _ _ => rfl)
        (hdb.append (does_ok (t := .mapValueEnd) fun _ _ _ => rfl))
      exact d1.append d2)
  exact ⟨M, k', forall₂_mem hM fun _ _ h => h.2.1, forall₂_mem hM fun _ _ h => h.2.2,
    forall₂_map _ _ hM fun _ _ h => by rw [h.1.1, h.1.2], hd⟩

theorem does_tuples (K : Option (Option Tag × Index) → Mode) (hK : K = .tuple ∨ K = .vtuple)
    (L : List (Option Tag × Index × List Item × V)) (h : ∀ x ∈ L, Shows x.2.2.1 x.2.2.2) :
    ∃ (M : List (Option Tag × Index × Arg × V)) (f : Option (Option Tag × Index)), (∀ y ∈ M, Showing y.2.2.1 y.2.2.2) ∧
      (M.map fun x => (x.1, x.2.1, x.2.2.2)) = (L.map fun x => (x.1, x.2.1, x.2.2.2)) ∧
      Does (L.flatMap fun x => .tok (.tupleValueBegin x.1 x.2.1) :: (x.2.2.1 ++ [.tok (.tupleValueEnd x.1 x.2.1)]))
        none (K none) (M.map fun x => .tupleValue x.1 x.2.1 x.2.2.1) none (K f) := by
  obtain ⟨M, m', hM, hd, f, rfl⟩ := does_flatMap L
    (fun x => .tok (.tupleValueBegin x.1 x.2.1) :: (x.2.2.1 ++ [.tok (.tupleValueEnd x.1 x.2.1)]))
    (fun x : Option Tag × Index × Arg × V => [Cb.tupleValue x.1 x.2.1 x.2.2.1])
    (fun x y => (y.1 = x.1 ∧ y.2.1 = x.2.1 ∧ y.2.2.2 = x.2.2.2) ∧ Showing y.2.2.1 y.2.2.2) (K none)
    (fun m => ∃ f, m = K f) ⟨none, rfl⟩ (by
      rintro x hx _ ⟨f, rfl⟩
      rcases hK with rfl | rfl
      · obtain ⟨a, ha, hda⟩ := does_slot (h x hx) (.tuple (some (x.1, x.2.1))) rfl
        refine ⟨(x.1, x.2.1, a, x.2.2.2), .tuple none, ⟨⟨rfl, rfl, rfl⟩, ha⟩, ?_, none, rfl⟩
        exact Does.cons (X := []) (does_ok (t := .tupleValueBegin x.1 x.2.1) (b := none) (m := .tuple f) fun _ _ _ => rfl)
          (hda.append (does_ok (t := .tupleValueEnd x.1 x.2.1) fun _ _ _ => rfl))
      · obtain ⟨a, ha, hda⟩ := does_slot (h x hx) (.vtuple (some (x.1, x.2.1))) rfl
        refine ⟨(x.1, x.2.1, a, x.2.2.2), .vtuple none, ⟨⟨rfl, rfl, rfl⟩, ha⟩, ?_, none, rfl⟩
        exact Does.cons (X := []) (does_ok (t := .tupleValueBegin x.1 x.2.1) (b := none) (m := .vtuple f) fun _ _ _ => rfl)
          (hda.append (does_ok (t := .tupleValueEnd x.1 x.2.1) fun _ _ _ => rfl)))
  refine ⟨M, f, forall₂_mem hM fun _ _ h => h.2, forall₂_map _ _ hM fun _ _ h => by rw [h.1.1, h.1.2.1, h.1.2.2], ?_⟩
  rwa [flatMap_one] at hd

/-- The fields of a record, or of a record tuple (`rt`). -/
theorem does_records {α : Type} (K : Option (Option Tag × Label) → Mode) (hK : K = .record ∨ K = .vrecord)
    (L : List α) (tg : α → Option Tag) (lb : α → Label) (q : α → List Item) (v : α → V) (b e : α → Token)
    (hb : (∀ x, b x = .recordValueBegin (tg x) (lb x) ∧ e x = .recordValueEnd (tg x) (lb x)) ∨
      ∃ i : α → Index, ∀ x, b x = .recordTupleValueBegin (tg x) (lb x) (i x) ∧ e x = .recordTupleValueEnd (tg x) (lb x) (i x))
    (h : ∀ x ∈ L, Shows (q x) (v x)) :
    ∃ (M : List (Option Tag × Label × Arg × V)) (f : Option (Option Tag × Label)), (∀ y ∈ M, Showing y.2.2.1 y.2.2.2) ∧
      (M.map fun x => (x.1, x.2.1, x.2.2.2)) = (L.map fun x => (tg x, (lb x).toOwned, v x)) ∧
      Does (L.flatMap fun x => .tok (b x) :: (q x ++ [.tok (e x)]))
        none (K none) (M.map fun x => .recordValue x.1 x.2.1 x.2.2.1) none (K f) := by
  obtain ⟨M, m', hM, hd, f, rfl⟩ := does_flatMap L (fun x => .tok (b x) :: (q x ++ [.tok (e x)]))
    (fun x : Option Tag × Label × Arg × V => [Cb.recordValue x.1 x.2.1 x.2.2.1])
    (fun x y => (y.1 = tg x ∧ y.2.1 = (lb x).toOwned ∧ y.2.2.2 = v x) ∧ Showing y.2.2.1 y.2.2.2) (K none)
    (fun m => ∃ f, m = K f) ⟨none, rfl⟩ (by
      rintro x hx _ ⟨f, rfl⟩
      rcases hK with rfl | rfl
      · obtain ⟨a, ha, hda⟩ := does_slot (h x hx) (.record (some (tg x, (lb x).toOwned))) rfl
        refine ⟨(tg x, (lb x).toOwned, a, v x), .record none, ⟨⟨rfl, rfl, rfl⟩, ha⟩, ?_, none, rfl⟩
        rcases hb with hb | ⟨i, hb⟩
        · rw [(hb x).1, (hb x).2]
          exact Does.cons (X := []) (does_ok (b := none) (m := .record f) fun _ _ _ => rfl)
            (hda.append (does_ok fun _ _ _ => rfl))
        · rw [(hb x).1, (hb x).2]
          exact Does.cons (X := []) (does_ok (b := none) (m := .record f) fun _ _ _ => rfl)
            (hda.append (does_ok fun _ _ _ => rfl))
      · obtain ⟨a, ha, hda⟩ := does_slot (h x hx) (.vrecord (some (tg x, (lb x).toOwned))) rfl
        refine ⟨(tg x, (lb x).toOwned, a, v x), .vrecord none, ⟨⟨rfl, rfl, rfl⟩, ha⟩, ?_, none, rfl⟩
        rcases hb with hb | ⟨i, hb⟩
        · rw [(hb x).1, (hb x).2]
          exact Does.cons (X := []) (does_ok (b := none) (m := .vrecord f) fun _ _ _ => rfl)
            (hda.append (does_ok fun _ _ _ => rfl))
        · rw [(hb x).1, (hb x).2]
          exact Does.cons (X := []) (does_ok (b := none) (m := .vrecord f) fun _ _ _ => rfl)
            (hda.append (does_ok fun _ _ _ => rfl)))
  refine ⟨M, f, forall₂_mem hM fun _ _ h => h.2, forall₂_map _ _ hM fun _ _ h => by rw [h.1.1, h.1.2.1, h.1.2.2], ?_⟩
  rwa [flatMap_one] at hd

/-! ## Variants -/

theorem nested_nil (X : List Cb) : nested [] X = X := by simp [nested]

theorem nested_snoc (q : List Meta) (m : Meta) (X : List Cb) :
    nested (q ++ [m]) X = nested q (.nestedBegin m :: (X ++ [.nestedEnd m])) := by simp [nested]

/-- `value` inside an enum streams the value on the stream itself. -/
theorem does_inline {p q : List Item} {e : List Meta} {X : List Cb} {m' : Mode} (c : Bool)
    (hp : p = [if c then .comp q else .val q]) (h : Does (if c then computed q else q) none (.enum e) X none m') :
    Does p none (.enum e) X none m' := by
  subst hp
  intro σ C s
  have h0 := h σ C s
  have e1 : exec C (prog [if c then .comp q else .val q]) false ⟨none, .enum e, s⟩ =
      match exec C (prog (if c then computed q else q)) false ⟨none, .enum e, s⟩ with
      | .done true st => .done true st
      | .done false st => .done false { st with mode := .done false }
      | .panicked => .panicked := by
    cases c
    · simp only [exec_one, delegate, if_false, Bool.false_eq_true]
      rcases exec C (prog q) false _ with ⟨_ | _, st⟩ | _ <;> rfl
    · simp only [exec_one, delegate, exec_true, if_true]
      rcases exec C (prog (computed q)) false _ with ⟨_ | _, st⟩ | _ <;> rfl
  rw [e1]
  cases e2 : runCb C X s with
  | ok s' => rw [e2] at h0; simp only [Agrees] at h0; rw [h0]; rfl
  | err _ s' => rw [e2] at h0; obtain ⟨b', h0⟩ := h0; rw [h0]; exact ⟨b', rfl⟩
  | panic => rw [e2] at h0; simp only [Agrees] at h0; rw [h0]; rfl

theorem does_enumEnd (m : Meta) : Does [.tok (.enumEnd m)] none (.done true) [] none (.done true) :=
  does_ok fun _ _ _ => rfl

theorem does_taggedEnd (m : Meta) : Does [.tok (.taggedEnd m)] none (.done true) [] none (.done true) :=
  does_ok fun _ _ _ => rfl

/-- A method that changes the state. -/
theorem does_begin {t : Token} {c : Cb} {m m' : Mode}
    (h : ∀ (σ : Type) (C : Cb → σ → Res Unit σ) (s : σ),
      call C t ⟨none, m, s⟩ = tryCatch (fun st => (cb C c st).bind (toMode m')) ⟨none, m, s⟩) :
    Does [.tok t] none m [c] none m' :=
  does_tok fun σ C s => by rw [h]; exact ((agrees₀_cb C c none m s).to).catch

theorem does_variant (n : Nat) : ∀ (is : List Item) (v : V) (q : List Meta), size is ≤ n → Shows is v →
    variant (!q.isEmpty) v = true →
    ∃ X, Variant Showing X v ∧ Does is none (.enum q) (nested q X) none (.done true) := by
  induction n with
  | zero =>
    intro is v q hn h
    exfalso
    cases h <;> simp [size, Item.size] at hn
  | succ n ih =>
    intro is v q hn h hv
    cases h with
    | null => exact Bool.noConfusion hv
    | bool b => exact Bool.noConfusion hv
    | int t v => exact Bool.noConfusion hv
    | f32 b => exact Bool.noConfusion hv
    | f64 b => exact Bool.noConfusion hv
    | text n fs => exact Bool.noConfusion hv
    | binary n fs => exact Bool.noConfusion hv
    | seq n L h => exact Bool.noConfusion hv
    | bareSeq n L h => exact Bool.noConfusion hv
    | map n L h1 h2 => exact Bool.noConfusion hv
    | tag m =>
      refine ⟨_, by rw [← own_cloneMeta m]; exact .tag (cloneMeta m), does_tok fun σ C s => ?_⟩
      simp only [call]
      rw [bufferOr_none _ _ _ _ _ (by simp)]
      exact ((agrees₀_nest C q [.variantTag (cloneMeta m)] _ none _ (.enum q) (fun s => agrees₀_cb C _ _ _ s) s).to).catch
    | tuple m k L h =>
      have hq : q = [] := by cases q with
        | nil => rfl
        | cons _ _ => exact Bool.noConfusion hv
      subst hq
      obtain ⟨M, f, hM, e, hd⟩ := does_tuples .vtuple (.inr rfl) L h
      refine ⟨_, by rw [← own_cloneMeta m]; exact e ▸ Variant.tuple (cloneMeta m) k M hM, ?_⟩
      rw [nested_nil]
      refine Does.cons (X := [.variantTupleBegin (cloneMeta m) k]) (does_begin (m' := .vtuple none) fun _ _ _ => rfl) (hd.append ?_)
      exact does_begin fun _ _ _ => rfl
    | record m k L h =>
      have hq : q = [] := by cases q with
        | nil => rfl
        | cons _ _ => exact Bool.noConfusion hv
      subst hq
      obtain ⟨M, f, hM, e, hd⟩ := does_records .vrecord (.inr rfl) L (·.1) (·.2.1) (·.2.2.1) (·.2.2.2)
        _ _ (.inl fun x => ⟨rfl, rfl⟩) h
      refine ⟨_, by rw [← own_cloneMeta m]; exact e ▸ Variant.record (cloneMeta m) k M hM, ?_⟩
      rw [nested_nil]
      refine Does.cons (X := [.variantRecordBegin (cloneMeta m) k]) (does_begin (m' := .vrecord none) fun _ _ _ => rfl) (hd.append ?_)
      exact does_begin fun _ _ _ => rfl
    | recordTuple m k L h =>
      have hq : q = [] := by cases q with
        | nil => rfl
        | cons _ _ => exact Bool.noConfusion hv
      subst hq
      obtain ⟨M, f, hM, e, hd⟩ := does_records .vrecord (.inr rfl) L (·.1) (·.2.1) (·.2.2.2.1) (·.2.2.2.2)
        _ _ (.inr ⟨(·.2.2.1), fun x => ⟨rfl, rfl⟩⟩) h
      refine ⟨_, by rw [← own_cloneMeta m]; exact e ▸ Variant.record (cloneMeta m) k M hM, ?_⟩
      rw [nested_nil]
      refine Does.cons (X := [.variantRecordBegin (cloneMeta m) k]) (does_begin (m' := .vrecord none) fun _ _ _ => rfl) (hd.append ?_)
      exact does_begin fun _ _ _ => rfl
    | tagged m is v h =>
      obtain ⟨a, ha, hd⟩ := does_slot h (.vtagged (own m) q) rfl
      refine ⟨_, .tagged m a v ha, ?_⟩
      have := Does.cons (X := []) (does_ok (t := .taggedBegin m) (b := none) (m := .enum q) fun _ _ _ => rfl)
        (hd.append (does_taggedEnd m))
      simpa [slotCb] using this
    | enum m is v h =>
      have hq : (!(q ++ [own m]).isEmpty) = true := by cases q <;> rfl
      obtain ⟨X, hX, hd⟩ := ih is v (q ++ [own m]) (by simp [size, Item.size, size_append] at hn; omega) h (by rw [hq]; exact hv)
      refine ⟨_, .nested m X v hX, ?_⟩
      rw [← nested_snoc]
      have := Does.cons (X := []) (does_ok (t := .enumBegin m) (b := none) (m := .enum q) fun _ _ _ => rfl)
        (hd.append (does_enumEnd m))
      simpa using this
    | hint t is v h =>
      obtain ⟨X, hX, hd⟩ := ih is v q (by simp [size, Item.size] at hn; omega) h hv
      exact ⟨X, hX, Does.cons (X := []) (does_ok fun _ _ _ => rfl) hd⟩
    | val is v h =>
      obtain ⟨X, hX, hd⟩ := ih is v q (by simp [size, Item.size] at hn; omega) h hv
      exact ⟨X, hX, does_inline (q := is) false rfl hd⟩
    | comp is v h =>
      obtain ⟨X, hX, hd⟩ := ih (computed is) v q
        (by have := size_computed is; simp [size, Item.size] at hn; omega) h.computed hv
      exact ⟨X, hX, does_inline (q := is) true rfl hd⟩

/-! ## Any value -/

/-- An enum at the root holds a variant. -/
def rootOk : V → Bool
  | .enum _ v => variant false v
  | _ => true

theorem does_any {is : List Item} {v : V} (h : Shows is v) (hv : rootOk v = true) :
    (∃ X, Opened Showing X v ∧ Does is none .any X none (.done true)) ∨
    (∃ a q, a.prog = prog q ∧ Shows q v ∧ size q < size is ∧ Does is none .any [.value a] none (.done true)) := by
  have puts : ∀ any a, Puts .any any a [any] (.done true) := fun _ _ => .inl ⟨rfl, rfl, rfl⟩
  induction h with
  | null => exact .inl ⟨_, .null, does_scalar (brw := true) (fun _ _ => rfl) (puts _ _)⟩
  | bool b => exact .inl ⟨_, .bool b, does_scalar (brw := false) (fun _ _ => rfl) (puts _ _)⟩
  | int t v => exact .inl ⟨_, .int t v, does_scalar (brw := false) (fun _ _ => rfl) (puts _ _)⟩
  | f32 b => exact .inl ⟨_, .f32 b, does_scalar (brw := false) (fun _ _ => rfl) (puts _ _)⟩
  | f64 b => exact .inl ⟨_, .f64 b, does_scalar (brw := false) (fun _ _ => rfl) (puts _ _)⟩
  | tag mt => exact .inl ⟨_, by rw [← own_cloneMeta mt]; exact .tag (cloneMeta mt), does_tag (puts _ _)⟩
  | text n fs =>
    obtain ⟨b, h⟩ := does_text n fs .any
    exact .inl ⟨_, .text b _, h _ _ (puts _ _)⟩
  | binary n fs =>
    obtain ⟨b, h⟩ := does_binary n fs .any
    exact .inl ⟨_, .binary b _, h _ _ (puts _ _)⟩
  | seq n L h =>
    obtain ⟨M, hM, e, hd⟩ := does_seqs L h _ (.inr rfl)
    refine .inl ⟨_, e ▸ Opened.seq n M hM, ?_⟩
    refine Does.cons (X := [.seqBegin n]) (does_begin (m' := .seq) fun _ _ _ => rfl) (hd.append ?_)
    exact does_begin fun _ _ _ => rfl
  | bareSeq n L h =>
    obtain ⟨M, hM, e, hd⟩ := does_seqs L h _ (.inl rfl)
    refine .inl ⟨_, e ▸ Opened.seq n M hM, ?_⟩
    refine Does.cons (X := [.seqBegin n]) (does_begin (m' := .seq) fun _ _ _ => rfl) (hd.append ?_)
    exact does_begin fun _ _ _ => rfl
  | map n L h1 h2 =>
    obtain ⟨M, k, hM1, hM2, e, hd⟩ := does_maps L h1 h2 true
    refine .inl ⟨_, e ▸ Opened.map n M hM1 hM2, ?_⟩
    refine Does.cons (X := [.mapBegin n]) (does_begin (m' := .map true) fun _ _ _ => rfl) (hd.append ?_)
    exact does_begin fun _ _ _ => rfl
  | tuple m k L h =>
    obtain ⟨M, f, hM, e, hd⟩ := does_tuples .tuple (.inl rfl) L h
    refine .inl ⟨_, by rw [← own_cloneMeta m]; exact e ▸ Opened.tuple (cloneMeta m) k M hM, ?_⟩
    refine Does.cons (X := [.tupleBegin (cloneMeta m) k]) (does_begin (m' := .tuple none) fun _ _ _ => rfl) (hd.append ?_)
    exact does_begin fun _ _ _ => rfl
  | record m k L h =>
    obtain ⟨M, f, hM, e, hd⟩ := does_records .record (.inl rfl) L (·.1) (·.2.1) (·.2.2.1) (·.2.2.2)
      _ _ (.inl fun x => ⟨rfl, rfl⟩) h
    refine .inl ⟨_, by rw [← own_cloneMeta m]; exact e ▸ Opened.record (cloneMeta m) k M hM, ?_⟩
    refine Does.cons (X := [.recordBegin (cloneMeta m) k]) (does_begin (m' := .record none) fun _ _ _ => rfl) (hd.append ?_)
    exact does_begin fun _ _ _ => rfl
  | recordTuple m k L h =>
    obtain ⟨M, f, hM, e, hd⟩ := does_records .record (.inl rfl) L (·.1) (·.2.1) (·.2.2.2.1) (·.2.2.2.2)
      _ _ (.inr ⟨(·.2.2.1), fun x => ⟨rfl, rfl⟩⟩) h
    refine .inl ⟨_, by rw [← own_cloneMeta m]; exact e ▸ Opened.record (cloneMeta m) k M hM, ?_⟩
    refine Does.cons (X := [.recordBegin (cloneMeta m) k]) (does_begin (m' := .record none) fun _ _ _ => rfl) (hd.append ?_)
    exact does_begin fun _ _ _ => rfl
  | tagged m is v h =>
    obtain ⟨a, ha, hd⟩ := does_slot h (.tagged (own m)) rfl
    refine .inl ⟨_, by rw [← own_own m]; exact .tagged (own m) a v ha, ?_⟩
    have := Does.cons (X := []) (does_ok (t := .taggedBegin m) (b := none) (m := .any) fun _ _ _ => rfl)
      (hd.append (does_taggedEnd m))
    simpa [slotCb] using this
  | enum m is v h =>
    obtain ⟨X, hX, hd⟩ := does_variant (size is) is v [] (Nat.le_refl _) h hv
    rw [nested_nil] at hd
    refine .inl ⟨_, by rw [← own_cloneMeta m]; exact .enum (cloneMeta m) X v hX, ?_⟩
    have := Does.cons (X := [.enumBegin (cloneMeta m)]) (does_begin (t := .enumBegin m) (m := .any) (m' := .enum []) fun _ _ _ => rfl)
      (hd.append (does_enumEnd m))
    simpa using this
  | hint t is v h ih =>
    rcases ih hv with ⟨X, hX, hd⟩ | ⟨a, q, h1, h2, h3, hd⟩
    · exact .inl ⟨X, hX, Does.cons (X := []) (does_ok fun _ _ _ => rfl) hd⟩
    · exact .inr ⟨a, q, h1, h2, by simp [size, Item.size]; omega, Does.cons (X := []) (does_ok fun _ _ _ => rfl) hd⟩
  | val q v h => exact .inr ⟨_, q, rfl, h, by simp [size, Item.size], does_val (puts _ _)⟩
  | comp q v h => exact .inr ⟨_, q, rfl, h, by simp [size, Item.size], does_comp (puts _ _)⟩

theorem Does.makes {is : List Item} {X : List Cb} (h : Does is none .any X none (.done true)) : Makes false (prog is) X := by
  intro σ C s
  have h0 := h σ C s
  simp only [stream]
  cases e : runCb C X s with
  | ok s' => rw [e] at h0; simp only [Agrees] at h0; rw [h0]; simp [Res.outcome]
  | err _ s' => rw [e] at h0; obtain ⟨b', h0⟩ := h0; rw [h0]; simp [Res.outcome]
  | panic => rw [e] at h0; simp only [Agrees] at h0; rw [h0]; rfl

theorem makes_true (is : List Item) (X : List Cb) (h : Makes false (prog (computed is)) X) : Makes true (prog is) X := by
  intro σ C s
  rw [← h σ C s]
  simp only [stream, exec_true]

/-- Any way of streaming a value to a recursive stream calls the methods for that value. -/
theorem makes_any {is : List Item} {v : V} (h : Shows is v) (hv : rootOk v = true) (c : Bool) :
    (∃ X, Opened Showing X v ∧ Makes c (prog is) X) ∨
    (∃ a q, a.prog = prog q ∧ Shows q v ∧ size q < size is ∧ Makes c (prog is) [.value a]) := by
  cases c with
  | false =>
    rcases does_any h hv with ⟨X, hX, hd⟩ | ⟨a, q, h1, h2, h3, hd⟩
    · exact .inl ⟨X, hX, hd.makes⟩
    · exact .inr ⟨a, q, h1, h2, h3, hd.makes⟩
  | true =>
    rcases does_any h.computed hv with ⟨X, hX, hd⟩ | ⟨a, q, h1, h2, h3, hd⟩
    · exact .inl ⟨X, hX, makes_true _ _ hd.makes⟩
    · have := size_computed is
      exact .inr ⟨a, q, h1, h2, by omega, makes_true _ _ hd.makes⟩

/-! ## All the way down -/

theorem mem_supportedSeq {xs : List V} (h : supportedSeq xs = true) : ∀ x ∈ xs, supported x = true := by
  induction xs with
  | nil => simp
  | cons x xs ih =>
    simp only [supportedSeq, Bool.and_eq_true] at h
    intro y hy
    cases hy with
    | head => exact h.1
    | tail _ hy => exact ih h.2 y hy

theorem mem_supportedMap {xs : List (V × V)} (h : supportedMap xs = true) :
    ∀ x ∈ xs, supported x.1 = true ∧ supported x.2 = true := by
  induction xs with
  | nil => simp
  | cons x xs ih =>
    obtain ⟨k, v⟩ := x
    simp only [supportedMap, Bool.and_eq_true] at h
    intro y hy
    cases hy with
    | head => exact h.1
    | tail _ hy => exact ih h.2 y hy

theorem mem_supportedRec {xs : List (Option Tag × Label × V)} (h : supportedRec xs = true) :
    ∀ x ∈ xs, supported x.2.2 = true := by
  induction xs with
  | nil => simp
  | cons x xs ih =>
    obtain ⟨t, l, v⟩ := x
    simp only [supportedRec, Bool.and_eq_true] at h
    intro y hy
    cases hy with
    | head => exact h.1
    | tail _ hy => exact ih h.2 y hy

theorem mem_supportedTup {xs : List (Option Tag × Index × V)} (h : supportedTup xs = true) :
    ∀ x ∈ xs, supported x.2.2 = true := by
  induction xs with
  | nil => simp
  | cons x xs ih =>
    obtain ⟨t, l, v⟩ := x
    simp only [supportedTup, Bool.and_eq_true] at h
    intro y hy
    cases hy with
    | head => exact h.1
    | tail _ hy => exact ih h.2 y hy

theorem rootOk_of_supported {v : V} (h : supported v = true) : rootOk v = true := by
  cases v <;> first | rfl | (simp only [supported, Bool.and_eq_true] at h; exact h.1)

end Sval.Nested
