import Verif.Flatten.Keys

set_option autoImplicit false

/-!
# What comes out for the entries of a value
-/

namespace Sval.Flatten

/-! ## Numbering -/

/-- The offset an entry brings with it can be added to the one flattening started at. -/
def beginFits (k : Int) (e : Entry) : Prop :=
  ∀ i, e.index = some i → i.tag = some tags.VALUE_OFFSET → isIsize i.val → isIsize (i.val + k)

/-- There is an offset after that of an entry. -/
def endFits (k c : Int) (e : Entry) : Prop := isIsize (last c (place k c e) + 1)

/-- The offsets of one entry stay in the range of `isize`, if that is checked. -/
def stepRange (b : Bool) (k c : Int) (e : Entry) : Prop := b = true → beginFits k e ∧ endFits k c e

theorem isIsize_after (c : Int) (i : Index) : isIsize (after c i) := isIsize_wrap _

theorem inRange_cons {b : Bool} {k c : Int} {e : Entry} {r : List Entry} (h : b = true → inRange k c (e :: r)) :
    stepRange b k c e ∧ (b = true → inRange k (after c (place k c e)) r) :=
  ⟨fun hb => ⟨(h hb).1, (h hb).2.1⟩, fun hb => (h hb).2.2⟩

theorem nextBegin_eq {b : Bool} (a : Alloc) (e : Entry) (hc : isIsize a.current) (h : b = true → beginFits a.initial e) :
    a.nextBegin b e.index = some (place a.initial a.current e) := by
  unfold Alloc.nextBegin place
  cases hi : e.index with
  | none => simp only [offset_eq hc]
  | some i =>
    simp only [toIsize_eq]
    cases ht : i.tag with
    | none => simp
    | some t =>
      by_cases hv : isIsize i.val
      · simp only [if_pos hv]
        by_cases htt : t = tags.VALUE_OFFSET
        · subst htt
          have : b = true → isIsize (i.val + a.initial) := fun hb => h hb i hi ht hv
          simp only [if_true, addIsize_eq this, Option.map_some, offset_eq (isIsize_wrap _), true_and, if_pos hv]
        · simp [htt]
      · simp [hv]

theorem nextBegin_none (a : Alloc) (e : Entry) (h : ¬ beginFits a.initial e) : a.nextBegin true e.index = none := by
  unfold beginFits at h
  cases hi : e.index with
  | none => exact absurd (fun i h => by rw [hi] at h; cases h) h
  | some i =>
    by_cases hn : i.tag = some tags.VALUE_OFFSET ∧ isIsize i.val ∧ ¬ isIsize (i.val + a.initial)
    · obtain ⟨h1, h2, h3⟩ := hn
      simp only [Alloc.nextBegin, h1, toIsize_eq, if_pos h2, if_true, addIsize_none h3, Option.map_none]
    · refine absurd (fun j hj ht hv => ?_) h
      rw [hi] at hj
      cases hj
      exact Classical.byContradiction fun hx => hn ⟨ht, hv, hx⟩

theorem nextEnd_last (b : Bool) (a : Alloc) (e : Entry) (hc : isIsize a.current) (h : b = true → beginFits a.initial e) :
    a.nextEnd b e.index =
      (addIsize b (last a.current (place a.initial a.current e)) 1).map
        fun c => (place a.initial a.current e, ⟨a.initial, c⟩) := by
  unfold Alloc.nextEnd
  rw [nextBegin_eq a e hc h]
  simp only [toIsize_eq]
  have : (if isIsize (place a.initial a.current e).val then some (place a.initial a.current e).val else none).getD a.current =
      last a.current (place a.initial a.current e) := by
    unfold last
    split <;> rfl
  rw [this]
  cases addIsize b (last a.current (place a.initial a.current e)) 1 <;> rfl

theorem nextEnd_eq {b : Bool} (a : Alloc) (e : Entry) (hc : isIsize a.current) (h : stepRange b a.initial a.current e) :
    a.nextEnd b e.index =
      some (place a.initial a.current e, ⟨a.initial, after a.current (place a.initial a.current e)⟩) := by
  rw [nextEnd_last b a e hc fun hb => (h hb).1, addIsize_eq fun hb => (h hb).2]
  rfl

theorem nextEnd_none (a : Alloc) (e : Entry) (hc : isIsize a.current) (hb : beginFits a.initial e)
    (h : ¬ endFits a.initial a.current e) : a.nextEnd true e.index = none := by
  rw [nextEnd_last true a e hc fun _ => hb, addIsize_none h]
  rfl

/-! ## The begin and end of an entry -/

/-- The calls that begin an entry. -/
def beginToks (kind : Kind) (seen : Bool) (t : Option Tag) (l : Label) (i : Index) : List Token :=
  match kind with
  | .record => [.recordValueBegin t l]
  | .tuple => [.tupleValueBegin t i]
  | .seq => [.seqValueBegin]
  | .recordTuple => [.recordTupleValueBegin t l i]
  | .map => (if seen then [] else [.mapKeyBegin] ++ labelText l ++ [.mapKeyEnd]) ++ [.mapValueBegin]

/-- The calls that end an entry. -/
def endToks (kind : Kind) (t : Option Tag) (l : Label) (i : Index) : List Token :=
  match kind with
  | .record => [.recordValueEnd t l]
  | .tuple => [.tupleValueEnd t i]
  | .seq => [.seqValueEnd]
  | .recordTuple => [.recordTupleValueEnd t l i]
  | .map => [.mapValueEnd]

theorem agrees_flatBegin {cfg : Cfg} {σ : Type} (S : Token → σ → Res Unit σ) (t : Option Tag) (l : Label) (i : Index)
    (c : Ctl) (s : σ) (h : cfg.kind = .map ∨ c.side.seen = false) :
    Agrees { c with side := { c.side with seen := false } } (flatBegin cfg S t l i ⟨c, s⟩)
      (run S (beginToks cfg.kind c.side.seen t l i) s) := by
  obtain ⟨⟨label, seen⟩, alloc, key, depth, inEnum, inKey⟩ := c
  have hts := fun t c => agrees_toStream (cfg := cfg) S t c s
  have hv := fun c s => agrees_toStream (cfg := cfg) S .mapValueBegin c s
  have hta := fun ts c => agrees_toStreamAll (cfg := cfg) S ts c s
  unfold flatBegin beginToks
  cases hk : cfg.kind <;> simp only [hk, reduceCtorEq, false_or] at h <;>
    simp only [hk, streamFx] at hts <;> try (cases h; exact hts _ _)
  simp only [hk, streamFx, seenAfter] at hv
  rw [run_append]
  cases seen with
  | true =>
    simp only [if_true, Res.bind_ok, run_nil]
    exact hv _ s
  | false =>
    have h1 := hta ([.mapKeyBegin] ++ labelText l ++ [.mapKeyEnd]) ⟨⟨label, false⟩, alloc, key, depth, inEnum, inKey⟩
    simp only [Bool.false_eq_true, if_false]
    have hfold : ([Token.mapKeyBegin] ++ labelText l ++ [Token.mapKeyEnd]).foldl (fun d t => streamFx cfg.kind t d) ⟨label, false⟩ = ⟨label, true⟩ := by
      unfold labelText
      cases l.asStaticStr <;> simp [streamFx, hk, seenAfter]
    simp only [hfold] at h1
    refine Agrees.bind h1 fun s => ?_
    exact hv _ s

theorem agrees_flatEnd {cfg : Cfg} {σ : Type} (S : Token → σ → Res Unit σ) (t : Option Tag) (l : Label) (i : Index)
    (c : Ctl) (s : σ) : Agrees c (flatEnd cfg S t l i ⟨c, s⟩) (run S (endToks cfg.kind t l i) s) := by
  have h : ∀ t, t = .mapValueEnd ∨ cfg.kind ≠ .map → Agrees c (toStream cfg S t ⟨c, s⟩) (run S [t] s) := by
    intro t ht
    have := agrees_toStream (cfg := cfg) S t c s
    have hf : streamFx cfg.kind t c.side = c.side := by
      unfold streamFx
      cases hk : cfg.kind <;> try rfl
      rcases ht with rfl | ht
      · rfl
      · exact absurd hk ht
    rwa [hf] at this
  unfold flatEnd endToks
  cases hk : cfg.kind <;> exact h _ (by simp [hk])

/-- An index that needs no text. -/
abbrev small (i : Index) : Prop := -2 ^ 63 ≤ i.val ∧ i.val ≤ 2 ^ 64 - 1

theorem index_label (cfg : Cfg) (i : Index) (ha : cfg.alloc = true ∨ small i) :
    ∃ b, LabelBuf.index cfg.alloc i .empty = .ok b ∧ b.content cfg.ryu = intDec i.val := by
  obtain ⟨b, h, h'⟩ := LabelBuf.pushes_index (ryu := cfg.ryu) .empty i
  refine ⟨b, ?_, ?_⟩
  · cases hc : cfg.alloc with
    | true => exact h
    | false =>
      have hs : small i := ha.resolve_left (by simp [hc])
      have := LabelBuf.scraped_index .empty i
      rw [if_pos hs] at this
      rcases this with ⟨l, h1, h2, _⟩ | ⟨l, _, h2⟩
      · rw [h1, ← h2, h]
      · cases h2 []
  · have := congrArg Prod.snd h'
    rw [show (b.abs cfg.ryu).2 = b.content cfg.ryu from rfl] at this
    rw [this]
    split <;> simp [applyAll, Ev.apply, LabelBuf.abs]

/-- An entry without a key that can be identified: with an allocator, with a label of its own, or by an index that
needs no text. -/
def Named (cfg : Cfg) (l : Option Label) (i : Option Index) : Prop :=
  cfg.alloc = true ∨ l ≠ none ∨ ∀ j, i = some j → small j

theorem withIndexLabel_eq {σ : Type} (cfg : Cfg) (i : Index) (l : Option Label)
    (ha : cfg.alloc = true ∨ l ≠ none ∨ small i) (f : Label → Act σ) (st : St σ) :
    withIndexLabel cfg i l f st = f (labelOf (fun _ => []) ⟨none, none, l, none, .null⟩ i) st := by
  unfold withIndexLabel
  cases l with
  | some l => rfl
  | none =>
    obtain ⟨b, h, h'⟩ := index_label cfg i (by simpa using ha)
    simp [h, h', labelOf]

/-! ## One entry -/

/-- The state between entries. -/
structure Flat (cfg : Cfg) (c : Ctl) (d : Int) : Prop where
  depth : c.depth = d
  key : c.inKey = false
  seen : c.side.seen = false
  label : c.side.label = .empty
  range : isIsize c.alloc.current

/-- The calls of one entry, its value being streamed by `body`. -/
def emitOne (kind : Kind) (K : V → Text) (body : V → List Token) (x : Entry × Index) : List Token :=
  match kind with
  | .map =>
    [.mapKeyBegin] ++ (match x.1.key with | some k => toks k | none => toks (labelV (labelOf K x.1 x.2))) ++
      [.mapKeyEnd, .mapValueBegin] ++ body x.1.val ++ [.mapValueEnd]
  | _ => beginToks kind false x.1.tag (labelOf K x.1 x.2) x.2 ++ body x.1.val ++
      endToks kind x.1.tag (labelOf K x.1 x.2) x.2

def emit (kind : Kind) (K : V → Text) (body : V → List Token) (es : List (Entry × Index)) : List Token :=
  es.flatMap (emitOne kind K body)

theorem labelText_eq (l : Label) : labelText l = toks (labelV l) := by
  unfold labelText labelV Label.asStaticStr
  by_cases h : l.backing = .static <;> simp [h, toks, textFragTok]

theorem emitOne_begin (kind : Kind) (K : V → Text) (body : V → List Token) (e : Entry) (i : Index) (h : e.key = none) :
    emitOne kind K body (e, i) =
      beginToks kind false e.tag (labelOf K e i) i ++ (body e.val ++ endToks kind e.tag (labelOf K e i) i) := by
  unfold emitOne beginToks
  cases kind <;> simp [h, endToks, labelText_eq]

/-- The calls `ts` contribute the entry `e`. -/
def Contributes (cfg : Cfg) (K : V → Text) (ts : List Token) (e : Entry) : Prop :=
  ∀ c : Ctl, Flat cfg c 1 → stepRange cfg.checks c.alloc.initial c.alloc.current e →
    ∃ c', Does cfg ts c (emitOne cfg.kind K broken (e, place c.alloc.initial c.alloc.current e)) c' ∧ Flat cfg c' 1 ∧
      c'.inEnum = c.inEnum ∧
      c'.alloc = ⟨c.alloc.initial, after c.alloc.current (place c.alloc.initial c.alloc.current e)⟩

theorem flatValue {σ : Type} {cfg : Cfg} {c : Ctl} (h : Flat cfg c 1) (s : σ) (a b p : Act σ) :
    flattenableValue a b p ⟨c, s⟩ = b ⟨c, s⟩ := by
  simp [flattenableValue, h.depth]

theorem withBegin_eq {σ : Type} {cfg : Cfg} {c : Ctl} (e : Entry) (hc : isIsize c.alloc.current)
    (hr : cfg.checks = true → beginFits c.alloc.initial e) (s : σ) (f : Index → Act σ) :
    withBegin cfg e.index f ⟨c, s⟩ = f (place c.alloc.initial c.alloc.current e) ⟨c, s⟩ := by
  unfold withBegin
  simp only [nextBegin_eq c.alloc e hc hr]

theorem withBegin_panic {σ : Type} {cfg : Cfg} (hk : cfg.checks = true) {c : Ctl} (e : Entry)
    (hr : ¬ beginFits c.alloc.initial e) (s : σ) (f : Index → Act σ) : withBegin cfg e.index f ⟨c, s⟩ = .panic := by
  unfold withBegin
  simp only [hk, nextBegin_none c.alloc e hr]

theorem withEnd_eq {σ : Type} {cfg : Cfg} {c : Ctl} (e : Entry) (hc : isIsize c.alloc.current)
    (hr : stepRange cfg.checks c.alloc.initial c.alloc.current e) (s : σ) (f : Index → Act σ) :
    withEnd cfg e.index f ⟨c, s⟩ = f (place c.alloc.initial c.alloc.current e)
      ⟨{ c with alloc := ⟨c.alloc.initial, after c.alloc.current (place c.alloc.initial c.alloc.current e)⟩ }, s⟩ := by
  unfold withEnd
  simp only [nextEnd_eq c.alloc e hc hr]

theorem withEnd_panic {σ : Type} {cfg : Cfg} (hk : cfg.checks = true) {c : Ctl} (e : Entry) (hc : isIsize c.alloc.current)
    (hb : beginFits c.alloc.initial e) (hr : ¬ endFits c.alloc.initial c.alloc.current e) (s : σ) (f : Index → Act σ) :
    withEnd cfg e.index f ⟨c, s⟩ = .panic := by
  unfold withEnd
  simp only [hk, nextEnd_none c.alloc e hc hb hr]

/-- A named entry is placed at an index that needs no text. -/
theorem place_small {cfg : Cfg} {e : Entry} {k c : Int} (h : Named cfg e.label e.index) (hc : isIsize c) :
    cfg.alloc = true ∨ e.label ≠ none ∨ small (place k c e) := by
  rcases h with h | h | h
  · exact .inl h
  · exact .inr (.inl h)
  · refine .inr (.inr ?_)
    unfold place
    cases hi : e.index with
    | none => exact ⟨hc.1, by have := hc.2; show c ≤ _; omega⟩
    | some i =>
      by_cases hp : i.tag = some tags.VALUE_OFFSET ∧ isIsize i.val
      · have := isIsize_wrap (i.val + k)
        simp only [if_pos hp]
        exact ⟨this.1, by have := this.2; show wrap (i.val + k) ≤ _; omega⟩
      · simp only [if_neg hp]
        exact h i hi

/-- What the begin of an entry that is not from a map does. -/
def opensEntry {σ : Type} (cfg : Cfg) (S : Token → σ → Res Unit σ) (e : Entry) : Act σ :=
  withBegin cfg e.index fun i => withIndexLabel cfg i e.label fun l => flatBegin cfg S e.tag l i

/-- What its end does. -/
def closesEntry {σ : Type} (cfg : Cfg) (S : Token → σ → Res Unit σ) (e : Entry) : Act σ :=
  withEnd cfg e.index fun i => withIndexLabel cfg i e.label fun l => flatEnd cfg S e.tag l i

theorem labelOf_plain (K : V → Text) (e : Entry) (hk : e.key = none) (i : Index) :
    labelOf K e i = labelOf (fun _ => []) ⟨none, none, e.label, none, .null⟩ i := by
  unfold labelOf
  rw [hk]
  cases e.label <;> rfl

/-- The begin of an entry that has its offset. -/
theorem does_opensEntry {cfg : Cfg} {K : V → Text} (e : Entry) (hk : e.key = none) (hn : Named cfg e.label e.index) (c : Ctl)
    (hs : c.side.seen = false) (hc : isIsize c.alloc.current) (hr : cfg.checks = true → beginFits c.alloc.initial e)
    {σ : Type} (S : Token → σ → Res Unit σ) (s : σ) :
    Agrees c (opensEntry cfg S e ⟨c, s⟩)
      (run S (beginToks cfg.kind false e.tag (labelOf K e (place c.alloc.initial c.alloc.current e))
        (place c.alloc.initial c.alloc.current e)) s) := by
  unfold opensEntry
  rw [withBegin_eq e hc hr, withIndexLabel_eq cfg _ _ (place_small hn hc), labelOf_plain K e hk]
  have := agrees_flatBegin (cfg := cfg) S e.tag (labelOf (fun _ => []) ⟨none, none, e.label, none, .null⟩
    (place c.alloc.initial c.alloc.current e)) (place c.alloc.initial c.alloc.current e) c s (.inr hs)
  obtain ⟨⟨label, seen⟩, alloc, key, depth, inEnum, inKey⟩ := c
  cases hs
  exact this

/-- The end of an entry that has an offset after it. -/
theorem does_closesEntry {cfg : Cfg} {K : V → Text} (e : Entry) (hk : e.key = none) (hn : Named cfg e.label e.index) (c : Ctl)
    (hc : isIsize c.alloc.current) (hr : stepRange cfg.checks c.alloc.initial c.alloc.current e)
    {σ : Type} (S : Token → σ → Res Unit σ) (s : σ) :
    Agrees { c with alloc := ⟨c.alloc.initial, after c.alloc.current (place c.alloc.initial c.alloc.current e)⟩ }
      (closesEntry cfg S e ⟨c, s⟩)
      (run S (endToks cfg.kind e.tag (labelOf K e (place c.alloc.initial c.alloc.current e))
        (place c.alloc.initial c.alloc.current e)) s) := by
  unfold closesEntry
  rw [withEnd_eq e hc hr, withIndexLabel_eq cfg _ _ (place_small hn hc), labelOf_plain K e hk]
  exact agrees_flatEnd S _ _ _ _ s

/-- The calls `b` and `f` are the begin and end of the entry `e`. -/
def Plain (cfg : Cfg) (b f : Token) (e : Entry) : Prop :=
  ∀ (σ : Type) (S : Token → σ → Res Unit σ) (c : Ctl) (s : σ), Flat cfg c 1 →
    call cfg S b ⟨c, s⟩ = opensEntry cfg S e ⟨c, s⟩ ∧ call cfg S f ⟨c, s⟩ = closesEntry cfg S e ⟨c, s⟩

/-- An entry that is not from a map: a begin that numbers it, its value, an end that numbers it. -/
theorem Plain.contributes {cfg : Cfg} {K : V → Text} {e : Entry} {b f : Token} (h : Plain cfg b f e) (hk : e.key = none)
    (hn : Named cfg e.label e.index) : Contributes cfg K ([b] ++ (toks e.val ++ [f])) e := by
  intro c hc hr
  refine ⟨{ c with alloc := ⟨c.alloc.initial, after c.alloc.current (place c.alloc.initial c.alloc.current e)⟩ }, ?_,
    ⟨hc.depth, hc.key, hc.seen, hc.label, isIsize_after _ _⟩, rfl, rfl⟩
  rw [emitOne_begin _ _ _ _ _ hk]
  refine Does.append (c1 := c) (does_one fun σ S s => ?_) (Does.append (c1 := c) ?_ (does_one fun σ S s => ?_))
  · rw [(h σ S c s hc).1]
    exact does_opensEntry e hk hn c hc.seen hc.range (fun hb => (hr hb).1) S s
  · exact does_pass cfg e.val c hc.key (by rw [hc.depth]; decide) hc.seen
  · rw [(h σ S c s hc).2]
    exact does_closesEntry e hk hn c hc.range hr S s

section
variable {cfg : Cfg} (K : V → Text)

theorem plain_seq (x : V) : Plain cfg .seqValueBegin .seqValueEnd { val := x } :=
  fun σ S c s hc => ⟨by simp only [call, flatValue hc]; rfl, by simp only [call, flatValue hc]; rfl⟩

theorem plain_record (t : Option Tag) (l : Label) (x : V) :
    Plain cfg (.recordValueBegin t l) (.recordValueEnd t l) { tag := t, label := some l, val := x } :=
  fun σ S c s hc => ⟨by simp only [call, flatValue hc]; rfl, by simp only [call, flatValue hc]; rfl⟩

theorem plain_tuple (t : Option Tag) (i : Index) (x : V) :
    Plain cfg (.tupleValueBegin t i) (.tupleValueEnd t i) { tag := t, index := some i, val := x } :=
  fun σ S c s hc => ⟨by simp only [call, flatValue hc]; rfl, by simp only [call, flatValue hc]; rfl⟩

theorem plain_recordTuple (t : Option Tag) (l : Label) (i : Index) (x : V) :
    Plain cfg (.recordTupleValueBegin t l i) (.recordTupleValueEnd t l i)
      { tag := t, label := some l, index := some i, val := x } :=
  fun σ S c s hc => ⟨by simp only [call, flatValue hc]; rfl, by simp only [call, flatValue hc]; rfl⟩

theorem contributes_seq (x : V) :
    Contributes cfg K ([.seqValueBegin] ++ (toks x ++ [.seqValueEnd])) { val := x } :=
  (plain_seq x).contributes rfl (.inr (.inr fun j hj => nomatch hj))

theorem contributes_record (t : Option Tag) (l : Label) (x : V) :
    Contributes cfg K ([.recordValueBegin t l] ++ (toks x ++ [.recordValueEnd t l])) { tag := t, label := some l, val := x } :=
  (plain_record t l x).contributes rfl (.inr (.inl (by simp)))

theorem contributes_tuple (t : Option Tag) (i : Index) (x : V) (hi : Named cfg none (some i)) :
    Contributes cfg K ([.tupleValueBegin t i] ++ (toks x ++ [.tupleValueEnd t i])) { tag := t, index := some i, val := x } :=
  (plain_tuple t i x).contributes rfl hi

theorem contributes_recordTuple (t : Option Tag) (l : Label) (i : Index) (x : V) :
    Contributes cfg K ([.recordTupleValueBegin t l i] ++ (toks x ++ [.recordTupleValueEnd t l i]))
      { tag := t, label := some l, index := some i, val := x } :=
  (plain_recordTuple t l i x).contributes rfl (.inr (.inl (by simp)))

/-- The label buffer between the key of an entry and its value. -/
def keyBuf (kind : Kind) (k : V) : LabelBuf :=
  match kind with
  | .record | .recordTuple => (toks k).foldl (fun b t => LabelBuf.eff t b) .empty
  | _ => .empty

theorem label_fold (kind : Kind) (ts : List Token) (d : Side) :
    ts.foldl (fun d t => labelFx kind t d) d =
      match kind with
      | .record | .recordTuple => { d with label := ts.foldl (fun b t => LabelBuf.eff t b) d.label }
      | .tuple | .seq => d
      | .map => { d with seen := ts.foldl (fun b t => seenAfter t b) d.seen } := by
  induction ts generalizing d with
  | nil => cases kind <;> rfl
  | cons t ts ih => rw [List.foldl_cons, ih]; cases kind <;> rfl

/-- A key that the label buffer, if there is one, can keep. -/
def Keyed (cfg : Cfg) (k : V) : Prop :=
  cfg.kind.labelled → run (LabelBuf.call cfg.alloc) (toks k) .empty = .ok (keyBuf cfg.kind k)

theorem keyed_alloc (ha : cfg.alloc = true) (k : V) : Keyed cfg k := by
  intro h
  rw [ha, LabelBuf.run_true]
  unfold keyBuf
  rcases h with h | h <;> rw [h]

/-- The calls of a key. -/
theorem does_keyToks (k : V) (hk : Keyed cfg k) (seen : Bool) (alloc : Alloc) (key : LabelBuf) (d : Int) (hd : 0 < d)
    (inEnum : Bool) :
    Does cfg (toks k) ⟨⟨.empty, seen⟩, alloc, key, d, inEnum, true⟩ ((toks k).flatMap (labelOut cfg.kind))
      ⟨(toks k).foldl (fun d t => labelFx cfg.kind t d) ⟨.empty, seen⟩, alloc, key, d, inEnum, true⟩ := by
  by_cases hl : cfg.kind.labelled
  · intro σ S s
    have := keys_value hl inEnum k d hd σ S .empty seen alloc key s
    rw [hk hl] at this
    simp only at this
    rw [this, label_fold]
    unfold labelOut keyBuf
    have e0 : ∀ ts : List Token, (ts.flatMap fun _ => ([] : List Token)) = [] := by simp
    rcases hl with h | h <;> rw [h] <;> simp only [reduceCtorEq, if_false, e0] <;> rfl
  · exact (mode_key cfg hl).value k ⟨⟨.empty, seen⟩, alloc, key, d, inEnum, true⟩ rfl hd

/-- From the begin of a key to the begin of its value. -/
theorem does_key (k : V) (hk' : Keyed cfg k) (c : Ctl) (h : Flat cfg c 1) :
    Does cfg ([.mapKeyBegin] ++ (toks k ++ [.mapKeyEnd])) c
      (if cfg.kind = .map then [.mapKeyBegin] ++ (toks k ++ [.mapKeyEnd]) else [])
      { c with side := ⟨keyBuf cfg.kind k, decide (cfg.kind = .map)⟩ } := by
  obtain ⟨⟨label, seen⟩, alloc, key, depth, inEnum, inKey⟩ := c
  obtain ⟨hd, hk, hs, hl, -⟩ := h
  cases hd; cases hk; cases hs; cases hl
  have e1 : labelFx cfg.kind .mapKeyBegin ⟨.empty, false⟩ = ⟨.empty, false⟩ := by cases cfg.kind <;> rfl
  have h1 : Does cfg [.mapKeyBegin] ⟨⟨.empty, false⟩, alloc, key, 1, inEnum, false⟩ (labelOut cfg.kind .mapKeyBegin)
      ⟨⟨.empty, false⟩, alloc, key, 1, inEnum, true⟩ := by
    refine does_one fun σ S s => ?_
    simp only [call, flattenableValue, if_true]
    rw [← Res.bind_pure (run S _ s)]
    have := agrees_toLabel (cfg := cfg) S .mapKeyBegin ⟨⟨.empty, false⟩, alloc, key, 1, inEnum, false⟩ s fun _ => rfl
    rw [e1] at this
    exact this.bind fun s => rfl
  have h2 := does_keyToks k hk' false alloc key 1 (by simp) inEnum
  have e3 : labelFx cfg.kind .mapKeyEnd ((toks k).foldl (fun d t => labelFx cfg.kind t d) ⟨.empty, false⟩) =
      ⟨keyBuf cfg.kind k, decide (cfg.kind = .map)⟩ := by
    rw [label_fold]
    cases cfg.kind <;> rfl
  have h3 : Does cfg [.mapKeyEnd]
      ⟨(toks k).foldl (fun d t => labelFx cfg.kind t d) ⟨.empty, false⟩, alloc, key, 1, inEnum, true⟩
      (labelOut cfg.kind .mapKeyEnd)
      ⟨⟨keyBuf cfg.kind k, decide (cfg.kind = .map)⟩, alloc, key, 1, inEnum, false⟩ := by
    refine does_one fun σ S s => ?_
    simp only [call, flattenableValue, if_true]
    rw [← Res.bind_pure (run S _ s)]
    have := agrees_toLabel (cfg := cfg) S .mapKeyEnd
      ⟨(toks k).foldl (fun d t => labelFx cfg.kind t d) ⟨.empty, false⟩, alloc, key, 1, inEnum, true⟩ s fun _ => rfl
    rw [e3] at this
    exact this.bind fun s => rfl
  have hout : ∀ ts : List Token, ts.flatMap (labelOut cfg.kind) = if cfg.kind = .map then ts else [] := by
    intro ts
    unfold labelOut
    by_cases hk : cfg.kind = .map
    · simp [hk]
    · simp [hk]
  have := h1.append (h2.append h3)
  rw [hout] at this
  have hX : labelOut cfg.kind .mapKeyBegin ++ ((if cfg.kind = .map then toks k else []) ++ labelOut cfg.kind .mapKeyEnd) =
      if cfg.kind = .map then [.mapKeyBegin] ++ (toks k ++ [.mapKeyEnd]) else [] := by
    unfold labelOut
    by_cases hk : cfg.kind = .map <;> simp [hk]
  rw [hX] at this
  exact this

/-- The label a map entry gets. -/
def keyText (ryu : UInt64 → Text) (k : V) : Text := kept (pieces ryu k)

theorem keyBuf_content (kind : Kind) (h : kind = .record ∨ kind = .recordTuple) (ryu : UInt64 → Text) (k : V) :
    (keyBuf kind k).content ryu = keyText ryu k := by
  rcases h with rfl | rfl <;> exact key_label ryu k

/-- Labels only matter to records and record tuples. -/
theorem beginToks_label (kind : Kind) (t : Option Tag) (l l' : Label) (i : Index) (b : Bool) (hb : b = decide (kind = .map))
    (h : kind = .record ∨ kind = .recordTuple → l = l') :
    beginToks kind b t l i = beginToks kind (decide (kind = .map)) t l' i := by
  subst hb
  cases kind
  · rw [h (.inl rfl)]
  · rfl
  · rfl
  · rw [h (.inr rfl)]
  · rfl

theorem endToks_label (kind : Kind) (t : Option Tag) (l l' : Label) (i : Index)
    (h : kind = .record ∨ kind = .recordTuple → l = l') : endToks kind t l i = endToks kind t l' i := by
  cases kind
  · rw [h (.inl rfl)]
  · rfl
  · rfl
  · rw [h (.inr rfl)]
  · rfl

/-- The calls of an entry of a map but the last. -/
theorem does_mapOpen (k v : V) (hk' : Keyed cfg k) (alloc : Alloc) (key : LabelBuf) (inEnum : Bool)
    (hrg : isIsize alloc.current) :
    Does cfg ([.mapKeyBegin] ++ (toks k ++ [.mapKeyEnd]) ++ ([.mapValueBegin] ++ toks v))
      ⟨⟨.empty, false⟩, alloc, key, 1, inEnum, false⟩
      ((if cfg.kind = .map then [.mapKeyBegin] ++ (toks k ++ [.mapKeyEnd]) else []) ++
        (beginToks cfg.kind (decide (cfg.kind = .map)) none
          (labelOf (keyText cfg.ryu) { key := some k, val := v } (place alloc.initial alloc.current { key := some k, val := v }))
          (place alloc.initial alloc.current { key := some k, val := v }) ++ broken v))
      ⟨⟨.empty, false⟩, alloc, keyBuf cfg.kind k, 1, inEnum, false⟩ := by
  have hkey := does_key k hk' ⟨⟨.empty, false⟩, alloc, key, 1, inEnum, false⟩ ⟨rfl, rfl, rfl, rfl, hrg⟩
  let e : Entry := { key := some k, val := v }
  let ix := place alloc.initial alloc.current e
  let kb := keyBuf cfg.kind k
  have hlab : cfg.kind = .record ∨ cfg.kind = .recordTuple →
      Label.newComputed (kb.content cfg.ryu) = labelOf (keyText cfg.ryu) e ix := by
    intro h
    show _ = Label.newComputed (keyText cfg.ryu k)
    rw [← keyBuf_content cfg.kind h]
  have h4 : Does cfg [.mapValueBegin] ⟨⟨kb, decide (cfg.kind = .map)⟩, alloc, key, 1, inEnum, false⟩
      (beginToks cfg.kind (decide (cfg.kind = .map)) none (labelOf (keyText cfg.ryu) e ix) ix)
      ⟨⟨.empty, false⟩, alloc, kb, 1, inEnum, false⟩ := by
    refine does_one fun σ S s => ?_
    have hx : call cfg S .mapValueBegin ⟨⟨⟨kb, decide (cfg.kind = .map)⟩, alloc, key, 1, inEnum, false⟩, s⟩ =
        flatBegin cfg S none (Label.newComputed (kb.content cfg.ryu)) ix
          ⟨⟨⟨.empty, decide (cfg.kind = .map)⟩, alloc, kb, 1, inEnum, false⟩, s⟩ := by
      have hb := fun c' : Ctl => fun h : c'.alloc = alloc =>
        withBegin_eq (σ := σ) (cfg := cfg) (c := c') e (by rw [h]; exact hrg) (fun _ i hi => nomatch hi) s
      simp only [call, flattenableValue, if_true, mapValueBegin]
      have hT : takeLabel cfg ⟨⟨⟨kb, decide (cfg.kind = .map)⟩, alloc, key, 1, inEnum, false⟩, s⟩ =
          (kb, ⟨⟨⟨.empty, decide (cfg.kind = .map)⟩, alloc, key, 1, inEnum, false⟩, s⟩) := by
        unfold takeLabel
        simp only [kb, keyBuf]
        cases cfg.kind <;> rfl
      rw [hT]
      have := hb ⟨⟨.empty, decide (cfg.kind = .map)⟩, alloc, kb, 1, inEnum, false⟩ rfl
        (fun i => flatBegin cfg S none (Label.newComputed (kb.content cfg.ryu)) i)
      exact this
    rw [hx]
    have := agrees_flatBegin (cfg := cfg) S none (Label.newComputed (kb.content cfg.ryu)) ix
      ⟨⟨.empty, decide (cfg.kind = .map)⟩, alloc, kb, 1, inEnum, false⟩ s (by
        by_cases h : cfg.kind = .map
        · exact .inl h
        · exact .inr (by simp [h]))
    rw [beginToks_label cfg.kind none _ _ ix _ rfl hlab] at this
    exact this
  have h5 := does_pass cfg v ⟨⟨.empty, false⟩, alloc, kb, 1, inEnum, false⟩ rfl (by simp) rfl
  exact hkey.append (h4.append h5)

theorem emitOne_map (kind : Kind) (K : V → Text) (body : V → List Token) (k v : V) (i : Index) :
    emitOne kind K body ({ key := some k, val := v }, i) =
      ((if kind = .map then [.mapKeyBegin] ++ (toks k ++ [.mapKeyEnd]) else []) ++
        (beginToks kind (decide (kind = .map)) none (labelOf K { key := some k, val := v } i) i ++ body v)) ++
      endToks kind none (labelOf K { key := some k, val := v } i) i := by
  unfold emitOne
  cases kind <;> simp [beginToks, endToks]

theorem contributes_map (k v : V) (hk' : Keyed cfg k) :
    Contributes cfg (keyText cfg.ryu)
      ([.mapKeyBegin] ++ (toks k ++ [.mapKeyEnd]) ++ ([.mapValueBegin] ++ (toks v ++ [.mapValueEnd])))
      { key := some k, val := v } := by
  intro c hc hr
  obtain ⟨⟨label, seen⟩, alloc, key, depth, inEnum, inKey⟩ := c
  obtain ⟨hd, hk, hs, hl, hrg⟩ := hc
  cases hd; cases hk; cases hs; cases hl
  have hkey := does_mapOpen k v hk' alloc key inEnum hrg
  let e : Entry := { key := some k, val := v }
  let ix := place alloc.initial alloc.current e
  let kb := keyBuf cfg.kind k
  have hlab : cfg.kind = .record ∨ cfg.kind = .recordTuple →
      Label.newComputed (kb.content cfg.ryu) = labelOf (keyText cfg.ryu) e ix := by
    intro h
    show _ = Label.newComputed (keyText cfg.ryu k)
    rw [← keyBuf_content cfg.kind h]
  refine ⟨⟨⟨.empty, false⟩, ⟨alloc.initial, after alloc.current ix⟩, kb, 1, inEnum, false⟩, ?_,
    ⟨rfl, rfl, rfl, rfl, isIsize_after _ _⟩, rfl, rfl⟩
  have h6 : Does cfg [.mapValueEnd] ⟨⟨.empty, false⟩, alloc, kb, 1, inEnum, false⟩
      (endToks cfg.kind none (labelOf (keyText cfg.ryu) e ix) ix)
      ⟨⟨.empty, false⟩, ⟨alloc.initial, after alloc.current ix⟩, kb, 1, inEnum, false⟩ := by
    refine does_one fun σ S s => ?_
    have := withEnd_eq (σ := σ) (c := ⟨⟨.empty, false⟩, alloc, kb, 1, inEnum, false⟩) e hrg hr s
      (fun i => flatEnd cfg S none (Label.newComputed (kb.content cfg.ryu)) i)
    have hx : call cfg S .mapValueEnd ⟨⟨⟨.empty, false⟩, alloc, kb, 1, inEnum, false⟩, s⟩ = _ := this
    rw [hx, ← endToks_label cfg.kind none _ _ ix hlab]
    exact agrees_flatEnd S _ _ _ _ s
  have := hkey.append h6
  rw [← emitOne_map] at this
  simpa using this

end

/-! ## Entries that cannot be identified without an allocator -/

/-- The calls `ts` on the flattener make the calls `X`, and then it fails. -/
def Stops (cfg : Cfg) (ts : List Token) (c : Ctl) (X : List Token) : Prop :=
  ∀ (σ : Type) (S : Token → σ → Res Unit σ) (s : σ),
    match run S X s with
    | .ok s' | .err _ s' => ∃ c', run (call cfg S) ts ⟨c, s⟩ = .err () ⟨c', s'⟩
    | .panic => run (call cfg S) ts ⟨c, s⟩ = .panic

theorem Does.stops {cfg : Cfg} {a b X Y : List Token} {c c' : Ctl} (h : Does cfg a c X c') (h' : Stops cfg b c' Y) :
    Stops cfg (a ++ b) c (X ++ Y) := by
  intro σ S s
  rw [run_append, run_append]
  have := h σ S s
  cases hr : run (call cfg S) a ⟨c, s⟩ <;> cases hq : run S X s <;> rw [hr, hq] at this <;> simp only [Agrees] at this
  · subst this; exact h' σ S _
  · subst this; exact ⟨_, rfl⟩
  · rfl

theorem Stops.append {cfg : Cfg} {a X : List Token} {c : Ctl} (h : Stops cfg a c X) (b : List Token) :
    Stops cfg (a ++ b) c X := by
  intro σ S s
  have := h σ S s
  rw [run_append]
  cases hq : run S X s <;> rw [hq] at this
  · obtain ⟨c', this⟩ := this; rw [this]; exact ⟨c', rfl⟩
  · obtain ⟨c', this⟩ := this; rw [this]; exact ⟨c', rfl⟩
  · simp only at this ⊢; rw [this]; rfl

theorem stops_one {cfg : Cfg} {t : Token} {c : Ctl}
    (h : ∀ (σ : Type) (S : Token → σ → Res Unit σ) (s : σ), ∃ c', call cfg S t ⟨c, s⟩ = .err () ⟨c', s⟩) :
    Stops cfg [t] c [] := by
  intro σ S s
  obtain ⟨c', h⟩ := h σ S s
  exact ⟨c', by rw [run_one, h]⟩

/-- A large index that is not an offset. -/
theorem place_large {e : Entry} {k c : Int} {i : Index} (hi : e.index = some i) (h : ¬ small i) : place k c e = i := by
  unfold place
  rw [hi]
  have : ¬ isIsize i.val := by unfold small at h; unfold isIsize; omega
  simp only [this, and_false, if_false]

theorem withIndexLabel_stuck {σ : Type} (cfg : Cfg) (ha : cfg.alloc = false) (i : Index) (h : ¬ small i) (f : Label → Act σ)
    (st : St σ) : withIndexLabel cfg i none f st = .err () st := by
  unfold withIndexLabel
  have := LabelBuf.scraped_index .empty i
  rw [if_neg h] at this
  rcases this with ⟨l, _, _, h'⟩ | ⟨l, h1, _⟩
  · cases h' []
  · simp only [ha, h1]

theorem stops_tuple {cfg : Cfg} (ha : cfg.alloc = false) (t : Option Tag) (i : Index) (x : V) (hi : ¬ small i) (c : Ctl)
    (hc : Flat cfg c 1) (hr : stepRange cfg.checks c.alloc.initial c.alloc.current { tag := t, index := some i, val := x }) :
    Stops cfg ([.tupleValueBegin t i] ++ (toks x ++ [.tupleValueEnd t i])) c [] := by
  refine (stops_one fun σ S s => ⟨c, ?_⟩).append _
  have := withBegin_eq { tag := t, index := some i, val := x } hc.range (fun hb => (hr hb).1) s
    fun i => withIndexLabel cfg i none fun l => flatBegin cfg S t l i
  simp only [call, flatValue hc, this, place_large (e := { tag := t, index := some i, val := x }) rfl hi,
    withIndexLabel_stuck cfg ha i hi]

theorem stops_map {cfg : Cfg} (ha : cfg.alloc = false) (hl : cfg.kind.labelled) (k v : V)
    (hk : borrowable [] ((toks k).flatMap scraps) = false) (c : Ctl) (hc : Flat cfg c 1) :
    Stops cfg ([.mapKeyBegin] ++ (toks k ++ [.mapKeyEnd]) ++ ([.mapValueBegin] ++ (toks v ++ [.mapValueEnd]))) c [] := by
  obtain ⟨⟨label, seen⟩, alloc, key, depth, inEnum, inKey⟩ := c
  obtain ⟨hd, hk', hs, hl', -⟩ := hc
  cases hd; cases hk'; cases hs; cases hl'
  have h1 : Does cfg [.mapKeyBegin] ⟨⟨.empty, false⟩, alloc, key, 1, inEnum, false⟩ []
      ⟨⟨.empty, false⟩, alloc, key, 1, inEnum, true⟩ := by
    refine does_one fun σ S s => ?_
    simp only [call, flattenableValue, if_true, toLabel]
    rcases hl with h | h <;> rw [h] <;> rfl
  have h2 : Stops cfg (toks k) ⟨⟨.empty, false⟩, alloc, key, 1, inEnum, true⟩ [] := by
    intro σ S s
    have := keys_value hl inEnum k 1 (by simp) σ S .empty false alloc key s
    rw [ha] at this
    obtain ⟨l, h⟩ := LabelBuf.run_stuck (toks k) hk
    rw [h] at this
    exact this
  exact (h1.stops (h2.append _)).append _

/-! ## All the entries -/

theorem number_cons (k c : Int) (e : Entry) (r : List Entry) :
    number k c (e :: r) = ((e, place k c e) :: (number k (after c (place k c e)) r).1, (number k (after c (place k c e)) r).2) := rfl

theorem does_entries {cfg : Cfg} {K : V → Text} (L : List (List Token × Entry))
    (h : ∀ x ∈ L, Contributes cfg K x.1 x.2) : ∀ c : Ctl, Flat cfg c 1 →
      (cfg.checks = true → inRange c.alloc.initial c.alloc.current (L.map Prod.snd)) →
      ∃ c', Does cfg (L.flatMap Prod.fst) c
          (emit cfg.kind K broken (number c.alloc.initial c.alloc.current (L.map Prod.snd)).1) c' ∧
        Flat cfg c' 1 ∧ c'.inEnum = c.inEnum ∧
        c'.alloc = ⟨c.alloc.initial, (number c.alloc.initial c.alloc.current (L.map Prod.snd)).2⟩ := by
  induction L with
  | nil => intro c hc _; exact ⟨c, Does.nil cfg c, hc, rfl, rfl⟩
  | cons x L ih =>
    intro c hc hr
    obtain ⟨ts, e⟩ := x
    simp only [List.map_cons] at hr
    obtain ⟨hs, hr⟩ := inRange_cons hr
    obtain ⟨c1, h1, h2, h3, h4⟩ := h (ts, e) (by simp) c hc hs
    obtain ⟨c2, g1, g2, g3, g4⟩ := ih (fun x hx => h x (by simp [hx])) c1 h2 (by rw [h4]; exact hr)
    refine ⟨c2, ?_, g2, g3.trans h3, ?_⟩
    · rw [h4] at g1
      have := h1.append g1
      simpa [number_cons, emit] using this
    · rw [g4, h4]; rfl

/-- Entries up to one that the flattener stops at. -/
theorem stops_entries {cfg : Cfg} {K : V → Text} (p : Entry → Bool) (L : List (List Token × Entry))
    (h : ∀ x ∈ L, p x.2 = true → Contributes cfg K x.1 x.2)
    (h' : ∀ x ∈ L, p x.2 = false → ∀ c : Ctl, Flat cfg c 1 → stepRange cfg.checks c.alloc.initial c.alloc.current x.2 →
      Stops cfg x.1 c [])
    (hp : ∃ x ∈ L, p x.2 = false) : ∀ c : Ctl, Flat cfg c 1 →
      (cfg.checks = true → inRange c.alloc.initial c.alloc.current (L.map Prod.snd)) →
      Stops cfg (L.flatMap Prod.fst) c
        (emit cfg.kind K broken (number c.alloc.initial c.alloc.current ((L.map Prod.snd).takeWhile p)).1) := by
  induction L with
  | nil => obtain ⟨x, hx, _⟩ := hp; cases hx
  | cons x L ih =>
    intro c hc hr
    obtain ⟨ts, e⟩ := x
    simp only [List.map_cons] at hr
    obtain ⟨hs, hr⟩ := inRange_cons hr
    cases hpe : p e with
    | true =>
      have hp' : ∃ x ∈ L, p x.2 = false := by
        obtain ⟨x, hx, hx'⟩ := hp
        rcases List.mem_cons.mp hx with rfl | hx
        · rw [hpe] at hx'; cases hx'
        · exact ⟨x, hx, hx'⟩
      obtain ⟨c1, h1, h2, h3, h4⟩ := h (ts, e) (by simp) hpe c hc hs
      have g1 := ih (fun x hx => h x (by simp [hx])) (fun x hx => h' x (by simp [hx])) hp' c1 h2 (by rw [h4]; exact hr)
      rw [h4] at g1
      have := h1.stops g1
      simpa [number_cons, emit, hpe] using this
    | false =>
      have := (h' (ts, e) (by simp) hpe c hc hs).append (L.flatMap Prod.fst)
      simpa [hpe, number, emit] using this

end Sval.Flatten
