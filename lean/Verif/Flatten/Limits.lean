import Verif.Flatten.Root

set_option autoImplicit false

/-!
# What comes out for values with offsets beyond the limits of `isize`
-/

namespace Sval.Flatten

instance (k : Int) (e : Entry) : Decidable (beginFits k e) :=
  match h : e.index with
  | none => .isTrue (fun i hi => by rw [h] at hi; cases hi)
  | some i =>
    decidable_of_iff (i.tag = some tags.VALUE_OFFSET → isIsize i.val → isIsize (i.val + k))
      ⟨fun H j hj => by rw [h] at hj; cases hj; exact H, fun H => H i h⟩

instance (k c : Int) (e : Entry) : Decidable (endFits k c e) := inferInstanceAs (Decidable (isIsize _))

/-- The calls of one entry that does not fit: none, or all but the last. -/
def cutOne (kind : Kind) (K : V → Text) (body : V → List Token) (k c : Int) (e : Entry) : List Token :=
  if beginFits k e then (emitOne kind K body (e, place k c e)).dropLast else []

/-- The calls of entries up to the first that does not fit. -/
def cut (kind : Kind) (K : V → Text) (body : V → List Token) (k : Int) : Int → List Entry → List Token
  | _, [] => []
  | c, e :: r =>
    if beginFits k e ∧ endFits k c e then
      emitOne kind K body (e, place k c e) ++ cut kind K body k (after c (place k c e)) r
    else cutOne kind K body k c e

variable {cfg : Cfg}

theorem breaks_one {t : Token} {c : Ctl} (h : ∀ (σ : Type) (S : Token → σ → Res Unit σ) (s : σ), call cfg S t ⟨c, s⟩ = .panic) :
    Breaks cfg [t] c [] := by
  intro σ S s
  rw [run_one, h]
  trivial

theorem endToks_one (kind : Kind) (t : Option Tag) (l : Label) (i : Index) : ∃ x, endToks kind t l i = [x] := by
  cases kind <;> exact ⟨_, rfl⟩

/-- The calls `ts` contribute the entry `e`, up to the panic. -/
def Bursts (cfg : Cfg) (K : V → Text) (ts : List Token) (e : Entry) : Prop :=
  ∀ c : Ctl, Flat cfg c 1 → ¬ (beginFits c.alloc.initial e ∧ endFits c.alloc.initial c.alloc.current e) →
    Breaks cfg ts c (cutOne cfg.kind K broken c.alloc.initial c.alloc.current e)

theorem cut_plain (K : V → Text) (kind : Kind) (body : V → List Token) (k c : Int) (e : Entry) (hk : e.key = none)
    (h : beginFits k e) : cutOne kind K body k c e =
      beginToks kind false e.tag (labelOf K e (place k c e)) (place k c e) ++ (body e.val ++ []) := by
  unfold cutOne
  obtain ⟨x, hx⟩ := endToks_one kind e.tag (labelOf K e (place k c e)) (place k c e)
  rw [if_pos h, emitOne_begin _ _ _ _ _ hk, hx, ← List.append_assoc, List.dropLast_concat, List.append_nil]

theorem Plain.bursts (hck : cfg.checks = true) {K : V → Text} {e : Entry} {b f : Token} (h : Plain cfg b f e) (hk : e.key = none)
    (hn : Named cfg e.label e.index) : Bursts cfg K ([b] ++ (toks e.val ++ [f])) e := by
  intro c hc hr
  by_cases hb : beginFits c.alloc.initial e
  · have he : ¬ endFits c.alloc.initial c.alloc.current e := fun he => hr ⟨hb, he⟩
    rw [cut_plain K _ _ _ _ e hk hb]
    refine Does.breaks (c' := c) (does_one fun σ S s => ?_) (Does.breaks (c' := c) ?_ (breaks_one fun σ S s => ?_))
    · rw [(h σ S c s hc).1]
      exact does_opensEntry e hk hn c hc.seen hc.range (fun _ => hb) S s
    · exact does_pass cfg e.val c hc.key (by rw [hc.depth]; decide) hc.seen
    · rw [(h σ S c s hc).2]
      exact withEnd_panic hck e hc.range hb he s _
  · unfold cutOne
    rw [if_neg hb]
    refine (breaks_one fun σ S s => ?_).append _
    rw [(h σ S c s hc).1]
    exact withBegin_panic hck e hb s _

theorem bursts_map (hck : cfg.checks = true) (k v : V) (hk' : Keyed cfg k) :
    Bursts cfg (keyText cfg.ryu)
      ([.mapKeyBegin] ++ (toks k ++ [.mapKeyEnd]) ++ ([.mapValueBegin] ++ (toks v ++ [.mapValueEnd])))
      { key := some k, val := v } := by
  intro c hc hr
  obtain ⟨⟨label, seen⟩, alloc, key, depth, inEnum, inKey⟩ := c
  obtain ⟨hd, hk, hs, hl, hrg⟩ := hc
  cases hd; cases hk; cases hs; cases hl
  have hb : beginFits alloc.initial { key := some k, val := v } := fun i hi => nomatch hi
  have he : ¬ endFits alloc.initial alloc.current { key := some k, val := v } := fun he => hr ⟨hb, he⟩
  have hkey := does_mapOpen k v hk' alloc key inEnum hrg
  have h6 : Breaks cfg [.mapValueEnd] ⟨⟨.empty, false⟩, alloc, keyBuf cfg.kind k, 1, inEnum, false⟩ [] :=
    breaks_one fun σ S s => by
      have := withEnd_panic (σ := σ) hck (c := ⟨⟨.empty, false⟩, alloc, keyBuf cfg.kind k, 1, inEnum, false⟩)
        { key := some k, val := v } hrg hb he s
        (fun i => flatEnd cfg S none (Label.newComputed ((keyBuf cfg.kind k).content cfg.ryu)) i)
      exact this
  have := hkey.breaks h6
  unfold cutOne
  rw [if_pos hb, emitOne_map]
  obtain ⟨x, hx⟩ := endToks_one cfg.kind none (labelOf (keyText cfg.ryu) { key := some k, val := v }
    (place alloc.initial alloc.current { key := some k, val := v })) (place alloc.initial alloc.current { key := some k, val := v })
  rw [hx, List.dropLast_concat]
  simpa using this

theorem inRange_iff (k c : Int) (e : Entry) (r : List Entry) :
    inRange k c (e :: r) ↔ (beginFits k e ∧ endFits k c e) ∧ inRange k (after c (place k c e)) r :=
  ⟨fun h => ⟨⟨h.1, h.2.1⟩, h.2.2⟩, fun h => ⟨h.1.1, h.1.2, h.2⟩⟩

theorem bursts_entries {K : V → Text} (L : List (List Token × Entry))
    (h : ∀ x ∈ L, Contributes cfg K x.1 x.2) (h' : ∀ x ∈ L, Bursts cfg K x.1 x.2) : ∀ c : Ctl, Flat cfg c 1 →
      ¬ inRange c.alloc.initial c.alloc.current (L.map Prod.snd) →
      Breaks cfg (L.flatMap Prod.fst) c
        (cut cfg.kind K broken c.alloc.initial c.alloc.current (L.map Prod.snd)) := by
  induction L with
  | nil => intro c hc hr; exact absurd trivial hr
  | cons x L ih =>
    intro c hc hr
    obtain ⟨ts, e⟩ := x
    simp only [List.map_cons] at hr
    rw [inRange_iff] at hr
    simp only [List.map_cons, List.flatMap_cons, cut]
    by_cases hs : beginFits c.alloc.initial e ∧ endFits c.alloc.initial c.alloc.current e
    · rw [if_pos hs]
      obtain ⟨c1, h1, h2, h3, h4⟩ := h (ts, e) (by simp) c hc (fun _ => hs)
      have g1 := ih (fun x hx => h x (by simp [hx])) (fun x hx => h' x (by simp [hx])) c1 h2
        (by rw [h4]; exact fun hx => hr ⟨hs, hx⟩)
      rw [h4] at g1
      exact h1.breaks g1
    · rw [if_neg hs]
      exact (h' (ts, e) (by simp) c hc hs).append _

theorem bursts_container (o e : Token) (ts : List Token) (L : List (List Token × Entry)) (ho : isOpen o = true)
    (hts : ts = L.flatMap Prod.fst) (h : ∀ x ∈ L, Contributes cfg (keyText cfg.ryu) x.1 x.2)
    (h' : ∀ x ∈ L, Bursts cfg (keyText cfg.ryu) x.1 x.2) (c : Ctl) (hc : Flat cfg c 0)
    (hr : ¬ inRange c.alloc.initial c.alloc.current (L.map Prod.snd)) :
    Breaks cfg (o :: (ts ++ [e])) c
      (cut cfg.kind (keyText cfg.ryu) broken c.alloc.initial c.alloc.current (L.map Prod.snd)) := by
  obtain ⟨side, alloc, key, depth, inEnum, inKey⟩ := c
  obtain ⟨hd, hk, hs, hl, hrg⟩ := hc
  cases hd; cases hk
  have h1 : Does cfg [o] ⟨side, alloc, key, 0, inEnum, false⟩ [] ⟨side, alloc, key, 1, inEnum, false⟩ := by
    refine does_one fun σ S s => ?_
    cases o <;> first | exact Bool.noConfusion ho | rfl
  have h2 := bursts_entries L h h' ⟨side, alloc, key, 1, inEnum, false⟩ ⟨rfl, rfl, hs, hl, hrg⟩ hr
  rw [hts]
  exact h1.breaks (h2.append [e])

theorem bursts_variant (hck : cfg.checks = true) (m : Meta) (v : V) (hn : Named cfg m.label m.index) (c : Ctl)
    (hc : Flat cfg c 0) (he : c.inEnum = true)
    (hr : ¬ inRange c.alloc.initial c.alloc.current [variant m v]) :
    Breaks cfg ([.taggedBegin m] ++ (toks v ++ [.taggedEnd m])) c
      (cut cfg.kind (keyText cfg.ryu) broken c.alloc.initial c.alloc.current [variant m v]) := by
  obtain ⟨⟨label, seen⟩, alloc, key, depth, inEnum, inKey⟩ := c
  obtain ⟨hd, hk, hs, hl, hrg⟩ := hc
  cases hd; cases hk; cases he; cases hs; cases hl
  have hr' : ¬ (beginFits alloc.initial (variant m v) ∧ endFits alloc.initial alloc.current (variant m v)) := fun h =>
    hr ((inRange_iff _ _ _ _).mpr ⟨h, trivial⟩)
  simp only [cut, if_neg hr']
  by_cases hb : beginFits alloc.initial (variant m v)
  · have he : ¬ endFits alloc.initial alloc.current (variant m v) := fun he => hr' ⟨hb, he⟩
    rw [cut_plain (keyText cfg.ryu) _ _ _ _ (variant m v) rfl hb]
    refine Does.breaks (c' := ⟨⟨.empty, false⟩, alloc, key, 1, true, false⟩) (does_one fun σ S s => ?_)
      (Does.breaks (c' := ⟨⟨.empty, false⟩, alloc, key, 1, true, false⟩) ?_ (breaks_one fun σ S s => ?_))
    · exact (call_variantBegin m v ⟨.empty, false⟩ alloc key S s) ▸
        does_opensEntry (variant m v) rfl hn ⟨⟨.empty, false⟩, alloc, key, 1, true, false⟩ rfl hrg (fun _ => hb) S s
    · exact does_pass cfg v ⟨⟨.empty, false⟩, alloc, key, 1, true, false⟩ rfl (by simp) rfl
    · rw [call_variantEnd m v]
      have := withEnd_panic (σ := σ) hck (c := ⟨⟨.empty, false⟩, alloc, key, 1, true, false⟩) (variant m v) hrg hb he s
        (fun i => withIndexLabel cfg i (variant m v).label fun l => flatEnd cfg S (variant m v).tag l i)
      unfold closesEntry
      rw [this]
      rfl
  · unfold cutOne
    rw [if_neg hb]
    refine (breaks_one fun σ S s => ?_).append _
    exact (call_variantBegin m v ⟨.empty, false⟩ alloc key S s).trans
      (withBegin_panic hck (c := ⟨⟨.empty, false⟩, alloc, key, 1, true, false⟩) (variant m v) hb s _)

/-- A value with an offset that does not fit. -/
theorem bursts_value (hck : cfg.checks = true) (v : V) : ∀ c : Ctl, Flat cfg c 0 →
    (∀ e ∈ rootEntries c.inEnum v, Cheap cfg e) → ¬ inRange c.alloc.initial c.alloc.current (rootEntries c.inEnum v) →
    Breaks cfg (toks v) c
      (cut cfg.kind (keyText cfg.ryu) broken c.alloc.initial c.alloc.current (rootEntries c.inEnum v)) := by
  have cont : ∀ (c : Ctl) (v : V) (es : List Entry), (∀ b, rootEntries b v = es) →
      ((∀ e ∈ es, Cheap cfg e) → ¬ inRange c.alloc.initial c.alloc.current es →
        Breaks cfg (toks v) c (cut cfg.kind (keyText cfg.ryu) broken c.alloc.initial c.alloc.current es)) →
      (∀ e ∈ rootEntries c.inEnum v, Cheap cfg e) → ¬ inRange c.alloc.initial c.alloc.current (rootEntries c.inEnum v) →
      Breaks cfg (toks v) c
        (cut cfg.kind (keyText cfg.ryu) broken c.alloc.initial c.alloc.current (rootEntries c.inEnum v)) := by
    intro c v es h H
    rw [h]
    exact H
  have none' : ∀ (c : Ctl) (v : V), (∀ b, rootEntries b v = []) →
      ¬ inRange c.alloc.initial c.alloc.current (rootEntries c.inEnum v) → False := by
    intro c v h hr
    rw [h] at hr
    exact hr trivial
  induction v using V.ind with
  | seq n xs _ =>
    intro c hc
    refine cont c _ (xs.map fun x => { val := x }) (by simp [rootEntries, entries, variantEntries]) fun _ hr => ?_
    have := bursts_container (cfg := cfg) (.seqBegin n) .seqEnd (toksSeq xs)
      (xs.map fun x => ([Token.seqValueBegin] ++ (toks x ++ [.seqValueEnd]), ({ val := x } : Entry))) rfl (toksSeq_flat xs)
      ?_ ?_ c hc (by simpa [Function.comp_def] using hr)
    · simpa [toks, Function.comp_def] using this
    · intro y hy
      obtain ⟨x, _, rfl⟩ := List.mem_map.mp hy
      exact contributes_seq _ x
    · intro y hy
      obtain ⟨x, _, rfl⟩ := List.mem_map.mp hy
      exact (plain_seq x).bursts hck rfl (.inr (.inr fun j hj => nomatch hj))
  | map n kvs _ =>
    intro c hc
    refine cont c _ (kvs.map fun x => { key := some x.1, val := x.2 }) (by simp [rootEntries, entries, variantEntries])
      fun hch hr => ?_
    have := bursts_container (cfg := cfg) (.mapBegin n) .mapEnd (toksMap kvs)
      (kvs.map fun x => ([Token.mapKeyBegin] ++ (toks x.1 ++ [.mapKeyEnd]) ++ ([.mapValueBegin] ++ (toks x.2 ++ [.mapValueEnd])),
        ({ key := some x.1, val := x.2 } : Entry))) rfl (toksMap_flat kvs) ?_ ?_ c hc
        (by simpa [Function.comp_def] using hr)
    · simpa [toks, Function.comp_def] using this
    · intro y hy
      obtain ⟨x, hx, rfl⟩ := List.mem_map.mp hy
      exact contributes_map x.1 x.2 (hch { key := some x.1, val := x.2 } (List.mem_map.mpr ⟨x, hx, rfl⟩)).keyed
    · intro y hy
      obtain ⟨x, hx, rfl⟩ := List.mem_map.mp hy
      exact bursts_map hck x.1 x.2 (hch { key := some x.1, val := x.2 } (List.mem_map.mpr ⟨x, hx, rfl⟩)).keyed
  | record m n fs _ =>
    intro c hc
    refine cont c _ (fs.map fun f => { tag := f.1, label := some f.2.1, val := f.2.2 })
      (by simp [rootEntries, entries, variantEntries]) fun _ hr => ?_
    have := bursts_container (cfg := cfg) (.recordBegin m n) (.recordEnd m) (toksRec fs)
      (fs.map fun f => ([Token.recordValueBegin f.1 f.2.1] ++ (toks f.2.2 ++ [.recordValueEnd f.1 f.2.1]),
        ({ tag := f.1, label := some f.2.1, val := f.2.2 } : Entry))) rfl (toksRec_flat fs) ?_ ?_ c hc
        (by simpa [Function.comp_def] using hr)
    · simpa [toks, Function.comp_def] using this
    · intro y hy
      obtain ⟨x, _, rfl⟩ := List.mem_map.mp hy
      exact contributes_record _ _ _ _
    · intro y hy
      obtain ⟨x, _, rfl⟩ := List.mem_map.mp hy
      exact (plain_record _ _ _).bursts hck rfl (.inr (.inl (by simp)))
  | tuple m n fs _ =>
    intro c hc
    refine cont c _ (fs.map fun f => { tag := f.1, index := some f.2.1, val := f.2.2 })
      (by simp [rootEntries, entries, variantEntries]) fun hch hr => ?_
    have := bursts_container (cfg := cfg) (.tupleBegin m n) (.tupleEnd m) (toksTup fs)
      (fs.map fun f => ([Token.tupleValueBegin f.1 f.2.1] ++ (toks f.2.2 ++ [.tupleValueEnd f.1 f.2.1]),
        ({ tag := f.1, index := some f.2.1, val := f.2.2 } : Entry))) rfl (toksTup_flat fs) ?_ ?_ c hc
        (by simpa [Function.comp_def] using hr)
    · simpa [toks, Function.comp_def] using this
    · intro y hy
      obtain ⟨x, hx, rfl⟩ := List.mem_map.mp hy
      exact contributes_tuple _ _ _ _ ((hch { tag := x.1, index := some x.2.1, val := x.2.2 }
        (List.mem_map.mpr ⟨x, hx, rfl⟩)).named rfl)
    · intro y hy
      obtain ⟨x, hx, rfl⟩ := List.mem_map.mp hy
      exact (plain_tuple _ _ _).bursts hck rfl ((hch { tag := x.1, index := some x.2.1, val := x.2.2 }
        (List.mem_map.mpr ⟨x, hx, rfl⟩)).named rfl)
  | recordTuple m n fs _ =>
    intro c hc
    refine cont c _ (fs.map fun f => { tag := f.1, label := some f.2.1, index := some f.2.2.1, val := f.2.2.2 })
      (by simp [rootEntries, entries, variantEntries]) fun _ hr => ?_
    have := bursts_container (cfg := cfg) (.recordTupleBegin m n) (.recordTupleEnd m) (toksRT fs)
      (fs.map fun f => ([Token.recordTupleValueBegin f.1 f.2.1 f.2.2.1] ++ (toks f.2.2.2 ++ [.recordTupleValueEnd f.1 f.2.1 f.2.2.1]),
        ({ tag := f.1, label := some f.2.1, index := some f.2.2.1, val := f.2.2.2 } : Entry))) rfl (toksRT_flat fs) ?_ ?_ c hc
        (by simpa [Function.comp_def] using hr)
    · simpa [toks, Function.comp_def] using this
    · intro y hy
      obtain ⟨x, _, rfl⟩ := List.mem_map.mp hy
      exact contributes_recordTuple _ _ _ _ _
    · intro y hy
      obtain ⟨x, _, rfl⟩ := List.mem_map.mp hy
      exact (plain_recordTuple _ _ _ _).bursts hck rfl (.inr (.inl (by simp)))
  | tagged m v ih =>
    intro c hc hch hr
    cases he : c.inEnum with
    | true =>
      have hE : rootEntries c.inEnum (.tagged m v) = [variant m v] := by
        simp [rootEntries, he, variantEntries]
      rw [← he, hE]
      rw [hE] at hr hch
      exact bursts_variant hck m v ((hch (variant m v) (by simp)).named rfl) c hc he hr
    | false =>
      have hE : rootEntries c.inEnum (.tagged m v) = rootEntries c.inEnum v := by simp [rootEntries, he, entries]
      rw [← he, hE]
      rw [hE] at hr hch
      have hb : Does cfg [.taggedBegin m] c [] c := does_one fun σ S s => by simp [call, he, hc.depth, Agrees]
      exact hb.breaks ((ih c hc hch hr).append [.taggedEnd m])
  | enum m v ih =>
    intro c hc
    have hE : rootEntries c.inEnum (.enum m v) = rootEntries true v := by
      cases c.inEnum <;> simp [rootEntries, entries, variantEntries]
    rw [hE]
    intro hch hr
    have hb : Does cfg [.enumBegin m] c [] { c with inEnum := true } :=
      does_one fun σ S s => by simp [call, valueAtRoot, hc.depth, Agrees]
    exact hb.breaks ((ih { c with inEnum := true } ⟨hc.depth, hc.key, hc.seen, hc.label, hc.range⟩ hch hr).append [.enumEnd m])
  | hint t v ih =>
    intro c hc
    have hE : rootEntries c.inEnum (.hint t v) = rootEntries c.inEnum v := by
      cases c.inEnum <;> simp [rootEntries, entries, variantEntries]
    rw [hE]
    intro hch hr
    have hb : Does cfg [.tagHint t] c [] c := does_one fun σ S s => by simp [call, value, valueAtRoot, hc.depth, Agrees]
    exact hb.breaks (ih c hc hch hr)
  | _ => intro c hc _ hr; exact (none' c _ (by simp [rootEntries, entries, variantEntries]) hr).elim

/-! ## Tagged enums without overflow checks -/

theorem leave_unchecked {σ : Type} (hck : cfg.checks = false) (c : Ctl) (s : σ) :
    Agrees { c with depth := c.depth - 1 } (leave cfg ⟨c, s⟩) (.ok s) := by
  simp [leave, hck, Agrees]

/-- A tagged enum comes out as its entries, and the ends of its tags. -/
theorem wraps_value (hck : cfg.checks = false) (v : V) (hch : ∀ e ∈ entries v, Cheap cfg e) (c : Ctl) (hc : Flat cfg c 0)
    (he : c.inEnum = false) (hre : rootEnum v = true) :
    ∃ c', Does cfg (toks v) c
        (emit cfg.kind (keyText cfg.ryu) broken (number c.alloc.initial c.alloc.current (entries v)).1 ++
          (enumTags v).map Token.taggedEnd) c' ∧
      c'.inEnum = true ∧ c'.inKey = false ∧ c'.depth = -((enumTags v).length : Int) ∧
      c'.alloc = ⟨c.alloc.initial, (number c.alloc.initial c.alloc.current (entries v)).2⟩ := by
  induction v using V.ind with
  | tagged m v ih =>
    have hre : rootEnum v = true := hre
    obtain ⟨c', h1, h2, h3, h4, h5⟩ := ih hch hre
    have hb : Does cfg [.taggedBegin m] c [] c := does_one fun σ S s => by simp [call, he, hc.depth, Agrees]
    have hd : c'.depth ≠ 1 := by omega
    have hf : Does cfg [.taggedEnd m] c' [.taggedEnd m]
        { c' with side := streamFx cfg.kind (.taggedEnd m) c'.side, depth := c'.depth - 1 } := does_one fun σ S s => by
      have hx : call cfg S (.taggedEnd m) ⟨c', s⟩ = (toStream cfg S (.taggedEnd m) ⟨c', s⟩).bind (leave cfg) := by
        simp [call, h2, flattenableEnd, h3, hd]
      rw [hx, ← Res.bind_pure (run S _ s)]
      exact (agrees_toStream S _ c' s).bind fun s => leave_unchecked hck _ s
    refine ⟨{ c' with side := streamFx cfg.kind (.taggedEnd m) c'.side, depth := c'.depth - 1 }, ?_, h2, h3, ?_, h5⟩
    · have := hb.append (h1.append hf)
      simpa [toks, entries, enumTags, hre] using this
    · simp only [enumTags, hre, if_true, List.length_append, List.length_cons, List.length_nil]
      rw [h4]
      omega
  | enum m v _ =>
    obtain ⟨c', h1, h2, h3, h4⟩ := flattens_value (cfg := cfg) (.enum m v) c hc (.inr rfl)
      (by rw [he]; exact hch) (fun h => by rw [hck] at h; cases h)
    refine ⟨c', ?_, by rw [h3]; simp [rootEnum], h2.key, h2.depth, by rw [h4, he]; rfl⟩
    rw [he] at h1
    simpa [enumTags, rootEntries] using h1
  | hint t v ih =>
    have hb : Does cfg [.tagHint t] c [] c := does_one fun σ S s => by simp [call, value, valueAtRoot, hc.depth, Agrees]
    obtain ⟨c', h1, h2⟩ := ih hch hre
    exact ⟨c', hb.append h1, h2⟩
  | _ => cases hre

theorem enumTags_nil {v : V} : enumTags v = [] ↔ untaggedEnum v = true := by
  induction v using V.ind with
  | tagged m v _ => cases h : rootEnum v <;> simp [enumTags, untaggedEnum, h]
  | hint t v ih => exact ih
  | _ => exact ⟨fun _ => rfl, fun _ => rfl⟩

theorem rootEnum_of_tags {v : V} (h : enumTags v ≠ []) : rootEnum v = true := by
  induction v using V.ind with
  | tagged m v _ => cases hr : rootEnum v <;> simp_all [enumTags, rootEnum]
  | hint t v ih => exact ih h
  | _ => exact absurd rfl h

end Sval.Flatten
