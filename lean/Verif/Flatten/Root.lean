import Verif.Flatten.Entries

set_option autoImplicit false

/-!
# What comes out for a whole value
-/

namespace Sval.Flatten

/-! ## The children of a container, one by one -/

theorem toksSeq_flat (xs : List V) : toksSeq xs =
    (xs.map fun x => ([Token.seqValueBegin] ++ (toks x ++ [.seqValueEnd]), ({ val := x } : Entry))).flatMap Prod.fst := by
  induction xs with
  | nil => rfl
  | cons x xs ih => simp only [List.map_cons, List.flatMap_cons, ← ih]; simp [toksSeq]

theorem toksMap_flat (kvs : List (V × V)) : toksMap kvs =
    (kvs.map fun x => ([Token.mapKeyBegin] ++ (toks x.1 ++ [.mapKeyEnd]) ++ ([.mapValueBegin] ++ (toks x.2 ++ [.mapValueEnd])),
      ({ key := some x.1, val := x.2 } : Entry))).flatMap Prod.fst := by
  induction kvs with
  | nil => rfl
  | cons x xs ih => simp only [List.map_cons, List.flatMap_cons, ← ih]; obtain ⟨k, v⟩ := x; simp [toksMap]

theorem toksRec_flat (fs : List (Option Tag × Label × V)) : toksRec fs =
    (fs.map fun f => ([Token.recordValueBegin f.1 f.2.1] ++ (toks f.2.2 ++ [.recordValueEnd f.1 f.2.1]),
      ({ tag := f.1, label := some f.2.1, val := f.2.2 } : Entry))).flatMap Prod.fst := by
  induction fs with
  | nil => rfl
  | cons x xs ih => simp only [List.map_cons, List.flatMap_cons, ← ih]; obtain ⟨t, l, v⟩ := x; simp [toksRec]

theorem toksTup_flat (fs : List (Option Tag × Index × V)) : toksTup fs =
    (fs.map fun f => ([Token.tupleValueBegin f.1 f.2.1] ++ (toks f.2.2 ++ [.tupleValueEnd f.1 f.2.1]),
      ({ tag := f.1, index := some f.2.1, val := f.2.2 } : Entry))).flatMap Prod.fst := by
  induction fs with
  | nil => rfl
  | cons x xs ih => simp only [List.map_cons, List.flatMap_cons, ← ih]; obtain ⟨t, l, v⟩ := x; simp [toksTup]

theorem toksRT_flat (fs : List (Option Tag × Label × Index × V)) : toksRT fs =
    (fs.map fun f => ([Token.recordTupleValueBegin f.1 f.2.1 f.2.2.1] ++ (toks f.2.2.2 ++ [.recordTupleValueEnd f.1 f.2.1 f.2.2.1]),
      ({ tag := f.1, label := some f.2.1, index := some f.2.2.1, val := f.2.2.2 } : Entry))).flatMap Prod.fst := by
  induction fs with
  | nil => rfl
  | cons x xs ih => simp only [List.map_cons, List.flatMap_cons, ← ih]; obtain ⟨t, l, i, v⟩ := x; simp [toksRT]

section
variable {cfg : Cfg}

/-- An entry that can be identified. -/
def Cheap (cfg : Cfg) (e : Entry) : Prop := cfg.alloc = true ∨ affordable cfg.kind e = true

theorem Cheap.keyed {k v : V} (h : Cheap cfg { key := some k, val := v }) : Keyed cfg k := by
  rcases h with h | h
  · exact keyed_alloc h k
  · cases ha : cfg.alloc with
    | true => exact keyed_alloc ha k
    | false =>
      intro hl
      rw [ha, LabelBuf.run_free]
      · unfold keyBuf
        rcases hl with h | h <;> rw [h]
      · unfold affordable at h
        rcases hl with hl | hl <;> rw [hl] at h <;> exact h

theorem Cheap.named {e : Entry} (hk : e.key = none) (h : Cheap cfg e) : Named cfg e.label e.index := by
  rcases h with h | h
  · exact .inl h
  · refine .inr ?_
    unfold affordable at h
    rw [hk] at h
    cases hl : e.label with
    | some l => exact .inl (by simp)
    | none =>
      refine .inr fun j hj => ?_
      rw [hl, hj] at h
      exact of_decide_eq_true h

/-- The entries at the root of a value, outside or inside an enum. -/
def rootEntries (inEnum : Bool) (v : V) : List Entry := if inEnum then variantEntries v else entries v

/-- The value `v` at the root comes out as its entries. -/
def Flattens (cfg : Cfg) (ts : List Token) (es : List Entry) (sets : Bool) (c : Ctl) : Prop :=
  (cfg.checks = true → inRange c.alloc.initial c.alloc.current es) →
    ∃ c', Does cfg ts c (emit cfg.kind (keyText cfg.ryu) broken (number c.alloc.initial c.alloc.current es).1) c' ∧
      Flat cfg c' 0 ∧ c'.inEnum = (c.inEnum || sets) ∧
      c'.alloc = ⟨c.alloc.initial, (number c.alloc.initial c.alloc.current es).2⟩

theorem flattens_container (o e : Token) (ts : List Token) (L : List (List Token × Entry)) (ho : isOpen o = true)
    (he : isClose e = true) (hts : ts = L.flatMap Prod.fst) (hL : ∀ x ∈ L, Contributes cfg (keyText cfg.ryu) x.1 x.2)
    (c : Ctl) (hc : Flat cfg c 0) : Flattens cfg (o :: (ts ++ [e])) (L.map Prod.snd) false c := by
  intro hr
  obtain ⟨side, alloc, key, depth, inEnum, inKey⟩ := c
  obtain ⟨hd, hk, hs, hl, hrg⟩ := hc
  cases hd; cases hk
  have h1 : Does cfg [o] ⟨side, alloc, key, 0, inEnum, false⟩ [] ⟨side, alloc, key, 1, inEnum, false⟩ := by
    refine does_one fun σ S s => ?_
    cases o <;> first | exact Bool.noConfusion ho | rfl
  obtain ⟨c1, h2, h3, h4, h5⟩ := does_entries L hL ⟨side, alloc, key, 1, inEnum, false⟩ ⟨rfl, rfl, hs, hl, hrg⟩ hr
  obtain ⟨side', alloc', key', depth', inEnum', inKey'⟩ := c1
  obtain ⟨hd, hk, hs', hl', hrg'⟩ := h3
  cases hd; cases hk
  have h6 : Does cfg [e] ⟨side', alloc', key', 1, inEnum', false⟩ [] ⟨side', alloc', key', 0, inEnum', false⟩ := by
    refine does_one fun σ S s => ?_
    cases e <;> first | exact Bool.noConfusion he | simp [call, closes, flattenableEnd, leave, Res.bind, Agrees]
  refine ⟨⟨side', alloc', key', 0, inEnum', false⟩, ?_, ⟨rfl, rfl, hs', hl', hrg'⟩, ?_, h5⟩
  · have := h1.append (h2.append h6)
    rw [hts]
    simpa using this
  · simp only [Bool.or_false]; exact h4

theorem flattens_leaf (ts : List Token) (c : Ctl) (hc : Flat cfg c 0)
    (h : ∀ t ∈ ts, isLeaf t = true ∧ (∀ m, t ≠ .enumBegin m)) : Flattens cfg ts [] false c := by
  intro _
  refine ⟨c, ?_, hc, by simp, rfl⟩
  show Does cfg ts c [] c
  induction ts with
  | nil => exact Does.nil cfg c
  | cons t ts ih =>
    have h1 : Does cfg [t] c [] c := by
      refine does_one fun σ S s => ?_
      have ⟨hl, he⟩ := h t (by simp)
      cases t with
      | enumBegin m => exact absurd rfl (he m)
      | _ => first | exact Bool.noConfusion hl | simp [call, value, valueAtRoot, hc.depth, Agrees]
    exact h1.append (ih fun t ht => h t (by simp [ht]))

/-- The entry of a variant with a value. -/
abbrev variant (m : Meta) (v : V) : Entry := { label := m.label, index := m.index, val := v }

/-- The begin of a variant, its value, and its end. -/
theorem call_variantBegin (m : Meta) (v : V) (side : Side) (alloc : Alloc) (key : LabelBuf) {σ : Type}
    (S : Token → σ → Res Unit σ) (s : σ) :
    call cfg S (.taggedBegin m) ⟨⟨side, alloc, key, 0, true, false⟩, s⟩ =
      opensEntry cfg S (variant m v) ⟨⟨side, alloc, key, 1, true, false⟩, s⟩ := rfl

theorem call_variantEnd (m : Meta) (v : V) (side : Side) (alloc : Alloc) (key : LabelBuf) {σ : Type}
    (S : Token → σ → Res Unit σ) (s : σ) :
    call cfg S (.taggedEnd m) ⟨⟨side, alloc, key, 1, true, false⟩, s⟩ =
      (closesEntry cfg S (variant m v) ⟨⟨side, alloc, key, 1, true, false⟩, s⟩).bind (leave cfg) := by
  simp [call, flattenableEnd, closesEntry]

theorem flattens_variant (m : Meta) (v : V) (hn : Named cfg m.label m.index) (c : Ctl) (hc : Flat cfg c 0)
    (he : c.inEnum = true) :
    Flattens cfg ([.taggedBegin m] ++ (toks v ++ [.taggedEnd m])) [variant m v] false c := by
  intro hr
  obtain ⟨⟨label, seen⟩, alloc, key, depth, inEnum, inKey⟩ := c
  obtain ⟨hd, hk, hs, hl, hrg⟩ := hc
  cases hd; cases hk; cases he; cases hs; cases hl
  have hr' : stepRange cfg.checks alloc.initial alloc.current (variant m v) := (inRange_cons hr).1
  let ix := place alloc.initial alloc.current (variant m v)
  refine ⟨⟨⟨.empty, false⟩, ⟨alloc.initial, after alloc.current ix⟩, key, 0, true, false⟩, ?_,
    ⟨rfl, rfl, rfl, rfl, isIsize_after _ _⟩, rfl, rfl⟩
  have h1 : Does cfg [.taggedBegin m] ⟨⟨.empty, false⟩, alloc, key, 0, true, false⟩
      (beginToks cfg.kind false none (labelOf (keyText cfg.ryu) (variant m v) ix) ix)
      ⟨⟨.empty, false⟩, alloc, key, 1, true, false⟩ := by
    refine does_one fun σ S s => ?_
    rw [call_variantBegin m v]
    exact does_opensEntry (variant m v) rfl hn ⟨⟨.empty, false⟩, alloc, key, 1, true, false⟩ rfl hrg (fun hb => (hr' hb).1) S s
  have h2 := does_pass cfg v ⟨⟨.empty, false⟩, alloc, key, 1, true, false⟩ rfl (by simp) rfl
  have h3 : Does cfg [.taggedEnd m] ⟨⟨.empty, false⟩, alloc, key, 1, true, false⟩
      (endToks cfg.kind none (labelOf (keyText cfg.ryu) (variant m v) ix) ix)
      ⟨⟨.empty, false⟩, ⟨alloc.initial, after alloc.current ix⟩, key, 0, true, false⟩ := by
    refine does_one fun σ S s => ?_
    rw [call_variantEnd m v, ← Res.bind_pure (run S _ s)]
    exact (does_closesEntry (K := keyText cfg.ryu) (variant m v) rfl hn
      ⟨⟨.empty, false⟩, alloc, key, 1, true, false⟩ hrg hr' S s).bind fun s =>
        leave_agrees ⟨⟨.empty, false⟩, ⟨alloc.initial, after alloc.current ix⟩, key, 1, true, false⟩ s Int.one_pos
  have := h1.append (h2.append h3)
  rw [← emitOne_begin cfg.kind (keyText cfg.ryu) broken (variant m v) ix rfl] at this
  rw [show emit cfg.kind (keyText cfg.ryu) broken (number alloc.initial alloc.current [variant m v]).1 =
    emitOne cfg.kind (keyText cfg.ryu) broken (variant m v, ix) by simp [emit, number, ix]]
  exact this

theorem flattens_value (v : V) : ∀ c : Ctl, Flat cfg c 0 → c.inEnum = true ∨ untaggedEnum v = true →
    (∀ e ∈ rootEntries c.inEnum v, Cheap cfg e) →
    Flattens cfg (toks v) (rootEntries c.inEnum v) (rootEnum v) c := by
  have cont : ∀ (c : Ctl) (v : V) (es : List Entry), (∀ b, rootEntries b v = es) → rootEnum v = false →
      Flattens cfg (toks v) es false c → Flattens cfg (toks v) (rootEntries c.inEnum v) (rootEnum v) c := by
    intro c v es h h' H
    rw [h, h']
    exact H
  induction v using V.ind with
  | null => intro c hc _ _; exact cont c _ [] (by simp [rootEntries, entries, variantEntries]) rfl (flattens_leaf _ c hc (by simp [toks, isLeaf]))
  | bool b => intro c hc _ _; exact cont c _ [] (by simp [rootEntries, entries, variantEntries]) rfl (flattens_leaf _ c hc (by simp [toks, isLeaf]))
  | int t v => intro c hc _ _; exact cont c _ [] (by simp [rootEntries, entries, variantEntries]) rfl (flattens_leaf _ c hc (by simp [toks, isLeaf]))
  | f32 b => intro c hc _ _; exact cont c _ [] (by simp [rootEntries, entries, variantEntries]) rfl (flattens_leaf _ c hc (by simp [toks, isLeaf]))
  | f64 b => intro c hc _ _; exact cont c _ [] (by simp [rootEntries, entries, variantEntries]) rfl (flattens_leaf _ c hc (by simp [toks, isLeaf]))
  | tag m => intro c hc _ _; exact cont c _ [] (by simp [rootEntries, entries, variantEntries]) rfl (flattens_leaf _ c hc (by simp [toks, isLeaf]))
  | text n fs =>
    intro c hc _ hch
    refine cont c _ [] (by simp [rootEntries, entries, variantEntries]) rfl (flattens_leaf _ c hc fun t ht => ?_)
    simp only [toks, List.mem_cons, List.mem_append, List.mem_map, List.not_mem_nil, or_false] at ht
    rcases ht with rfl | ⟨f, _, rfl⟩ | rfl
    · simp [isLeaf]
    · cases f <;> simp [isLeaf, textFragTok]
    · simp [isLeaf]
  | binary n fs =>
    intro c hc _ hch
    refine cont c _ [] (by simp [rootEntries, entries, variantEntries]) rfl (flattens_leaf _ c hc fun t ht => ?_)
    simp only [toks, List.mem_cons, List.mem_append, List.mem_map, List.not_mem_nil, or_false] at ht
    rcases ht with rfl | ⟨f, _, rfl⟩ | rfl
    · simp [isLeaf]
    · cases f <;> simp [isLeaf, binFragTok]
    · simp [isLeaf]
  | seq n xs _ =>
    intro c hc _ hch
    refine cont c _ (xs.map fun x => { val := x }) (by simp [rootEntries, entries, variantEntries]) rfl ?_
    have := flattens_container (cfg := cfg) (.seqBegin n) .seqEnd (toksSeq xs)
      (xs.map fun x => ([Token.seqValueBegin] ++ (toks x ++ [.seqValueEnd]), ({ val := x } : Entry))) rfl rfl ?_ ?_ c hc
    · simpa [toks, Function.comp_def] using this
    · exact toksSeq_flat xs
    · intro y hy
      obtain ⟨x, _, rfl⟩ := List.mem_map.mp hy
      exact contributes_seq _ x
  | map n kvs _ =>
    intro c hc _ hch
    refine cont c _ (kvs.map fun x => { key := some x.1, val := x.2 }) (by simp [rootEntries, entries, variantEntries]) rfl ?_
    have := flattens_container (cfg := cfg) (.mapBegin n) .mapEnd (toksMap kvs)
      (kvs.map fun x => ([Token.mapKeyBegin] ++ (toks x.1 ++ [.mapKeyEnd]) ++ ([.mapValueBegin] ++ (toks x.2 ++ [.mapValueEnd])),
        ({ key := some x.1, val := x.2 } : Entry))) rfl rfl ?_ ?_ c hc
    · simpa [toks, Function.comp_def] using this
    · exact toksMap_flat kvs
    · intro y hy
      obtain ⟨x, _, rfl⟩ := List.mem_map.mp hy
      exact contributes_map x.1 x.2 (hch { key := some x.1, val := x.2 } (by
        cases c.inEnum <;> simpa [rootEntries, entries, variantEntries] using ‹x ∈ kvs›)).keyed
  | record m n fs _ =>
    intro c hc _ hch
    refine cont c _ (fs.map fun f => { tag := f.1, label := some f.2.1, val := f.2.2 }) (by simp [rootEntries, entries, variantEntries]) rfl ?_
    have := flattens_container (cfg := cfg) (.recordBegin m n) (.recordEnd m) (toksRec fs)
      (fs.map fun f => ([Token.recordValueBegin f.1 f.2.1] ++ (toks f.2.2 ++ [.recordValueEnd f.1 f.2.1]),
        ({ tag := f.1, label := some f.2.1, val := f.2.2 } : Entry))) rfl rfl ?_ ?_ c hc
    · simpa [toks, Function.comp_def] using this
    · exact toksRec_flat fs
    · intro y hy
      obtain ⟨x, _, rfl⟩ := List.mem_map.mp hy
      exact contributes_record _ _ _ _
  | tuple m n fs _ =>
    intro c hc _ hch
    refine cont c _ (fs.map fun f => { tag := f.1, index := some f.2.1, val := f.2.2 }) (by simp [rootEntries, entries, variantEntries]) rfl ?_
    have := flattens_container (cfg := cfg) (.tupleBegin m n) (.tupleEnd m) (toksTup fs)
      (fs.map fun f => ([Token.tupleValueBegin f.1 f.2.1] ++ (toks f.2.2 ++ [.tupleValueEnd f.1 f.2.1]),
        ({ tag := f.1, index := some f.2.1, val := f.2.2 } : Entry))) rfl rfl ?_ ?_ c hc
    · simpa [toks, Function.comp_def] using this
    · exact toksTup_flat fs
    · intro y hy
      obtain ⟨x, _, rfl⟩ := List.mem_map.mp hy
      exact contributes_tuple _ _ _ _ ((hch { tag := x.1, index := some x.2.1, val := x.2.2 } (by
        cases c.inEnum <;> simpa [rootEntries, entries, variantEntries] using ⟨_, _, _, ‹x ∈ fs›, rfl, rfl, rfl⟩)).named rfl)
  | recordTuple m n fs _ =>
    intro c hc _ hch
    refine cont c _ (fs.map fun f => { tag := f.1, label := some f.2.1, index := some f.2.2.1, val := f.2.2.2 })
      (by simp [rootEntries, entries, variantEntries]) rfl ?_
    have := flattens_container (cfg := cfg) (.recordTupleBegin m n) (.recordTupleEnd m) (toksRT fs)
      (fs.map fun f => ([Token.recordTupleValueBegin f.1 f.2.1 f.2.2.1] ++ (toks f.2.2.2 ++ [.recordTupleValueEnd f.1 f.2.1 f.2.2.1]),
        ({ tag := f.1, label := some f.2.1, index := some f.2.2.1, val := f.2.2.2 } : Entry))) rfl rfl ?_ ?_ c hc
    · simpa [toks, Function.comp_def] using this
    · exact toksRT_flat fs
    · intro y hy
      obtain ⟨x, _, rfl⟩ := List.mem_map.mp hy
      exact contributes_recordTuple _ _ _ _ _
  | tagged m v ih =>
    intro c hc hu hch
    cases he : c.inEnum with
    | true =>
      have := flattens_variant m v ((hch { label := m.label, index := m.index, val := v }
        (by simp [rootEntries, he, variantEntries])).named rfl) c hc he
      intro hr
      obtain ⟨c', h1, h2, h3, h4⟩ := this hr
      exact ⟨c', h1, h2, by rw [h3, he]; rfl, h4⟩
    | false =>
      have hu' : rootEnum v = false := by
        rcases hu with h | h
        · rw [he] at h; cases h
        · simpa [untaggedEnum] using h
      have huv : untaggedEnum v = true := by
        cases v <;> first | rfl | exact Bool.noConfusion hu' | skip
        · simpa [untaggedEnum, rootEnum] using hu'
        · rename_i t w
          clear ih hu hch
          have : rootEnum w = false := hu'
          revert this
          show rootEnum w = false → untaggedEnum w = true
          clear hu'
          induction w using V.ind with
          | tagged m w _ => intro h; simpa [untaggedEnum, rootEnum] using h
          | hint t w ih => intro h; exact ih h
          | _ => intros; rfl
      intro hr
      have hb : Does cfg [.taggedBegin m] c [] c := does_one fun σ S s => by simp [call, he, hc.depth, Agrees]
      obtain ⟨c', h1, h2, h3, h4⟩ := ih c hc (.inr huv) (by simpa [rootEntries, he, entries] using hch) (by simpa [rootEntries, he, entries] using hr)
      have he' : c'.inEnum = false := by rw [h3, he, hu']; rfl
      have hf : Does cfg [.taggedEnd m] c' [] c' := does_one fun σ S s => by simp [call, he', h2.depth, Agrees]
      refine ⟨c', ?_, h2, ?_, ?_⟩
      · have := hb.append (h1.append hf)
        simpa [toks, rootEntries, he, entries] using this
      · rw [he', he]; simp [rootEnum, hu']
      · simpa [rootEntries, he, entries] using h4
  | enum m v ih =>
    intro c hc _ hch hr
    have hb : Does cfg [.enumBegin m] c [] { c with inEnum := true } :=
      does_one fun σ S s => by simp [call, valueAtRoot, hc.depth, Agrees]
    have hr' : cfg.checks = true → inRange c.alloc.initial c.alloc.current (variantEntries v) := by
      cases he : c.inEnum <;> simpa [rootEntries, he, entries, variantEntries] using hr
    obtain ⟨c', h1, h2, h3, h4⟩ := ih { c with inEnum := true } ⟨hc.depth, hc.key, hc.seen, hc.label, hc.range⟩ (.inl rfl)
      (by cases he : c.inEnum <;> simpa [rootEntries, he, entries, variantEntries] using hch) hr'
    have hf : Does cfg [.enumEnd m] c' [] c' := does_one fun σ S s => by simp [call, valueAtRoot, h2.depth, Agrees]
    have hE : rootEntries c.inEnum (.enum m v) = variantEntries v := by
      cases c.inEnum <;> simp [rootEntries, entries, variantEntries]
    refine ⟨c', ?_, h2, ?_, ?_⟩
    · have := hb.append (h1.append hf)
      rw [hE]
      simpa [toks, rootEntries] using this
    · rw [h3]; simp [rootEnum]
    · rw [hE]; simpa [rootEntries] using h4
  | hint t v ih =>
    intro c hc hu hch hr
    have hE : rootEntries c.inEnum (.hint t v) = rootEntries c.inEnum v := by
      cases c.inEnum <;> simp [rootEntries, entries, variantEntries]
    rw [hE] at hr hch
    have hb : Does cfg [.tagHint t] c [] c := does_one fun σ S s => by simp [call, value, valueAtRoot, hc.depth, Agrees]
    obtain ⟨c', h1, h2, h3, h4⟩ := ih c hc hu hch hr
    rw [hE]
    exact ⟨c', hb.append h1, h2, h3, h4⟩

end

/-! ## Tagged enums -/

/-- The run `r` did what the run `q` of the stream underneath did, but panics in the end. -/
def Agrees.Broken {σ : Type} : Res Unit (St σ) → Res Unit σ → Prop
  | .err _ st, .err _ s => st.s = s
  | .panic, .ok _ => True
  | .panic, .panic => True
  | _, _ => False

/-- The calls `ts` on the flattener make the calls `X`, and then panic. -/
def Breaks (cfg : Cfg) (ts : List Token) (c : Ctl) (X : List Token) : Prop :=
  ∀ (σ : Type) (S : Token → σ → Res Unit σ) (s : σ), Agrees.Broken (run (call cfg S) ts ⟨c, s⟩) (run S X s)

theorem Does.breaks {cfg : Cfg} {a b X Y : List Token} {c c' : Ctl} (h : Does cfg a c X c') (h' : Breaks cfg b c' Y) :
    Breaks cfg (a ++ b) c (X ++ Y) := by
  intro σ S s
  rw [run_append, run_append]
  have := h σ S s
  cases hr : run (call cfg S) a ⟨c, s⟩ <;> cases hq : run S X s <;> rw [hr, hq] at this <;> simp only [Agrees] at this
  · subst this; exact h' σ S _
  · exact this
  · trivial

theorem Breaks.append {cfg : Cfg} {a X : List Token} {c : Ctl} (h : Breaks cfg a c X) (b : List Token) :
    Breaks cfg (a ++ b) c X := by
  intro σ S s
  rw [run_append]
  have := h σ S s
  cases hr : run (call cfg S) a ⟨c, s⟩ <;> cases hq : run S X s <;> rw [hr, hq] at this <;> simp only [Agrees.Broken] at this
  · exact this
  · trivial
  · trivial

theorem untagged_enumTag (v : V) (h : enumTag v = none) : untaggedEnum v = true := by
  induction v using V.ind with
  | tagged m v _ =>
    unfold enumTag at h
    cases hv : enumTag v with
    | some m' => rw [hv] at h; cases h
    | none =>
      rw [hv] at h
      cases hr : rootEnum v <;> simp_all [untaggedEnum]
  | hint t v ih => exact ih h
  | _ => rfl

theorem breaks_value {cfg : Cfg} (v : V) (hch : ∀ e ∈ entries v, Cheap cfg e) (m : Meta) (h : enumTag v = some m) (c : Ctl)
    (hc : Flat cfg c 0) (he : c.inEnum = false) (hk : cfg.checks = true)
    (hr : inRange c.alloc.initial c.alloc.current (entries v)) :
    Breaks cfg (toks v) c
      (emit cfg.kind (keyText cfg.ryu) broken (number c.alloc.initial c.alloc.current (entries v)).1 ++ [.taggedEnd m]) := by
  induction v using V.ind with
  | tagged m' v ih =>
    have hb : Does cfg [.taggedBegin m'] c [] c := does_one fun σ S s => by simp [call, he, hc.depth, Agrees]
    unfold enumTag at h
    cases hv : enumTag v with
    | some m'' =>
      rw [hv] at h
      cases h
      exact hb.breaks ((ih hch hv hr).append [.taggedEnd m'])
    | none =>
      rw [hv] at h
      have hre : rootEnum v = true := by cases hr : rootEnum v <;> simp_all
      simp only [hre, if_true] at h
      cases h
      have hE : rootEntries c.inEnum v = entries v := by rw [he]; rfl
      obtain ⟨c', h1, h2, h3, h4⟩ := flattens_value v c hc (.inr (untagged_enumTag v hv)) (by rw [hE]; exact hch)
        (by rw [hE]; exact fun _ => hr)
      have he' : c'.inEnum = true := by rw [h3, hre, Bool.or_true]
      have hf : Breaks cfg [.taggedEnd m] c' [.taggedEnd m] := by
        intro σ S s
        rw [run_one, run_one]
        have hx : call cfg S (.taggedEnd m) ⟨c', s⟩ = (toStream cfg S (.taggedEnd m) ⟨c', s⟩).bind (leave cfg) := by
          simp [call, he', flattenableEnd, h2.key, h2.depth]
        rw [hx]
        unfold toStream lift
        cases hS : S (.taggedEnd m) s <;> cases cfg.kind <;>
          simp [Agrees.Broken, Res.bind, leave, h2.depth, hk]
      have := (hb.append h1).breaks hf
      rw [hE] at this
      simpa [toks, entries] using this
  | hint t v ih =>
    have hb : Does cfg [.tagHint t] c [] c := does_one fun σ S s => by simp [call, value, valueAtRoot, hc.depth, Agrees]
    exact hb.breaks (ih hch h hr)
  | _ => cases h

/-! ## Values that need an allocator -/

theorem stops_container {cfg : Cfg} (p : Entry → Bool) (o e : Token) (ts : List Token) (L : List (List Token × Entry))
    (ho : isOpen o = true) (hts : ts = L.flatMap Prod.fst)
    (h : ∀ x ∈ L, p x.2 = true → Contributes cfg (keyText cfg.ryu) x.1 x.2)
    (h' : ∀ x ∈ L, p x.2 = false → ∀ c : Ctl, Flat cfg c 1 → stepRange cfg.checks c.alloc.initial c.alloc.current x.2 →
      Stops cfg x.1 c [])
    (hp : ∃ x ∈ L, p x.2 = false) (c : Ctl) (hc : Flat cfg c 0)
    (hr : cfg.checks = true → inRange c.alloc.initial c.alloc.current (L.map Prod.snd)) :
    Stops cfg (o :: (ts ++ [e])) c
      (emit cfg.kind (keyText cfg.ryu) broken (number c.alloc.initial c.alloc.current ((L.map Prod.snd).takeWhile p)).1) := by
  obtain ⟨side, alloc, key, depth, inEnum, inKey⟩ := c
  obtain ⟨hd, hk, hs, hl, hrg⟩ := hc
  cases hd; cases hk
  have h1 : Does cfg [o] ⟨side, alloc, key, 0, inEnum, false⟩ [] ⟨side, alloc, key, 1, inEnum, false⟩ := by
    refine does_one fun σ S s => ?_
    cases o <;> first | exact Bool.noConfusion ho | rfl
  have h2 := stops_entries p L h h' hp ⟨side, alloc, key, 1, inEnum, false⟩ ⟨rfl, rfl, hs, hl, hrg⟩ hr
  rw [hts]
  exact h1.stops (h2.append [e])

theorem stops_variant {cfg : Cfg} (ha : cfg.alloc = false) (m : Meta) (v : V)
    (hn : affordable cfg.kind { label := m.label, index := m.index, val := v } = false) (c : Ctl) (hc : Flat cfg c 0)
    (he : c.inEnum = true)
    (hr : stepRange cfg.checks c.alloc.initial c.alloc.current { label := m.label, index := m.index, val := v }) :
    Stops cfg ([.taggedBegin m] ++ (toks v ++ [.taggedEnd m])) c [] := by
  obtain ⟨side, alloc, key, depth, inEnum, inKey⟩ := c
  obtain ⟨hd, hk, hs, hl, hrg⟩ := hc
  cases hd; cases hk; cases he
  unfold affordable at hn
  cases hlab : m.label with
  | some l => simp [hlab] at hn
  | none =>
    cases hi : m.index with
    | none => simp [hlab, hi] at hn
    | some i =>
      have hs : ¬ small i := by
        rw [hlab, hi] at hn
        exact of_decide_eq_false hn
      refine (stops_one fun σ S s => ⟨⟨side, alloc, key, 1, true, false⟩, ?_⟩).append _
      have := withBegin_eq (σ := σ) (c := ⟨side, alloc, key, 1, true, false⟩)
        { label := m.label, index := m.index, val := v } hrg (fun hb => (hr hb).1) s
        (fun i => withIndexLabel cfg i m.label fun l => flatBegin cfg S none l i)
      have hx : call cfg S (.taggedBegin m) ⟨⟨side, alloc, key, 0, true, false⟩, s⟩ = _ := this
      rw [place_large (e := { label := m.label, index := m.index, val := v }) hi hs, hlab,
        withIndexLabel_stuck cfg ha i hs] at hx
      exact hx

theorem stops_value {cfg : Cfg} (ha : cfg.alloc = false) (v : V) : ∀ c : Ctl, Flat cfg c 0 →
    (cfg.checks = true → inRange c.alloc.initial c.alloc.current (rootEntries c.inEnum v)) →
    (∃ e ∈ rootEntries c.inEnum v, affordable cfg.kind e = false) →
    Stops cfg (toks v) c (emit cfg.kind (keyText cfg.ryu) broken
      (number c.alloc.initial c.alloc.current ((rootEntries c.inEnum v).takeWhile (affordable cfg.kind))).1) := by
  have cont : ∀ (c : Ctl) (v : V) (es : List Entry), (∀ b, rootEntries b v = es) →
      ((cfg.checks = true → inRange c.alloc.initial c.alloc.current es) → (∃ e ∈ es, affordable cfg.kind e = false) →
        Stops cfg (toks v) c (emit cfg.kind (keyText cfg.ryu) broken
          (number c.alloc.initial c.alloc.current (es.takeWhile (affordable cfg.kind))).1)) →
      (cfg.checks = true → inRange c.alloc.initial c.alloc.current (rootEntries c.inEnum v)) →
      (∃ e ∈ rootEntries c.inEnum v, affordable cfg.kind e = false) →
      Stops cfg (toks v) c (emit cfg.kind (keyText cfg.ryu) broken
        (number c.alloc.initial c.alloc.current ((rootEntries c.inEnum v).takeWhile (affordable cfg.kind))).1) := by
    intro c v es h H
    rw [h]
    exact H
  have none' : ∀ (c : Ctl) (v : V), (∀ b, rootEntries b v = []) →
      (∃ e ∈ rootEntries c.inEnum v, affordable cfg.kind e = false) → False := by
    intro c v h ⟨e, he, _⟩
    rw [h] at he
    cases he
  have key : ∀ (k v : V), affordable cfg.kind { key := some k, val := v } = false →
      cfg.kind.labelled ∧ borrowable [] ((toks k).flatMap scraps) = false := by
    intro k v h
    unfold affordable at h
    cases hk : cfg.kind <;> rw [hk] at h
    · exact ⟨.inl rfl, h⟩
    · cases h
    · cases h
    · exact ⟨.inr rfl, h⟩
    · cases h
  have idx : ∀ (t : Option Tag) (i : Index) (v : V), affordable cfg.kind { tag := t, index := some i, val := v } = false →
      ¬ small i := fun t i v h => of_decide_eq_false h
  have here : ∀ {α : Type} (f : α → List Token) (g : α → Entry) (xs : List α),
      (∃ e ∈ xs.map g, affordable cfg.kind e = false) →
      ∃ x ∈ xs.map (fun x => (f x, g x)), affordable cfg.kind x.2 = false := by
    intro α f g xs ⟨e, he, h⟩
    obtain ⟨x, hx, rfl⟩ := List.mem_map.mp he
    exact ⟨_, List.mem_map.mpr ⟨x, hx, rfl⟩, h⟩
  induction v using V.ind with
  | seq n xs _ =>
    intro c hc
    refine cont c _ (xs.map fun x => { val := x }) (by simp [rootEntries, entries, variantEntries]) fun hr hp => ?_
    obtain ⟨e, he, h⟩ := hp
    obtain ⟨x, _, rfl⟩ := List.mem_map.mp he
    cases h
  | map n kvs _ =>
    intro c hc
    refine cont c _ (kvs.map fun x => { key := some x.1, val := x.2 }) (by simp [rootEntries, entries, variantEntries])
      fun hr hp => ?_
    have := stops_container (cfg := cfg) (affordable cfg.kind) (.mapBegin n) .mapEnd (toksMap kvs)
      (kvs.map fun x => ([Token.mapKeyBegin] ++ (toks x.1 ++ [.mapKeyEnd]) ++ ([.mapValueBegin] ++ (toks x.2 ++ [.mapValueEnd])),
        ({ key := some x.1, val := x.2 } : Entry))) rfl (toksMap_flat kvs) ?_ ?_ (here _ _ _ hp) c hc
        (by simpa [Function.comp_def] using hr)
    · simpa [toks, Function.comp_def] using this
    · intro y hy hp
      obtain ⟨x, _, rfl⟩ := List.mem_map.mp hy
      exact contributes_map x.1 x.2 (Cheap.keyed (v := x.2) (.inr hp))
    · intro y hy hp c hc _
      obtain ⟨x, _, rfl⟩ := List.mem_map.mp hy
      exact stops_map ha (key _ _ hp).1 x.1 x.2 (key _ _ hp).2 c hc
  | record m n fs _ =>
    intro c hc
    refine cont c _ (fs.map fun f => { tag := f.1, label := some f.2.1, val := f.2.2 })
      (by simp [rootEntries, entries, variantEntries]) fun hr hp => ?_
    obtain ⟨e, he, h⟩ := hp
    obtain ⟨x, _, rfl⟩ := List.mem_map.mp he
    cases h
  | tuple m n fs _ =>
    intro c hc
    refine cont c _ (fs.map fun f => { tag := f.1, index := some f.2.1, val := f.2.2 })
      (by simp [rootEntries, entries, variantEntries]) fun hr hp => ?_
    have := stops_container (cfg := cfg) (affordable cfg.kind) (.tupleBegin m n) (.tupleEnd m) (toksTup fs)
      (fs.map fun f => ([Token.tupleValueBegin f.1 f.2.1] ++ (toks f.2.2 ++ [.tupleValueEnd f.1 f.2.1]),
        ({ tag := f.1, index := some f.2.1, val := f.2.2 } : Entry))) rfl (toksTup_flat fs) ?_ ?_ (here _ _ _ hp) c hc
        (by simpa [Function.comp_def] using hr)
    · simpa [toks, Function.comp_def] using this
    · intro y hy hp
      obtain ⟨x, _, rfl⟩ := List.mem_map.mp hy
      exact contributes_tuple _ _ _ _ (Cheap.named (e := { tag := x.1, index := some x.2.1, val := x.2.2 }) rfl (.inr hp))
    · intro y hy hp c hc hr
      obtain ⟨x, _, rfl⟩ := List.mem_map.mp hy
      exact stops_tuple ha _ _ _ (idx _ _ _ hp) c hc hr
  | recordTuple m n fs _ =>
    intro c hc
    refine cont c _ (fs.map fun f => { tag := f.1, label := some f.2.1, index := some f.2.2.1, val := f.2.2.2 })
      (by simp [rootEntries, entries, variantEntries]) fun hr hp => ?_
    obtain ⟨e, he, h⟩ := hp
    obtain ⟨x, _, rfl⟩ := List.mem_map.mp he
    cases h
  | tagged m v ih =>
    intro c hc hr hp
    cases he : c.inEnum with
    | true =>
      have hE : rootEntries c.inEnum (.tagged m v) = [{ label := m.label, index := m.index, val := v }] := by
        simp [rootEntries, he, variantEntries]
      rw [← he, hE]
      rw [hE] at hr hp
      obtain ⟨e, hm, h⟩ := hp
      cases List.mem_singleton.mp hm
      have := stops_variant ha m v h c hc he (inRange_cons hr).1
      simpa [toks, h, number, emit] using this
    | false =>
      have hE : rootEntries c.inEnum (.tagged m v) = rootEntries c.inEnum v := by simp [rootEntries, he, entries]
      rw [← he, hE]
      rw [hE] at hr hp
      have hb : Does cfg [.taggedBegin m] c [] c := does_one fun σ S s => by simp [call, he, hc.depth, Agrees]
      exact hb.stops ((ih c hc hr hp).append [.taggedEnd m])
  | enum m v ih =>
    intro c hc
    have hE : rootEntries c.inEnum (.enum m v) = rootEntries true v := by
      cases c.inEnum <;> simp [rootEntries, entries, variantEntries]
    rw [hE]
    intro hr hp
    have hb : Does cfg [.enumBegin m] c [] { c with inEnum := true } :=
      does_one fun σ S s => by simp [call, valueAtRoot, hc.depth, Agrees]
    exact hb.stops ((ih { c with inEnum := true } ⟨hc.depth, hc.key, hc.seen, hc.label, hc.range⟩ hr hp).append [.enumEnd m])
  | hint t v ih =>
    intro c hc
    have hE : rootEntries c.inEnum (.hint t v) = rootEntries c.inEnum v := by
      cases c.inEnum <;> simp [rootEntries, entries, variantEntries]
    rw [hE]
    intro hr hp
    have hb : Does cfg [.tagHint t] c [] c := does_one fun σ S s => by simp [call, value, valueAtRoot, hc.depth, Agrees]
    exact hb.stops (ih c hc hr hp)
  | _ => intro c hc _ hp; exact (none' c _ (by simp [rootEntries, entries, variantEntries]) hp).elim

/-! ## Correct values -/

theorem emit_toks (kind : Kind) (K : V → Text) (es : List (Entry × Index)) :
    emit kind K toks es = entryToks kind K es := by
  unfold emit
  induction es with
  | nil => cases kind <;> rfl
  | cons x es ih =>
    rw [List.flatMap_cons, ih]
    obtain ⟨e, i⟩ := x
    cases kind
    · simp [emitOne, beginToks, endToks, entryToks, asRecord, toksRec]
    · simp [emitOne, beginToks, endToks, entryToks, asTuple, toksTup]
    · simp [emitOne, beginToks, endToks, entryToks, asSeq, toksSeq]
    · simp [emitOne, beginToks, endToks, entryToks, asRecordTuple, toksRT]
    · cases hk : e.key <;> cases hl : e.label <;> simp [emitOne, entryToks, asMap, toksMap, hk, hl, labelOf]

theorem emit_congr (kind : Kind) (K : V → Text) (f g : V → List Token) (es : List (Entry × Index))
    (h : ∀ x ∈ es, f x.1.val = g x.1.val) : emit kind K f es = emit kind K g es := by
  unfold emit
  induction es with
  | nil => rfl
  | cons x es ih =>
    rw [List.flatMap_cons, List.flatMap_cons, ih fun y hy => h y (by simp [hy])]
    have := h x (by simp)
    congr 1
    unfold emitOne
    rw [this]

theorem number_mem {k c : Int} {es : List Entry} {x : Entry × Index} (h : x ∈ (number k c es).1) : x.1 ∈ es := by
  induction es generalizing c with
  | nil => cases h
  | cons e es ih =>
    rw [number_cons] at h
    rcases List.mem_cons.mp h with rfl | h
    · simp
    · exact List.mem_cons_of_mem _ (ih h)

end Sval.Flatten
