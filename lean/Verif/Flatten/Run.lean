import Verif.Flatten.Labels

set_option autoImplicit false

/-!
# What the flattener does, call by call

`Does cfg ts c X c'`: from the state `c` the calls `ts` on the flattener make exactly the calls `X` on the
stream underneath, whatever it is and until one of them fails, and leave the state `c'`.
-/

namespace Sval.Flatten

/-- The run `r` did what the run `q` of the stream underneath did, and left the state `c`. -/
def Agrees {σ : Type} (c : Ctl) : Res Unit (St σ) → Res Unit σ → Prop
  | .ok st, .ok s => st = ⟨c, s⟩
  | .err _ st, .err _ s => st.s = s
  | .panic, .panic => True
  | _, _ => False

theorem Agrees.bind {σ : Type} {c c' : Ctl} {r : Res Unit (St σ)} {q : Res Unit σ} (h : Agrees c r q)
    {f : St σ → Res Unit (St σ)} {g : σ → Res Unit σ} (hf : ∀ s, Agrees c' (f ⟨c, s⟩) (g s)) :
    Agrees c' (r.bind f) (q.bind g) := by
  cases r <;> cases q <;> simp only [Agrees] at h
  · subst h; exact hf _
  · exact h
  · trivial

def Does (cfg : Cfg) (ts : List Token) (c : Ctl) (X : List Token) (c' : Ctl) : Prop :=
  ∀ (σ : Type) (S : Token → σ → Res Unit σ) (s : σ), Agrees c' (run (call cfg S) ts ⟨c, s⟩) (run S X s)

theorem Does.nil (cfg : Cfg) (c : Ctl) : Does cfg [] c [] c := fun _ _ _ => rfl

theorem Does.append {cfg : Cfg} {a b X Y : List Token} {c c1 c2 : Ctl} (h : Does cfg a c X c1) (h' : Does cfg b c1 Y c2) :
    Does cfg (a ++ b) c (X ++ Y) c2 := by
  intro σ S s
  rw [run_append, run_append]
  exact (h σ S s).bind fun s => h' σ S s

theorem run_one {ε σ : Type} (step : Token → σ → Res ε σ) (t : Token) (s : σ) : run step [t] s = step t s := by
  rw [run_cons]
  cases step t s <;> rfl

theorem does_one {cfg : Cfg} {t : Token} {X : List Token} {c c' : Ctl}
    (h : ∀ (σ : Type) (S : Token → σ → Res Unit σ) (s : σ), Agrees c' (call cfg S t ⟨c, s⟩) (run S X s)) :
    Does cfg [t] c X c' := by
  intro σ S s
  rw [run_one]
  exact h σ S s

/-! ## Calls on the stream and on the label stream -/

section
variable {cfg : Cfg} {σ : Type} (S : Token → σ → Res Unit σ)

theorem agrees_lift (t : Token) (c : Ctl) (s : σ) : Agrees c (lift S t ⟨c, s⟩) (run S [t] s) := by
  rw [run_one]
  unfold lift
  cases S t s <;> simp [Agrees]

/-- What a call on the stream does to the target's own state. -/
def streamFx (kind : Kind) (t : Token) (d : Side) : Side :=
  match kind with
  | .map => { d with seen := seenAfter t d.seen }
  | _ => d

theorem agrees_toStream (t : Token) (c : Ctl) (s : σ) :
    Agrees { c with side := streamFx cfg.kind t c.side } (toStream cfg S t ⟨c, s⟩) (run S [t] s) := by
  unfold toStream streamFx
  cases cfg.kind <;> exact agrees_lift S t _ s

theorem agrees_toStreamAll (ts : List Token) (c : Ctl) (s : σ) :
    Agrees { c with side := ts.foldl (fun d t => streamFx cfg.kind t d) c.side } (toStreamAll cfg S ts ⟨c, s⟩) (run S ts s) := by
  induction ts generalizing c s with
  | nil => rfl
  | cons t ts ih =>
    rw [show t :: ts = [t] ++ ts from rfl, run_append]
    exact (agrees_toStream S t c s).bind fun s => ih _ s

/-- What a call on the label stream does to the target's own state. -/
def labelFx (kind : Kind) (t : Token) (d : Side) : Side :=
  match kind with
  | .record | .recordTuple => { d with label := LabelBuf.eff t d.label }
  | .tuple | .seq => d
  | .map => { d with seen := seenAfter t d.seen }

/-- The calls a call on the label stream makes on the stream. -/
def labelOut (kind : Kind) (t : Token) : List Token := if kind = .map then [t] else []

/-- Are labels made of keys? -/
def Kind.labelled (k : Kind) : Prop := k = .record ∨ k = .recordTuple

theorem agrees_toLabel (t : Token) (c : Ctl) (s : σ)
    (hl : cfg.kind.labelled → LabelBuf.call cfg.alloc t c.side.label = .ok (LabelBuf.eff t c.side.label)) :
    Agrees { c with side := labelFx cfg.kind t c.side } (toLabel cfg S t ⟨c, s⟩) (run S (labelOut cfg.kind t) s) := by
  have := agrees_toStream (cfg := cfg) S t c s
  unfold toLabel labelFx labelOut
  cases hk : cfg.kind
  · simp [hl (.inl hk), Agrees]
  · rfl
  · rfl
  · simp [hl (.inr hk), Agrees]
  · simpa [streamFx, hk] using this
end

/-! ## Inside a value -/

/-- Calls that neither open nor close anything the flattener counts. -/
def isLeaf : Token → Bool
  | .null | .bool _ | .int _ _ | .f32 _ | .f64 _
  | .textBegin _ | .textFragment _ | .textFragmentComputed _ | .textEnd
  | .binaryBegin _ | .binaryFragment _ | .binaryFragmentComputed _ | .binaryEnd
  | .tag _ | .tagHint _ | .enumBegin _ | .enumEnd _ => true
  | _ => false

def isOpen : Token → Bool
  | .mapBegin _ | .seqBegin _ | .recordBegin _ _ | .tupleBegin _ _ | .recordTupleBegin _ _ => true
  | _ => false

def isClose : Token → Bool
  | .mapEnd | .seqEnd | .recordEnd _ | .tupleEnd _ | .recordTupleEnd _ => true
  | _ => false

def isMid : Token → Bool
  | .mapKeyBegin | .mapKeyEnd | .mapValueBegin | .mapValueEnd | .seqValueBegin | .seqValueEnd
  | .recordValueBegin _ _ | .recordValueEnd _ _ | .tupleValueBegin _ _ | .tupleValueEnd _ _
  | .recordTupleValueBegin _ _ _ | .recordTupleValueEnd _ _ _ => true
  | _ => false

/-- A way calls are passed on inside a value: each makes the calls `out`, and changes the target's state
by `fx`. -/
structure Mode (cfg : Cfg) (inKey : Bool) (out : Token → List Token) (fx : Token → Side → Side) : Prop where
  leaf : ∀ (c : Ctl) (t : Token), c.inKey = inKey → 0 < c.depth → isLeaf t = true →
    Does cfg [t] c (out t) { c with side := fx t c.side }
  opn : ∀ (c : Ctl) (t : Token), c.inKey = inKey → 0 < c.depth → isOpen t = true →
    Does cfg [t] c (out t) { c with side := fx t c.side, depth := c.depth + 1 }
  mid : ∀ (c : Ctl) (t : Token), c.inKey = inKey → 0 < c.depth → c.depth ≠ 1 → isMid t = true →
    Does cfg [t] c (out t) { c with side := fx t c.side }
  cls : ∀ (c : Ctl) (t : Token), c.inKey = inKey → 0 < c.depth → c.depth ≠ 1 → isClose t = true →
    Does cfg [t] c (out t) { c with side := fx t c.side, depth := c.depth - 1 }
  tagB : ∀ (c : Ctl) (m : Meta), c.inKey = inKey → 0 < c.depth →
    Does cfg [.taggedBegin m] c (out (.taggedBegin m))
      { c with side := fx (.taggedBegin m) c.side, depth := if c.inEnum then c.depth + 1 else c.depth }
  tagE : ∀ (c : Ctl) (m : Meta), c.inKey = inKey → 0 < c.depth → (c.inEnum = true → c.depth ≠ 1) →
    Does cfg [.taggedEnd m] c (out (.taggedEnd m))
      { c with side := fx (.taggedEnd m) c.side, depth := if c.inEnum then c.depth - 1 else c.depth }

/-- What the flattener passes through for a call: `map_key_end` comes out as `map_key_begin`. -/
def passed : Token → Token
  | .mapKeyEnd => .mapKeyBegin
  | t => t

theorem leave_agrees {σ : Type} {cfg : Cfg} (c : Ctl) (s : σ) (h : 0 < c.depth) :
    Agrees { c with depth := c.depth - 1 } (leave cfg ⟨c, s⟩) (.ok s) := by
  have h0 : c.depth ≠ 0 := by omega
  simp [leave, h0, Agrees]

theorem mode_pass (cfg : Cfg) : Mode cfg false (fun t => [passed t]) (fun t d => streamFx cfg.kind (passed t) d) where
  leaf c t hk hd ht := does_one fun σ S s => by
    have hd0 : c.depth ≠ 0 := by omega
    have hd1 : c.depth + 1 ≠ 1 := by omega
    have : call cfg S t ⟨c, s⟩ = toStream cfg S t ⟨c, s⟩ := by
      cases t <;> first | exact Bool.noConfusion ht | simp [call, value, valueAtRoot, hk, hd0]
    rw [this]
    have hp : passed t = t := by cases t <;> first | exact Bool.noConfusion ht | rfl
    rw [hp]
    exact agrees_toStream S t c s
  opn c t hk hd ht := does_one fun σ S s => by
    have hd0 : c.depth ≠ 0 := by omega
    have hd1 : c.depth + 1 ≠ 1 := by omega
    have : call cfg S t ⟨c, s⟩ = toStream cfg S t ⟨{ c with depth := c.depth + 1 }, s⟩ := by
      cases t <;> first | exact Bool.noConfusion ht | simp [call, opens, flattenableBegin, hk, hd1]
    rw [this]
    have hp : passed t = t := by cases t <;> first | exact Bool.noConfusion ht | rfl
    rw [hp]
    exact agrees_toStream S t _ s
  mid c t hk hd hd' ht := does_one fun σ S s => by
    have hd0 : c.depth ≠ 0 := by omega
    have hd1 : c.depth + 1 ≠ 1 := by omega
    have : call cfg S t ⟨c, s⟩ = toStream cfg S (passed t) ⟨c, s⟩ := by
      cases t <;> first | exact Bool.noConfusion ht | simp [call, flattenableValue, hk, hd', passed]
    rw [this]
    exact agrees_toStream S _ c s
  cls c t hk hd hd' ht := does_one fun σ S s => by
    have hd0 : c.depth ≠ 0 := by omega
    have hd1 : c.depth + 1 ≠ 1 := by omega
    have : call cfg S t ⟨c, s⟩ = (toStream cfg S t ⟨c, s⟩).bind (leave cfg) := by
      cases t <;> first | exact Bool.noConfusion ht | simp [call, closes, flattenableEnd, hk, hd']
    rw [this]
    have hp : passed t = t := by cases t <;> first | exact Bool.noConfusion ht | rfl
    rw [hp]
    rw [← Res.bind_pure (run S [t] s)]
    exact (agrees_toStream S t c s).bind fun s => leave_agrees _ s hd
  tagB c m hk hd := does_one fun σ S s => by
    obtain ⟨side, alloc, key, depth, inEnum, inKey⟩ := c
    cases hk
    replace hd : 0 < depth := hd
    have hd0 : depth ≠ 0 := by omega
    have hd1 : depth + 1 ≠ 1 := by omega
    cases inEnum with
    | true =>
      have : call cfg S (.taggedBegin m) ⟨⟨side, alloc, key, depth, true, false⟩, s⟩ = toStream cfg S (.taggedBegin m) ⟨⟨side, alloc, key, depth + 1, true, false⟩, s⟩ := by
        simp [call, flattenableBegin, hd1]
      rw [this]
      exact agrees_toStream S _ _ s
    | false =>
      have : call cfg S (.taggedBegin m) ⟨⟨side, alloc, key, depth, false, false⟩, s⟩ = toStream cfg S (.taggedBegin m) ⟨⟨side, alloc, key, depth, false, false⟩, s⟩ := by
        simp [call, value, valueAtRoot, hd0]
      rw [this]
      exact agrees_toStream S _ _ s
  tagE c m hk hd hd' := does_one fun σ S s => by
    obtain ⟨side, alloc, key, depth, inEnum, inKey⟩ := c
    cases hk
    replace hd : 0 < depth := hd
    have hd0 : depth ≠ 0 := by omega
    have hd1 : depth + 1 ≠ 1 := by omega
    replace hd' : inEnum = true → depth ≠ 1 := hd'
    cases inEnum with
    | true =>
      have : call cfg S (.taggedEnd m) ⟨⟨side, alloc, key, depth, true, false⟩, s⟩ = (toStream cfg S (.taggedEnd m) ⟨⟨side, alloc, key, depth, true, false⟩, s⟩).bind (leave cfg) := by
        simp [call, flattenableEnd, hd' rfl]
      rw [this, ← Res.bind_pure (run S _ s)]
      exact (agrees_toStream S _ _ s).bind fun s => leave_agrees _ s hd
    | false =>
      have : call cfg S (.taggedEnd m) ⟨⟨side, alloc, key, depth, false, false⟩, s⟩ = toStream cfg S (.taggedEnd m) ⟨⟨side, alloc, key, depth, false, false⟩, s⟩ := by
        simp [call, value, valueAtRoot, hd0]
      rw [this]
      exact agrees_toStream S _ _ s

theorem mode_key (cfg : Cfg) (hu : ¬ cfg.kind.labelled) : Mode cfg true (labelOut cfg.kind) (labelFx cfg.kind) where
  leaf c t hk hd ht := does_one fun σ S s => by
    have hd0 : c.depth ≠ 0 := by omega
    have hd1 : c.depth + 1 ≠ 1 := by omega
    have : call cfg S t ⟨c, s⟩ = toLabel cfg S t ⟨c, s⟩ := by
      cases t <;> first | exact Bool.noConfusion ht | simp [call, value, valueAtRoot, hk, hd0]
    rw [this]
    exact agrees_toLabel S t c s (fun h => absurd h hu)
  opn c t hk hd ht := does_one fun σ S s => by
    have hd0 : c.depth ≠ 0 := by omega
    have hd1 : c.depth + 1 ≠ 1 := by omega
    have : call cfg S t ⟨c, s⟩ = toLabel cfg S t ⟨{ c with depth := c.depth + 1 }, s⟩ := by
      cases t <;> first | exact Bool.noConfusion ht | simp [call, opens, flattenableBegin, hk]
    rw [this]
    exact agrees_toLabel S t _ s (fun h => absurd h hu)
  mid c t hk hd hd' ht := does_one fun σ S s => by
    have hd0 : c.depth ≠ 0 := by omega
    have hd1 : c.depth + 1 ≠ 1 := by omega
    have : call cfg S t ⟨c, s⟩ = toLabel cfg S t ⟨c, s⟩ := by
      cases t <;> first | exact Bool.noConfusion ht | simp [call, flattenableValue, hk, hd']
    rw [this]
    exact agrees_toLabel S _ c s (fun h => absurd h hu)
  cls c t hk hd hd' ht := does_one fun σ S s => by
    have hd0 : c.depth ≠ 0 := by omega
    have hd1 : c.depth + 1 ≠ 1 := by omega
    have : call cfg S t ⟨c, s⟩ = (toLabel cfg S t ⟨c, s⟩).bind (leave cfg) := by
      cases t <;> first | exact Bool.noConfusion ht | simp [call, closes, flattenableEnd, hk]
    rw [this, ← Res.bind_pure (run S (labelOut cfg.kind t) s)]
    exact (agrees_toLabel S t c s (fun h => absurd h hu)).bind fun s => leave_agrees _ s hd
  tagB c m hk hd := does_one fun σ S s => by
    obtain ⟨side, alloc, key, depth, inEnum, inKey⟩ := c
    cases hk
    replace hd : 0 < depth := hd
    have hd0 : depth ≠ 0 := by omega
    have hd1 : depth + 1 ≠ 1 := by omega
    cases inEnum with
    | true =>
      have : call cfg S (.taggedBegin m) ⟨⟨side, alloc, key, depth, true, true⟩, s⟩ = toLabel cfg S (.taggedBegin m) ⟨⟨side, alloc, key, depth + 1, true, true⟩, s⟩ := by
        simp [call, flattenableBegin]
      rw [this]
      exact agrees_toLabel S _ _ s (fun h => absurd h hu)
    | false =>
      have : call cfg S (.taggedBegin m) ⟨⟨side, alloc, key, depth, false, true⟩, s⟩ = toLabel cfg S (.taggedBegin m) ⟨⟨side, alloc, key, depth, false, true⟩, s⟩ := by
        simp [call, value, valueAtRoot, hd0]
      rw [this]
      exact agrees_toLabel S _ _ s (fun h => absurd h hu)
  tagE c m hk hd hd' := does_one fun σ S s => by
    obtain ⟨side, alloc, key, depth, inEnum, inKey⟩ := c
    cases hk
    replace hd : 0 < depth := hd
    have hd0 : depth ≠ 0 := by omega
    have hd1 : depth + 1 ≠ 1 := by omega
    replace hd' : inEnum = true → depth ≠ 1 := hd'
    cases inEnum with
    | true =>
      have : call cfg S (.taggedEnd m) ⟨⟨side, alloc, key, depth, true, true⟩, s⟩ = (toLabel cfg S (.taggedEnd m) ⟨⟨side, alloc, key, depth, true, true⟩, s⟩).bind (leave cfg) := by
        simp [call, flattenableEnd]
      rw [this, ← Res.bind_pure (run S (labelOut cfg.kind _) s)]
      exact (agrees_toLabel S _ _ s (fun h => absurd h hu)).bind fun s => leave_agrees _ s hd
    | false =>
      have : call cfg S (.taggedEnd m) ⟨⟨side, alloc, key, depth, false, true⟩, s⟩ = toLabel cfg S (.taggedEnd m) ⟨⟨side, alloc, key, depth, false, true⟩, s⟩ := by
        simp [call, value, valueAtRoot, hd0]
      rw [this]
      exact agrees_toLabel S _ _ s (fun h => absurd h hu)

/-- A value inside an entry or a key. -/
theorem Mode.value {cfg : Cfg} {b : Bool} {out : Token → List Token} {fx : Token → Side → Side} (M : Mode cfg b out fx)
    (v : V) : ∀ c : Ctl, c.inKey = b → 0 < c.depth →
      Does cfg (toks v) c ((toks v).flatMap out) { c with side := (toks v).foldl (fun d t => fx t d) c.side } := by
  have leaves : ∀ (ts : List Token), (∀ t ∈ ts, isLeaf t = true) → ∀ c : Ctl, c.inKey = b → 0 < c.depth →
      Does cfg ts c (ts.flatMap out) { c with side := ts.foldl (fun d t => fx t d) c.side } := by
    intro ts h
    induction ts with
    | nil => intro c _ _; exact Does.nil cfg c
    | cons t ts ih =>
      intro c hk hd
      exact (M.leaf c t hk hd (h t (by simp))).append
        (ih (fun t ht => h t (by simp [ht])) { c with side := fx t c.side } hk hd)
  have inner : ∀ (o e : Token) (ts : List Token), isOpen o = true → isClose e = true →
      (∀ c : Ctl, c.inKey = b → 0 < c.depth → c.depth ≠ 1 →
        Does cfg ts c (ts.flatMap out) { c with side := ts.foldl (fun d t => fx t d) c.side }) →
      ∀ c : Ctl, c.inKey = b → 0 < c.depth →
        Does cfg (o :: (ts ++ [e])) c ((o :: (ts ++ [e])).flatMap out)
          { c with side := (o :: (ts ++ [e])).foldl (fun d t => fx t d) c.side } := by
    intro o e ts ho he h c hk hd
    have h1 := M.opn c o hk hd ho
    have h2 := h { c with side := fx o c.side, depth := c.depth + 1 } hk (by show 0 < c.depth + 1; omega) (by show c.depth + 1 ≠ 1; omega)
    have h3 := M.cls { c with side := ts.foldl (fun d t => fx t d) (fx o c.side), depth := c.depth + 1 } e hk (by show 0 < c.depth + 1; omega)
      (by show c.depth + 1 ≠ 1; omega) he
    have := h1.append (h2.append h3)
    simpa using this
  induction v using V.ind with
  | null => exact leaves _ (by simp [toks, isLeaf])
  | bool b => exact leaves _ (by simp [toks, isLeaf])
  | int t v => exact leaves _ (by simp [toks, isLeaf])
  | f32 b => exact leaves _ (by simp [toks, isLeaf])
  | f64 b => exact leaves _ (by simp [toks, isLeaf])
  | text n fs =>
    refine leaves _ fun t ht => ?_
    simp only [toks, List.mem_cons, List.mem_append, List.mem_map, List.not_mem_nil, or_false] at ht
    rcases ht with rfl | ⟨f, _, rfl⟩ | rfl
    · rfl
    · cases f <;> rfl
    · rfl
  | binary n fs =>
    refine leaves _ fun t ht => ?_
    simp only [toks, List.mem_cons, List.mem_append, List.mem_map, List.not_mem_nil, or_false] at ht
    rcases ht with rfl | ⟨f, _, rfl⟩ | rfl
    · rfl
    · cases f <;> rfl
    · rfl
  | seq n xs ih =>
    refine inner (.seqBegin n) .seqEnd (toksSeq xs) rfl rfl ?_
    induction xs with
    | nil => intro c _ _ _; exact Does.nil cfg c
    | cons x xs ih' =>
      intro c hk hd hd'
      have h1 := M.mid c .seqValueBegin hk hd hd' rfl
      have h2 := ih x (by simp) { c with side := fx .seqValueBegin c.side } hk hd
      have h3 := M.mid { c with side := (toks x).foldl (fun d t => fx t d) (fx .seqValueBegin c.side) } .seqValueEnd hk hd hd' rfl
      have h4 := ih' (fun y hy => ih y (by simp [hy]))
        { c with side := fx .seqValueEnd ((toks x).foldl (fun d t => fx t d) (fx .seqValueBegin c.side)) } hk hd hd'
      have := h1.append (h2.append (h3.append h4))
      simpa [toksSeq] using this
  | map n kvs ih =>
    refine inner (.mapBegin n) .mapEnd (toksMap kvs) rfl rfl ?_
    induction kvs with
    | nil => intro c _ _ _; exact Does.nil cfg c
    | cons x xs ih' =>
      intro c hk hd hd'
      obtain ⟨k, v⟩ := x
      have h1 := M.mid c .mapKeyBegin hk hd hd' rfl
      have h2 := (ih (k, v) (by simp)).1 { c with side := fx .mapKeyBegin c.side } hk hd
      have h3 := M.mid { c with side := (toks k).foldl (fun d t => fx t d) (fx .mapKeyBegin c.side) } .mapKeyEnd hk hd hd' rfl
      have h4 := M.mid { c with side := fx .mapKeyEnd ((toks k).foldl (fun d t => fx t d) (fx .mapKeyBegin c.side)) } .mapValueBegin hk hd hd' rfl
      have h5 := (ih (k, v) (by simp)).2
        { c with side := fx .mapValueBegin (fx .mapKeyEnd ((toks k).foldl (fun d t => fx t d) (fx .mapKeyBegin c.side))) } hk hd
      have h6 := M.mid { c with side := (toks v).foldl (fun d t => fx t d) (fx .mapValueBegin (fx .mapKeyEnd ((toks k).foldl (fun d t => fx t d) (fx .mapKeyBegin c.side)))) }
        .mapValueEnd hk hd hd' rfl
      have h7 := ih' (fun y hy => ih y (by simp [hy]))
        { c with side := fx .mapValueEnd ((toks v).foldl (fun d t => fx t d) (fx .mapValueBegin (fx .mapKeyEnd ((toks k).foldl (fun d t => fx t d) (fx .mapKeyBegin c.side))))) } hk hd hd'
      have := h1.append (h2.append (h3.append (h4.append (h5.append (h6.append h7)))))
      simpa [toksMap] using this
  | tag m => exact leaves _ (by simp [toks, isLeaf])
  | tagged m v ih =>
    intro c hk hd
    have h1 := M.tagB c m hk hd
    have h2 := ih { c with side := fx (.taggedBegin m) c.side, depth := if c.inEnum then c.depth + 1 else c.depth } hk
      (by dsimp only; split <;> omega)
    have h3 := M.tagE { c with side := (toks v).foldl (fun d t => fx t d) (fx (.taggedBegin m) c.side),
                               depth := if c.inEnum then c.depth + 1 else c.depth } m hk
      (by dsimp only; split <;> omega) (fun h => by simp only [show c.inEnum = true from h, if_true]; omega)
    have := h1.append (h2.append h3)
    cases he : c.inEnum <;> simpa [toks, he] using this
  | enum m v ih =>
    intro c hk hd
    have h1 := M.leaf c (.enumBegin m) hk hd rfl
    have h2 := ih { c with side := fx (.enumBegin m) c.side } hk hd
    have h3 := M.leaf { c with side := (toks v).foldl (fun d t => fx t d) (fx (.enumBegin m) c.side) } (.enumEnd m) hk hd rfl
    have := h1.append (h2.append h3)
    simpa [toks] using this
  | record m n fs ih =>
    refine inner (.recordBegin m n) (.recordEnd m) (toksRec fs) rfl rfl ?_
    induction fs with
    | nil => intro c _ _ _; exact Does.nil cfg c
    | cons x xs ih' =>
      intro c hk hd hd'
      obtain ⟨t, l, x⟩ := x
      have h1 := M.mid c (.recordValueBegin t l) hk hd hd' rfl
      have h2 := ih (t, l, x) (by simp) { c with side := fx (.recordValueBegin t l) c.side } hk hd
      have h3 := M.mid { c with side := (toks x).foldl (fun d t => fx t d) (fx (.recordValueBegin t l) c.side) } (.recordValueEnd t l) hk hd hd' rfl
      have h4 := ih' (fun y hy => ih y (by simp [hy]))
        { c with side := fx (.recordValueEnd t l) ((toks x).foldl (fun d t => fx t d) (fx (.recordValueBegin t l) c.side)) } hk hd hd'
      have := h1.append (h2.append (h3.append h4))
      simpa [toksRec] using this
  | tuple m n fs ih =>
    refine inner (.tupleBegin m n) (.tupleEnd m) (toksTup fs) rfl rfl ?_
    induction fs with
    | nil => intro c _ _ _; exact Does.nil cfg c
    | cons x xs ih' =>
      intro c hk hd hd'
      obtain ⟨t, l, x⟩ := x
      have h1 := M.mid c (.tupleValueBegin t l) hk hd hd' rfl
      have h2 := ih (t, l, x) (by simp) { c with side := fx (.tupleValueBegin t l) c.side } hk hd
      have h3 := M.mid { c with side := (toks x).foldl (fun d t => fx t d) (fx (.tupleValueBegin t l) c.side) } (.tupleValueEnd t l) hk hd hd' rfl
      have h4 := ih' (fun y hy => ih y (by simp [hy]))
        { c with side := fx (.tupleValueEnd t l) ((toks x).foldl (fun d t => fx t d) (fx (.tupleValueBegin t l) c.side)) } hk hd hd'
      have := h1.append (h2.append (h3.append h4))
      simpa [toksTup] using this
  | recordTuple m n fs ih =>
    refine inner (.recordTupleBegin m n) (.recordTupleEnd m) (toksRT fs) rfl rfl ?_
    induction fs with
    | nil => intro c _ _ _; exact Does.nil cfg c
    | cons x xs ih' =>
      intro c hk hd hd'
      obtain ⟨t, l, i, x⟩ := x
      have h1 := M.mid c (.recordTupleValueBegin t l i) hk hd hd' rfl
      have h2 := ih (t, l, i, x) (by simp) { c with side := fx (.recordTupleValueBegin t l i) c.side } hk hd
      have h3 := M.mid { c with side := (toks x).foldl (fun d t => fx t d) (fx (.recordTupleValueBegin t l i) c.side) } (.recordTupleValueEnd t l i) hk hd hd' rfl
      have h4 := ih' (fun y hy => ih y (by simp [hy]))
        { c with side := fx (.recordTupleValueEnd t l i) ((toks x).foldl (fun d t => fx t d) (fx (.recordTupleValueBegin t l i) c.side)) } hk hd hd'
      have := h1.append (h2.append (h3.append h4))
      simpa [toksRT] using this
  | hint t v ih =>
    intro c hk hd
    have h1 := M.leaf c (.tagHint t) hk hd rfl
    have h2 := ih { c with side := fx (.tagHint t) c.side } hk hd
    exact h1.append h2

/-! ## Inside an entry -/

/-- The calls that come out for a nested value. -/
def broken (v : V) : List Token := (toks v).map passed

theorem seenAfter_passed (t : Token) : seenAfter (passed t) false = false := by cases t <;> rfl

theorem streamFx_passed (kind : Kind) (t : Token) (d : Side) (h : d.seen = false) : streamFx kind (passed t) d = d := by
  unfold streamFx
  cases kind <;> try rfl
  obtain ⟨l, s⟩ := d
  cases h
  simp [seenAfter_passed]

theorem does_pass (cfg : Cfg) (v : V) (c : Ctl) (hk : c.inKey = false) (hd : 0 < c.depth) (hs : c.side.seen = false) :
    Does cfg (toks v) c (broken v) c := by
  have := (mode_pass cfg).value v c hk hd
  have hf : ∀ (ts : List Token) (d : Side), d.seen = false →
      ts.foldl (fun d t => streamFx cfg.kind (passed t) d) d = d := by
    intro ts
    induction ts with
    | nil => intro d _; rfl
    | cons t ts ih => intro d h; rw [List.foldl_cons, streamFx_passed _ _ _ h]; exact ih d h
  rw [hf _ _ hs] at this
  have hm : (toks v).flatMap (fun t => [passed t]) = broken v := by
    unfold broken
    induction toks v with
    | nil => rfl
    | cons t ts ih => simp [ih]
  rw [hm] at this
  exact this

end Sval.Flatten
