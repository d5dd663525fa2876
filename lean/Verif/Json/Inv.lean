import Verif.Json.Link

set_option autoImplicit false

/-!
# Invariants of the formatter, for any writer

`Pres R f`: whatever the outcome of `f`, short of a panic, the new state is related to the old one.
`Closed` says what a relation must allow for every method of the formatter to preserve it.
-/

namespace Sval.Json

/-- Of the state a call leaves, if it does not panic. -/
def Out {σ : Type} (P : σ → Prop) : Res Unit σ → Prop
  | .ok s => P s
  | .err _ s => P s
  | .panic => True

/-- Whatever the outcome. -/
def Pres {σ : Type} (R : σ → σ → Prop) (f : σ → Res Unit σ) : Prop := ∀ s, Out (R s) (f s)

theorem Pres.okR {σ : Type} {R : σ → σ → Prop} {f : σ → Res Unit σ} (h : Pres R f) {s s' : σ} (hf : f s = .ok s') : R s s' := by
  have := h s; rwa [hf] at this

theorem Pres.errR {σ : Type} {R : σ → σ → Prop} {f : σ → Res Unit σ} (h : Pres R f) {s s' : σ} {e : Unit}
    (hf : f s = .err e s') : R s s' := by
  have := h s; rwa [hf] at this

theorem Out.imp {σ : Type} {P Q : σ → Prop} (h : ∀ s, P s → Q s) {r : Res Unit σ} (hr : Out P r) : Out Q r := by
  cases r with
  | ok s => exact h s hr
  | err e s => exact h s hr
  | panic => trivial

theorem Pres.bind {σ : Type} {R : σ → σ → Prop} (trans : ∀ a b c, R a b → R b c → R a c) {f g : σ → Res Unit σ}
    (hf : Pres R f) (hg : Pres R g) : Pres R (fun s => (f s).bind g) := by
  intro s
  have h1 := hf s
  show Out (R s) ((f s).bind g)
  cases h : f s with
  | ok s' => rw [h] at h1; exact (hg s').imp fun s'' h2 => trans _ _ _ h1 h2
  | err e s' => rw [h] at h1; exact h1
  | panic => trivial

theorem Pres.pre {σ : Type} {R : σ → σ → Prop} (trans : ∀ a b c, R a b → R b c → R a c) {f : σ → Res Unit σ} {u : σ → σ}
    (hu : ∀ s, R s (u s)) (hf : Pres R f) : Pres R (fun s => f (u s)) :=
  fun s => (hf (u s)).imp fun _ h => trans _ _ _ (hu s) h

theorem Pres.ite {σ : Type} {R : σ → σ → Prop} {f g : σ → Res Unit σ} (p : σ → Prop) [DecidablePred p] (hf : Pres R f)
    (hg : Pres R g) : Pres R (fun s => if p s then f s else g s) := by
  intro s
  by_cases h : p s
  · simp only [if_pos h]; exact hf s
  · simp only [if_neg h]; exact hg s

theorem Pres.upd {σ : Type} {R : σ → σ → Prop} {u : σ → σ} (hu : ∀ s, R s (u s)) : Pres R (fun s => .ok (u s)) := fun s => hu s

theorem Pres.updErr {σ : Type} {R : σ → σ → Prop} {u : σ → σ} (hu : ∀ s, R s (u s)) : Pres R (fun s => .err () (u s)) := fun s => hu s

theorem Pres.run {σ : Type} {R : σ → σ → Prop} (refl : ∀ a, R a a) (trans : ∀ a b c, R a b → R b c → R a c)
    {f : Token → σ → Res Unit σ} (ts : List Token) (h : ∀ t ∈ ts, Pres R (f t)) : Pres R (Sval.run f ts) := by
  induction ts with
  | nil => exact .upd refl
  | cons t ts ih =>
    have := Pres.bind trans (h t (by simp)) (ih fun t ht => h t (by simp [ht]))
    intro s
    rw [run_cons]
    exact this s

variable {ω : Type} (w : Writer ω) (env : Env)

/-- What a relation must allow. `num` says whether the tag NUMBER must be allowed. -/
structure Closed (num : Bool) (R : St ω → St ω → Prop) : Prop where
  refl : ∀ a, R a a
  trans : ∀ a b c, R a b → R b c → R a c
  flags : ∀ (s : St ω) (tg em q bk : Bool), R s { s with tagged := tg, empty := em, quoted := q, badKey := bk }
  write : ∀ t, Pres R (wr (w t))
  frag : ∀ t, Pres R (textFragment w t)
  native : ∀ s : St ω, R s { s with handler := some .native }
  number : num = true → ∀ s : St ω, R s { s with handler := if s.handler.isNone then some (.number {}) else s.handler }
  ended : ∀ s : St ω, R s { s with handler := none }

namespace Closed
variable {w} {num : Bool} {R : St ω → St ω → Prop} (c : Closed w num R)
include c

theorem writes (ts : List Text) : Pres R (wr (writes w ts)) := by
  induction ts with
  | nil => intro s; exact c.refl s
  | cons t ts ih =>
    have := Pres.bind c.trans (c.write t) ih
    intro s
    have h := this s
    simp only [wr, Sval.Json.writes] at h ⊢
    cases hw : w t s.out with
    | ok o => simp only [hw, Res.bind] at h ⊢; exact h
    | err e o => simp only [hw, Res.bind] at h ⊢; exact h
    | panic => trivial

theorem escape (t : Text) : Pres R (wr (escapeStr w t)) := by
  have h : (fun o => escapeStr w t o) = Sval.Json.writes w (pieces [] t) := by
    funext o; rw [escapeStr, escapeLoop_writes]
  have := c.writes (pieces [] t)
  rw [← h] at this
  exact this

theorem scalar (t : Text) : Pres R (scalar w t) :=
  Pres.pre c.trans (u := fun s => { s with empty := false }) (fun s => c.flags s s.tagged false s.quoted s.badKey) (c.write t)

theorem tg (b : Bool) (s : St ω) : R s { s with tagged := b } := c.flags s b s.empty s.quoted s.badKey
theorem em (b : Bool) (s : St ω) : R s { s with empty := b } := c.flags s s.tagged b s.quoted s.badKey
theorem qu (b : Bool) (s : St ω) : R s { s with quoted := b } := c.flags s s.tagged s.empty b s.badKey
theorem bad (s : St ω) : R s { s with badKey := true } := c.flags s s.tagged s.empty s.quoted true

theorem skip : Pres R (fun s : St ω => (.ok s : Res Unit (St ω))) := .upd c.refl

theorem textBegin : Pres R (textBegin w) :=
  .ite (fun s : St ω => s.quoted = true) (.pre c.trans (u := fun s => { s with empty := false }) (c.em false) (c.write _)) (.upd (c.em false))

theorem textEnd : Pres R (textEnd w) := .ite (fun s : St ω => s.quoted = true) (c.write _) c.skip

theorem mapBegin : Pres R (mapBegin w) :=
  .ite (fun s : St ω => (!s.quoted) = true) (.updErr c.bad) (.pre c.trans (u := fun s => { s with empty := true }) (c.em true) (c.write _))

theorem mapKeyBegin : Pres R (mapKeyBegin w) :=
  .pre c.trans (u := fun s => { s with quoted := false, tagged := false }) (fun s => c.flags s false s.empty false s.badKey)
    (.ite (fun s : St ω => (!s.empty) = true) (c.write _) (c.write _))

theorem mapKeyEnd : Pres R (mapKeyEnd w) := .bind c.trans (c.write _) (.upd (c.qu true))

theorem mapEnd : Pres R (mapEnd w) := .pre c.trans (u := fun s => { s with empty := false }) (c.em false) (c.write _)

theorem seqBegin : Pres R (seqBegin w) :=
  .ite (fun s : St ω => (!s.quoted) = true) (.updErr c.bad) (.pre c.trans (u := fun s => { s with empty := true }) (c.em true) (c.write _))

theorem seqValueBegin : Pres R (seqValueBegin w) :=
  .pre c.trans (u := fun s => { s with tagged := false })
    (f := fun s => if (!s.empty) = true then wr (w [',']) s else .ok s) (c.tg false) (.ite (fun s : St ω => (!s.empty) = true) (c.write _) c.skip)

theorem seqEnd : Pres R (seqEnd w) := .pre c.trans (u := fun s => { s with empty := false }) (c.em false) (c.write _)

theorem tagMapBeginLabel (l : Text) : Pres R (tagMapBeginLabel w l) :=
  .bind c.trans c.mapBegin (.bind c.trans c.mapKeyBegin (.bind c.trans (c.escape l) c.mapKeyEnd))

theorem tagMapBeginIndex (i : Int) : Pres R (tagMapBeginIndex w i) :=
  .bind c.trans c.mapBegin (.bind c.trans c.mapKeyBegin (.bind c.trans (c.scalar _) c.mapKeyEnd))

theorem tagBegin (m : Meta) : Pres R (tagBegin w m) := by
  have h : Pres R (fun s : St ω => match m.label with
      | some l => Json.tagMapBeginLabel w l.text s
      | none =>
        match ixI64 m.index with
        | some i => Json.tagMapBeginIndex w i s
        | none => .ok s) := by
    cases m.label with
    | some l => exact c.tagMapBeginLabel l.text
    | none =>
      cases ixI64 m.index with
      | some i => exact c.tagMapBeginIndex i
      | none => exact c.skip
  exact .ite (fun s : St ω => s.tagged = true) (.pre c.trans (u := fun s => { s with tagged := false }) (c.tg false) h) c.skip

theorem tagEnd (m : Meta) : Pres R (tagEnd (ω := ω) m) := .upd (c.tg _)

theorem tagStep (m : Meta) : Pres R (tagStep w m) := by
  have h : Pres R (fun s : St ω => match m.label with
      | some l => (Json.textBegin w s).bind fun s => (textFragment w l.text s).bind fun s => Json.textEnd w s
      | none =>
        match ixI64 m.index with
        | some i => Json.scalar w (intDec i) s
        | none => Json.scalar w (t! "null") s) := by
    cases m.label with
    | some l => exact .bind c.trans c.textBegin (.bind c.trans (c.frag _) c.textEnd)
    | none =>
      cases ixI64 m.index with
      | some i => exact c.scalar _
      | none => exact c.scalar _
  exact .pre c.trans (u := fun s => { s with tagged := false, empty := false }) (fun s => c.flags s false false s.quoted s.badKey)
    (.ite (fun _ : St ω => m.tag = some tags.RUST_OPTION_NONE) (c.scalar _) h)

theorem taggedBegin (m : Meta) (h : m.tag = some tags.NUMBER → num = true) : Pres R (taggedBegin w m) := by
  unfold Json.taggedBegin
  refine .pre c.trans (u := fun s : St ω => if m.tag = some tags.JSON_TEXT then { s with handler := some .native }
    else if m.tag = some tags.JSON_VALUE then { s with quoted := false, handler := some .native }
    else if m.tag = some tags.NUMBER then
      { s with quoted := false, handler := if s.handler.isNone then some (.number {}) else s.handler }
    else if m.tag = some tags.JSON_NUMBER then { s with quoted := false, handler := some .native }
    else s) (fun s => ?_) (.bind c.trans (c.tagBegin m) (.upd (c.em true)))
  have hn : R s { s with quoted := false, handler := some .native } :=
    c.trans _ _ _ (c.qu false s) (c.native { s with quoted := false })
  show R s (if _ then _ else _)
  split
  · exact c.native s
  · split
    · exact hn
    · split
      · rename_i hm
        exact c.trans _ _ _ (c.qu false s) (c.number (h hm) { s with quoted := false })
      · split
        · exact hn
        · exact c.refl s

theorem taggedEnd (m : Meta) : Pres R (taggedEnd w m) := by
  have hq : ∀ s : St ω, R s { s with quoted := true, handler := none } := fun s =>
    c.trans _ _ _ (c.qu true s) (c.ended { s with quoted := true })
  refine .bind c.trans ?_ (.bind c.trans (.ite (fun s : St ω => s.empty = true) (c.tagStep m) c.skip) (c.tagEnd m))
  refine .ite (fun _ => m.tag = some tags.JSON_TEXT) (.upd c.ended) (.ite (fun _ => m.tag = some tags.JSON_VALUE) (.upd hq)
    (.ite (fun _ => m.tag = some tags.NUMBER) ?_ (.ite (fun _ => m.tag = some tags.JSON_NUMBER) (.upd hq) c.skip)))
  intro s
  show Out (R s) (match s.handler with
     | some (.number n) => wr (numEnd w n) { s with quoted := true, handler := none }
     | _ => .ok { s with quoted := true, handler := none })
  split
  · rename_i n _
    refine Out.imp (fun _ h => c.trans _ _ _ (hq s) h) (?_ : Out (R { s with quoted := true, handler := none }) _)
    unfold numEnd
    cases n.atStart
    · exact c.refl _
    · exact c.write ['0'] _
  · exact hq s

theorem enumBegin (m : Meta) : Pres R (enumBegin w m) :=
  .bind c.trans (c.tagBegin m) (.upd fun s => c.flags s true true s.quoted s.badKey)

theorem enumEnd (m : Meta) : Pres R (enumEnd w m) :=
  .bind c.trans (.ite (fun s : St ω => s.empty = true) (c.tagStep m) c.skip)
    (.ite (fun s : St ω => s.tagged = true) c.mapEnd (c.tagEnd m))

theorem recordValueBegin (l : Label) : Pres R (recordValueBegin w l) :=
  .pre c.trans (u := fun s => { s with tagged := false }) (c.tg false) (.bind c.trans (.ite (fun s : St ω => (!s.empty) = true) (c.write _) (c.write _))
    (.bind c.trans (.ite (fun _ : St ω => l.tag = some tags.VALUE_IDENT) (c.write _) (c.escape _)) (c.write _)))

theorem step (t : Token) (h : ∀ m, t = .taggedBegin m → m.tag = some tags.NUMBER → num = true) : Pres R (step w env t) := by
  have hfail : Pres R (fun s : St ω => .err () s) := .updErr c.refl
  cases t with
  | null => exact c.scalar _
  | bool b => exact c.scalar _
  | int t v => exact c.scalar _
  | f32 b => exact c.scalar _
  | f64 b => exact c.scalar _
  | textBegin n => exact c.textBegin
  | textFragmentComputed v => exact c.frag v
  | textEnd => exact c.textEnd
  | mapBegin n => exact c.mapBegin
  | mapKeyBegin => exact c.mapKeyBegin
  | mapKeyEnd => exact c.mapKeyEnd
  | mapValueBegin => exact c.skip
  | mapValueEnd => exact c.skip
  | mapEnd => exact c.mapEnd
  | seqBegin n => exact c.seqBegin
  | seqValueBegin => exact c.seqValueBegin
  | seqValueEnd => exact c.skip
  | seqEnd => exact c.seqEnd
  | enumBegin m => exact c.enumBegin m
  | enumEnd m => exact c.enumEnd m
  | taggedBegin m => exact c.taggedBegin m (h m rfl)
  | taggedEnd m => exact c.taggedEnd m
  | tag m => exact c.tagStep m
  | recordBegin m n => exact .bind c.trans (c.tagBegin m) c.mapBegin
  | recordValueBegin t l => exact c.recordValueBegin l
  | recordValueEnd t l => exact c.skip
  | recordEnd m => exact .bind c.trans c.mapEnd (c.tagEnd m)
  | tupleBegin m n => exact .bind c.trans (c.tagBegin m) c.seqBegin
  | tupleValueBegin t i => exact c.seqValueBegin
  | tupleValueEnd t i => exact c.skip
  | tupleEnd m => exact .bind c.trans c.seqEnd (c.tagEnd m)
  | textFragment v => exact hfail
  | binaryBegin n => exact hfail
  | binaryFragment s => exact hfail
  | binaryFragmentComputed s => exact hfail
  | binaryEnd => exact hfail
  | tagHint t => exact hfail
  | recordTupleBegin m n => exact hfail
  | recordTupleValueBegin t l i => exact hfail
  | recordTupleValueEnd t l i => exact hfail
  | recordTupleEnd m => exact hfail

end Closed

theorem tok_number {t u : Token} (h : u ∈ Low.tok jsonCaps t) (m : Meta) (hu : u = .taggedBegin m) : t = .taggedBegin m := by
  subst hu
  cases t with
  | int t v => cases t <;> simp [Low.tok, Low.int, Low.u8, Low.u16, Low.u32, Low.u64, Low.u128, Low.i8, Low.i16, Low.i32, Low.i64,
      Low.i128, jsonCaps] at h
  | taggedBegin m' => simpa [Low.tok, Low.taggedBegin, jsonCaps, eq_comm] using h
  | _ => simp [Low.tok, Low.f32, Low.textFragment, Low.binaryBegin, Low.binaryFragment, Low.binaryFragmentComputed,
      Low.binaryEnd, Low.u8, Low.mapBegin, Low.mapKeyBegin, Low.mapKeyEnd, Low.mapValueBegin, Low.mapValueEnd, Low.mapEnd,
      Low.enumBegin, Low.enumEnd, Low.taggedEnd, Low.tag, Low.tagHint, Low.recordBegin, Low.recordValueBegin,
      Low.recordValueEnd, Low.recordEnd, Low.tupleBegin, Low.tupleValueBegin, Low.tupleValueEnd, Low.tupleEnd,
      Low.recordTupleBegin, Low.recordTupleValueBegin, Low.recordTupleValueEnd, Low.recordTupleEnd, jsonCaps] at h

theorem Closed.call {w : Writer ω} {num : Bool} {R : St ω → St ω → Prop} (c : Closed w num R) (t : Token)
    (h : ∀ m, t = .taggedBegin m → m.tag = some tags.NUMBER → num = true) : Pres R (call w env t) :=
  .run c.refl c.trans _ fun u hu => c.step env u fun m hm hn => h m (tok_number hu m hm) hn

/-! ## Output only grows -/

/-- `I` is kept by every write. -/
def Keeps (w : Writer ω) (I : ω → ω → Prop) : Prop := ∀ t, Pres I (w t)

section
variable {w} {I : ω → ω → Prop} (refl : ∀ o, I o o) (trans : ∀ a b c, I a b → I b c → I a c) (hw : Keeps w I)
include refl trans hw

omit refl trans in
theorem NumRun.write_keeps (t : Text) : Pres (fun r r' : NumRun ω => I r.out r'.out) (NumRun.write w t) := by
  intro r
  have h := hw t r.out
  unfold NumRun.write
  cases hr : w t r.out with
  | ok o => rw [hr] at h; exact h
  | err e o => rw [hr] at h; exact h
  | panic => trivial

theorem numLoop_keeps (v : Text) : Pres (fun r r' : NumRun ω => I r.out r'.out) (numLoop w v) := by
  have tr : ∀ a b c : NumRun ω, I a.out b.out → I b.out c.out → I a.out c.out := fun a b c => trans _ _ _
  have hwr := fun t => NumRun.write_keeps hw t
  have skip : Pres (fun r r' : NumRun ω => I r.out r'.out) (fun r => (.ok r : Res Unit (NumRun ω))) := .upd fun r => refl _
  induction v with
  | nil => exact skip
  | cons c cs ih =>
    refine .ite (fun r : NumRun ω => c = '0' ∧ r.st.atStart = true)
      (.pre tr (u := fun r => { r with start := r.start + 1, stop := r.stop + 1 }) (fun r => refl _) ih) ?_
    refine .ite (fun _ => isDigit c = true) (.bind tr (.ite (fun r : NumRun ω => (r.st.atStart && r.st.neg) = true) (hwr _) skip)
      (.pre tr (u := fun r => { r with st := { r.st with atStart := false }, stop := r.stop + 1 }) (fun r => refl _) ih)) ?_
    refine .ite (fun _ => c = '.') (.bind tr (.ite (fun r : NumRun ω => r.st.atStart = true)
        (.bind tr (.ite (fun r : NumRun ω => r.st.neg = true) (hwr _) skip) (hwr _)) skip)
      (.pre tr (u := fun r => { r with st := { r.st with atStart := false }, stop := r.stop + 1 }) (fun r => refl _) ih)) ?_
    refine .ite (fun r : NumRun ω => c = '-' ∧ r.st.atStart = true)
      (.pre tr (u := fun r => { r with st := { r.st with neg := true }, start := r.start + 1, stop := r.stop + 1 })
        (fun r => refl _) ih) ?_
    refine .ite (fun r : NumRun ω => c = '+' ∧ r.st.atStart = true)
      (.pre tr (u := fun r => { r with start := r.start + 1, stop := r.stop + 1 }) (fun r => refl _) ih) ?_
    refine .ite (fun _ => c ∈ t! "sniSNI") ?_
      (.pre tr (u := fun r => { r with stop := r.stop + c.utf8Size }) (fun r => refl _) ih)
    exact .bind tr (.pre tr (u := fun r => { r with st := { r.st with nan := true, atStart := false } }) (fun r => refl _) (hwr _))
      (.upd fun r => refl _)

theorem numFragment_keeps (v : Text) : Pres (fun r r' : NumSt × ω => I r.2 r'.2) (numFragment w v) := by
  intro r
  unfold numFragment
  split
  · exact refl _
  · have h := numLoop_keeps refl trans hw v { st := r.1, out := r.2 }
    cases hr : numLoop w v { st := r.1, out := r.2 } with
    | ok r1 =>
      rw [hr] at h
      simp only
      cases sliceBytes v r1.start r1.stop with
      | none => trivial
      | some t =>
        have h2 := hw t r1.out
        simp only
        cases hr2 : w t r1.out with
        | ok o => rw [hr2] at h2; exact trans _ _ _ h h2
        | err e o => rw [hr2] at h2; exact trans _ _ _ h h2
        | panic => trivial
    | err e r1 => rw [hr] at h; exact h
    | panic => trivial

omit refl trans in
theorem keeps_wr (t : Text) : Pres (fun s s' : St ω => I s.out s'.out) (wr (w t)) := by
  intro s
  have h := hw t s.out
  unfold wr
  cases hr : w t s.out with
  | ok o => rw [hr] at h; exact h
  | err e o => rw [hr] at h; exact h
  | panic => trivial

/-- Anything kept by every write is kept by every method. -/
theorem keeps_closed : Closed w true (fun s s' : St ω => I s.out s'.out) := by
  have hwr := keeps_wr hw
  have hesc : ∀ v, Pres (fun s s' : St ω => I s.out s'.out) (wr (escapeStr w v)) := by
    intro v
    have : ∀ ts, Pres I (writes w ts) := by
      intro ts
      induction ts with
      | nil => exact .upd refl
      | cons t ts ih => exact .bind trans (hw t) ih
    intro s
    have h := this (pieces [] v) s.out
    rw [← escapeLoop_writes] at h
    unfold wr
    rw [escapeStr]
    cases hr : escapeLoop w [] v s.out with
    | ok o => rw [hr] at h; exact h
    | err e o => rw [hr] at h; exact h
    | panic => trivial
  refine ⟨fun s => refl _, fun a b c => trans _ _ _, fun s _ _ _ _ => refl _, hwr, fun v => ?_, fun s => refl _,
    fun _ s => refl _, fun s => refl _⟩
  intro s
  unfold textFragment
  cases s.handler with
  | none => exact hesc v s
  | some h =>
    cases h with
    | native => exact hwr v s
    | number n =>
      have h := numFragment_keeps refl trans hw v (n, s.out)
      simp only
      cases hr : numFragment w v (n, s.out) with
      | ok r => rw [hr] at h; exact h
      | err e r => rw [hr] at h; exact h
      | panic => trivial
end

theorem prefix_closed : Closed strWriter true (fun s s' : St Text => s.out <+: s'.out) :=
  keeps_closed (I := (· <+: ·)) (fun o => List.prefix_refl o) (fun _ _ _ => List.IsPrefix.trans) fun t o => List.prefix_append o t

/-! ## No number handler -/

def notNum (s : St ω) : Prop := ∀ n, s.handler ≠ some (.number n)

theorem notNum_closed : Closed w false (fun s s' : St ω => notNum s → notNum s') := by
  have hwr : ∀ f : ω → Res Unit ω, Pres (fun s s' : St ω => notNum s → notNum s') (wr f) := by
    intro f s
    unfold wr
    cases f s.out with
    | ok o => exact fun h => h
    | err e o => exact fun h => h
    | panic => trivial
  refine ⟨fun s h => h, fun a b c h h' x => h' (h x), fun s _ _ _ _ h => h, fun t => hwr _, fun v => ?_,
    fun s h n => (by simp), fun h => (by cases h), fun s h n => (by simp)⟩
  intro s
  unfold textFragment
  cases hs : s.handler with
  | none => exact hwr _ s
  | some h =>
    cases h with
    | native => exact hwr _ s
    | number n =>
      simp only
      cases numFragment w v (n, s.out) with
      | ok r => exact fun h => absurd hs (h n)
      | err e r => exact fun h => absurd hs (h n)
      | panic => trivial

end Sval.Json
