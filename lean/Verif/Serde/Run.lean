import Verif.Serde.Spec
import Verif.Nested.Plain

set_option autoImplicit false

namespace Sval.Serde

open Nested (Arg Cb Item runCb own Opened Variant Shows Showing prog supported Makes)

section
variable {ε τ : Type}

theorem foldl_bind (r : Res ε τ) (l : List (τ → Res ε τ)) : l.foldl Res.bind r = r.bind (seqM l) := by
  induction l generalizing r with
  | nil => cases r <;> rfl
  | cons f l ih =>
    have e : seqM (f :: l) = fun s => (f s).bind (seqM l) := funext fun s => ih (f s)
    rw [List.foldl_cons, ih, e]
    cases r <;> rfl

@[simp] theorem seqM_nil (s : τ) : seqM ([] : List (τ → Res ε τ)) s = .ok s := rfl
@[simp] theorem seqM_cons (f : τ → Res ε τ) (l : List (τ → Res ε τ)) (s : τ) : seqM (f :: l) s = (f s).bind (seqM l) := by
  simp only [seqM, List.foldl_cons, Res.bind_ok]
  exact foldl_bind _ _

theorem toOwned_static (l : Label) : l.toOwned.asStaticStr = l.asStaticStr := by
  unfold Label.toOwned Label.asStaticStr
  split <;> simp_all [Label.new, Label.newOwned]

theorem staticName_own (m : Meta) : staticName (own m) = staticName m := by
  unfold staticName own
  cases m.label with
  | none => rfl
  | some l => exact toOwned_static l

theorem variantOf_own (m : Meta) : variantOf (own m) = variantOf m := by
  unfold variantOf
  rw [staticName_own]
  rfl

variable (custom : ε) (S : SCall ε τ → τ → Res ε τ)

/-- A method for an element does `f`. -/
def Elem (C : Cb → St ε τ → Res Unit (St ε τ)) (m : Mode) (c : Cb) (f : τ → Res ε τ) : Prop :=
  (∀ s, match f s with
    | .ok s' => C c ⟨m, none, s⟩ = .ok ⟨m, none, s'⟩
    | .err _ s' => ∃ st, C c ⟨m, none, s⟩ = .err () st ∧ st.s = s'
    | .panic => C c ⟨m, none, s⟩ = .panic) ∧
  ∀ e s, ∃ st, C c ⟨m, some e, s⟩ = .err () st ∧ st.s = s

/-- The methods for elements do `F`. -/
inductive Elems (C : Cb → St ε τ → Res Unit (St ε τ)) (m : Mode) : List Cb → List (τ → Res ε τ) → Prop
  | nil : Elems C m [] []
  | cons {c : Cb} {f : τ → Res ε τ} {X : List Cb} {F : List (τ → Res ε τ)} (h : Elem C m c f) (t : Elems C m X F) :
    Elems C m (c :: X) (f :: F)

theorem run_elems (C : Cb → St ε τ → Res Unit (St ε τ)) (m : Mode) (X : List Cb) (F : List (τ → Res ε τ)) (e : SCall ε τ) (c : Cb)
    (h : Elems C m X F) (he : ∀ s, C c ⟨m, none, s⟩ = keep S .over e ⟨m, none, s⟩) (s : τ) :
    finish custom (runCb C (X ++ [c]) ⟨m, none, s⟩).outcome = (lose custom (seqM F s)).bind (S e) := by
  induction h generalizing s with
  | nil =>
    simp only [List.nil_append, Nested.runCb_cons, he, seqM_nil, lose, Res.bind_ok, keep]
    cases S e s <;> rfl
  | cons h t ih =>
    rename_i c' f X F
    have := h.1 s
    simp only [List.cons_append, Nested.runCb_cons, seqM_cons]
    cases hf : f s with
    | ok s' =>
      rw [hf] at this
      rw [this]
      exact ih s'
    | err x s' =>
      rw [hf] at this
      obtain ⟨st, h1, rfl⟩ := this
      rw [h1]
      rfl
    | panic =>
      rw [hf] at this
      rw [this]
      rfl

theorem run_lossy (C : Cb → St ε τ → Res Unit (St ε τ)) (m : Mode) (X : List Cb) (F : List (τ → Res ε τ)) (b e : SCall ε τ) (c0 c : Cb)
    (m0 : Mode) (s : τ) (hb : C c0 ⟨m0, none, s⟩ = keep S m b ⟨m0, none, s⟩)
    (h : Elems C m X F) (he : ∀ s, C c ⟨m, none, s⟩ = keep S .over e ⟨m, none, s⟩)
    (he' : ∀ e s, C c ⟨m, some e, s⟩ = .ok ⟨.over, some e, s⟩) :
    finish custom (runCb C (c0 :: (X ++ [c])) ⟨m0, none, s⟩).outcome = lossy custom S b F e s := by
  simp only [Nested.runCb_cons, hb, keep, lossy]
  cases S b s with
  | ok s' => exact run_elems custom S C m X F e c h he s'
  | err x s' =>
    simp only [Res.bind_ok]
    cases h with
    | nil => simp [he', Res.outcome, finish]
    | cons h t =>
      obtain ⟨st, h1, rfl⟩ := h.2 x s'
      simp [h1, Res.outcome, finish]
  | panic => rfl

variable (K : Bool → Prog → τ → Outcome (St ε τ))

/-- Streaming the argument, borrowed, serializes the value. -/
def Good (a : Arg) (v : V) : Prop := ∀ s, finish custom (K false a.prog s) = serV custom S v s

variable {custom S K}

theorem Good.eq {a : Arg} {v : V} (h : Good custom S K a v) : (fun s => finish custom (K false a.prog s)) = serV custom S v :=
  funext h

theorem elem_of {m : Mode} {c : Cb} {x : SCall ε τ}
    (h : ∀ fl s, adapter custom S K c ⟨m, fl, s⟩ = element S x ⟨m, fl, s⟩) :
    Elem (adapter custom S K) m c (S x) := by
  refine ⟨fun s => ?_, fun e s => ⟨_, h _ _, rfl⟩⟩
  rw [h]
  simp only [element]
  cases S x s with
  | ok s' => rfl
  | err e s' => exact ⟨_, rfl, rfl⟩
  | panic => rfl

theorem elem_bad {m : Mode} {c : Cb} (h : ∀ fl s, adapter custom S K c ⟨m, fl, s⟩ = .err () ⟨m, fl, s⟩) :
    Elem (adapter custom S K) m c (bad custom) :=
  ⟨fun _ => ⟨_, h _ _, rfl⟩, fun _ _ => ⟨_, h _ _, rfl⟩⟩

theorem elems_seq (L : List (Arg × V)) (h : ∀ x ∈ L, Good custom S K x.1 x.2) :
    Elems (adapter custom S K) .seq (L.map fun x => .seqValue x.1) (serVs custom S (L.map (·.2))) := by
  induction L with
  | nil => simpa [serVs] using Elems.nil
  | cons x L ih =>
    simp only [List.map_cons, serVs]
    refine .cons ?_ (ih fun y hy => h y (List.mem_cons_of_mem _ hy))
    rw [← (h x List.mem_cons_self).eq]
    exact elem_of fun _ _ => rfl

theorem elems_map (L : List ((Arg × V) × (Arg × V))) (h1 : ∀ x ∈ L, Good custom S K x.1.1 x.1.2) (h2 : ∀ x ∈ L, Good custom S K x.2.1 x.2.2) :
    Elems (adapter custom S K) .map (L.flatMap fun x => [.mapKey x.1.1, .mapValue x.2.1])
      (serVMap custom S (L.map fun x => (x.1.2, x.2.2))) := by
  induction L with
  | nil => simpa [serVMap] using Elems.nil
  | cons x L ih =>
    simp only [List.map_cons, serVMap, List.flatMap_cons, List.cons_append, List.nil_append]
    rw [← (h1 x List.mem_cons_self).eq, ← (h2 x List.mem_cons_self).eq]
    exact .cons (elem_of fun _ _ => rfl) (.cons (elem_of fun _ _ => rfl)
      (ih (fun y hy => h1 y (List.mem_cons_of_mem _ hy)) fun y hy => h2 y (List.mem_cons_of_mem _ hy)))

theorem elems_tup (m : Mode) (k : (τ → Res ε τ) → SCall ε τ)
    (hk : ∀ t i a fl s, adapter custom S K (.tupleValue t i a) ⟨m, fl, s⟩ =
      element S (k fun s => finish custom (K false a.prog s)) ⟨m, fl, s⟩)
    (L : List (Option Tag × Index × Arg × V)) (h : ∀ x ∈ L, Good custom S K x.2.2.1 x.2.2.2) :
    Elems (adapter custom S K) m (L.map fun x => .tupleValue x.1 x.2.1 x.2.2.1)
      (serVTup custom S k (L.map fun x => (x.1, x.2.1, x.2.2.2))) := by
  induction L with
  | nil => simpa [serVTup] using Elems.nil
  | cons x L ih =>
    simp only [List.map_cons, serVTup]
    refine .cons ?_ (ih fun y hy => h y (List.mem_cons_of_mem _ hy))
    rw [← (h x List.mem_cons_self).eq]
    exact elem_of fun _ _ => hk ..

theorem elems_rec (m : Mode) (k : Option (Text → (τ → Res ε τ) → SCall ε τ))
    (hk : match k with
      | none => ∀ t l a fl s, adapter custom S K (.recordValue t l a) ⟨m, fl, s⟩ =
          element S (.tupleElement fun s => finish custom (K false a.prog s)) ⟨m, fl, s⟩
      | some k => ∀ t l a fl s, adapter custom S K (.recordValue t l a) ⟨m, fl, s⟩ =
          match l.asStaticStr with
          | some l => element S (k l fun s => finish custom (K false a.prog s)) ⟨m, fl, s⟩
          | none => .err () ⟨m, fl, s⟩)
    (L : List (Option Tag × Label × Arg × V)) (h : ∀ x ∈ L, Good custom S K x.2.2.1 x.2.2.2) :
    Elems (adapter custom S K) m (L.map fun x => .recordValue x.1 x.2.1 x.2.2.1)
      (serVRec custom S k (L.map fun x => (x.1, x.2.1, x.2.2.2))) := by
  induction L with
  | nil => simpa [serVRec] using Elems.nil
  | cons x L ih =>
    simp only [List.map_cons, serVRec]
    refine .cons ?_ (ih fun y hy => h y (List.mem_cons_of_mem _ hy))
    rw [← (h x List.mem_cons_self).eq]
    cases k with
    | none => exact elem_of fun _ _ => hk ..
    | some k =>
      cases hl : x.2.1.asStaticStr with
      | none => exact elem_bad fun fl s => by rw [hk, hl]
      | some l => exact elem_of fun fl s => by rw [hk, hl]

theorem record_true (t : Option Tag) (l : Label) (a : Arg) (fl : Option ε) (s : τ) :
    adapter custom S K (.recordValue t l a) ⟨.record true, fl, s⟩ =
      match l.asStaticStr with
      | some l => element S (.structField l fun s => finish custom (K false a.prog s)) ⟨.record true, fl, s⟩
      | none => .err () ⟨.record true, fl, s⟩ := by
  simp only [adapter]
  cases fl <;> cases l.asStaticStr <;> rfl

theorem variant_run {X : List Cb} {v : V} (h : Variant (Good custom S K) X v) (name : Text) (s : τ) :
    finish custom (runCb (adapter custom S K) X ⟨.enum name, none, s⟩).outcome = serVariant custom S name v s := by
  cases h with
  | tag m =>
    simp only [serVariant, variantOf_own, Nested.runCb_cons, adapter]
    cases variantOf m with
    | none => rfl
    | some p =>
      simp only [keep]
      cases S (.unitVariant name p.1 p.2) s <;> rfl
  | tagged m a v h =>
    simp only [serVariant, variantOf_own, Nested.runCb_cons, adapter]
    cases variantOf m with
    | none => rfl
    | some p =>
      simp only [keep, h.eq]
      cases S (.newtypeVariant name p.1 p.2 (serV custom S v)) s <;> rfl
  | tuple m n L h =>
    simp only [serVariant, variantOf_own]
    cases hv : variantOf m with
    | none => simp [adapter, hv, Res.outcome, finish, bad]
    | some p =>
      cases n with
      | none => simp [adapter, hv, Res.outcome, finish, bad]
      | some n =>
        exact run_lossy custom S _ .vtuple _ _ _ .tupleVariantEnd _ _ _ s (by simp [adapter, hv])
          (elems_tup .vtuple .tupleVariantField (fun _ _ _ _ _ => rfl) L h) (fun _ => rfl) (fun _ _ => rfl)
  | record m n L h =>
    simp only [serVariant, variantOf_own]
    cases hv : variantOf m with
    | none => simp [adapter, hv, Res.outcome, finish, bad]
    | some p =>
      cases n with
      | none => simp [adapter, hv, Res.outcome, finish, bad]
      | some n =>
        exact run_lossy custom S _ .vrecord _ _ _ .structVariantEnd _ _ _ s (by simp [adapter, hv])
          (elems_rec .vrecord (some .structVariantField) (fun _ _ _ _ _ => rfl) L h) (fun _ => rfl) (fun _ _ => rfl)
  | nested m X v h => rfl

theorem own_label (m : Meta) : (own m).label = m.label.map Label.toOwned := rfl

theorem opened_run {X : List Cb} {v : V} (h : Opened (Good custom S K) X v) (s : τ) :
    finish custom (runCb (adapter custom S K) X ⟨.top, none, s⟩).outcome = serV custom S v s := by
  have one : ∀ (x : SCall ε τ) (r : Res Unit (St ε τ)), r = keep S .over x ⟨.top, none, s⟩ →
      finish custom (r.bind (runCb (adapter custom S K) [])).outcome = S x s := by
    rintro x r rfl
    simp only [keep]
    cases S x s <;> rfl
  cases h with
  | null => exact one .none _ rfl
  | bool b => exact one (.bool b) _ rfl
  | int t v => exact one (.int t v) _ rfl
  | f32 b => exact one (.f32 b) _ rfl
  | f64 b => exact one (.f64 b) _ rfl
  | text b t =>
    simp only [Nested.text, serV, List.map_cons, List.map_nil, Frag.content, List.flatten_cons, List.flatten_nil, List.append_nil]
    exact one (.str t) _ rfl
  | binary b t =>
    simp only [Nested.binary, serV, List.map_cons, List.map_nil, Frag.content, List.flatten_cons, List.flatten_nil, List.append_nil]
    exact one (.bytes t) _ rfl
  | tag m =>
    simp only [serV, staticName_own, Nested.runCb_cons, adapter]
    have e : (own m).tag = m.tag := rfl
    rw [e]
    split
    · exact one .none _ rfl
    · split
      · exact one .unit _ rfl
      · cases staticName m with
        | none => rfl
        | some name => exact one (.unitStruct name) _ rfl
  | tagged m a v h =>
    have e : (own m).tag = m.tag := rfl
    simp only [serV, staticName_own, Nested.runCb_cons, adapter, h.eq, e]
    split
    · exact one (.some _) _ rfl
    · cases staticName m with
      | none => rfl
      | some name => exact one (.newtypeStruct name _) _ rfl
  | seq n L h =>
    exact run_lossy custom S _ .seq _ _ (.seq n) .seqEnd _ _ _ s rfl (elems_seq L h) (fun _ => rfl) (fun _ _ => rfl)
  | map n L h1 h2 =>
    exact run_lossy custom S _ .map _ _ (.map n) .mapEnd _ _ _ s rfl (elems_map L h1 h2) (fun _ => rfl) (fun _ _ => rfl)
  | tuple m n L h =>
    simp only [serV, own_label]
    cases n with
    | none => rfl
    | some n =>
      cases hl : m.label with
      | none =>
        exact run_lossy custom S _ (.tuple false) _ _ _ .tupleEnd _ _ _ s (by simp [adapter, hl])
          (elems_tup (.tuple false) .tupleElement (fun _ _ _ _ _ => rfl) L h) (fun _ => rfl) (fun _ _ => rfl)
      | some l =>
        simp only [Option.map_some, toOwned_static]
        cases hs : l.asStaticStr with
        | none => simp [adapter, hl, hs, Res.outcome, finish, bad]
        | some name =>
          exact run_lossy custom S _ (.tuple true) _ _ _ .tupleStructEnd _ _ _ s (by simp [adapter, hl, hs])
            (elems_tup (.tuple true) .tupleStructField (fun _ _ _ _ _ => rfl) L h) (fun _ => rfl) (fun _ _ => rfl)
  | record m n L h =>
    simp only [serV, own_label]
    cases n with
    | none => rfl
    | some n =>
      cases hl : m.label with
      | none =>
        exact run_lossy custom S _ (.record false) _ _ _ .tupleEnd _ _ _ s (by simp [adapter, hl])
          (elems_rec (.record false) none (fun _ _ _ _ _ => rfl) L h) (fun _ => rfl) (fun _ _ => rfl)
      | some l =>
        simp only [Option.map_some, toOwned_static]
        cases hs : l.asStaticStr with
        | none => simp [adapter, hl, hs, Res.outcome, finish, bad]
        | some name =>
          exact run_lossy custom S _ (.record true) _ _ _ .structEnd _ _ _ s (by simp [adapter, hl, hs])
            (elems_rec (.record true) (some .structField) record_true L h) (fun _ => rfl) (fun _ _ => rfl)
  | enum m X v h =>
    simp only [serV, staticName_own]
    cases hs : staticName m with
    | none => simp [adapter, hs, Res.outcome, finish, bad]
    | some name =>
      simp only [Nested.runCb_cons, adapter, hs, Res.bind_ok]
      exact variant_run h name s

/-! ## Depth -/

/-- Deep enough for all. -/
theorem bound_mem {α : Type} (L : List α) (P : Nat → α → Prop) (h : ∀ x ∈ L, ∃ N, ∀ n ≥ N, P n x) :
    ∃ N, ∀ n ≥ N, ∀ x ∈ L, P n x := by
  induction L with
  | nil => exact ⟨0, fun _ _ x hx => by simp at hx⟩
  | cons y L ih =>
    obtain ⟨N1, h1⟩ := h y List.mem_cons_self
    obtain ⟨N2, h2⟩ := ih fun x hx => h x (List.mem_cons_of_mem _ hx)
    refine ⟨max N1 N2, fun n hn x hx => ?_⟩
    rcases List.mem_cons.1 hx with rfl | hx
    · exact h1 n (by omega)
    · exact h2 n (by omega) x hx

theorem bound_variant {R : Nat → Arg → V → Prop} {X : List Cb} {v : V}
    (h : Variant (fun a w => ∃ N, ∀ n ≥ N, R n a w) X v) : ∃ N, ∀ n ≥ N, Variant (R n) X v := by
  induction h with
  | tag m => exact ⟨0, fun _ _ => .tag m⟩
  | tagged m a v h => obtain ⟨N, h⟩ := h; exact ⟨N, fun n hn => .tagged m a v (h n hn)⟩
  | tuple m k L h =>
    obtain ⟨N, h⟩ := bound_mem L (fun n x => R n x.2.2.1 x.2.2.2) h
    exact ⟨N, fun n hn => .tuple m k L (h n hn)⟩
  | record m k L h =>
    obtain ⟨N, h⟩ := bound_mem L (fun n x => R n x.2.2.1 x.2.2.2) h
    exact ⟨N, fun n hn => .record m k L (h n hn)⟩
  | nested m X v _ ih => obtain ⟨N, h⟩ := ih; exact ⟨N, fun n hn => .nested m X v (h n hn)⟩

theorem bound_opened {R : Nat → Arg → V → Prop} {X : List Cb} {v : V}
    (h : Opened (fun a w => ∃ N, ∀ n ≥ N, R n a w) X v) : ∃ N, ∀ n ≥ N, Opened (R n) X v := by
  cases h with
  | null => exact ⟨0, fun _ _ => .null⟩
  | bool b => exact ⟨0, fun _ _ => .bool b⟩
  | int t v => exact ⟨0, fun _ _ => .int t v⟩
  | f32 b => exact ⟨0, fun _ _ => .f32 b⟩
  | f64 b => exact ⟨0, fun _ _ => .f64 b⟩
  | text b s => exact ⟨0, fun _ _ => .text b s⟩
  | binary b s => exact ⟨0, fun _ _ => .binary b s⟩
  | tag m => exact ⟨0, fun _ _ => .tag m⟩
  | tagged m a v h => obtain ⟨N, h⟩ := h; exact ⟨N, fun n hn => .tagged m a v (h n hn)⟩
  | seq k L h =>
    obtain ⟨N, h⟩ := bound_mem L (fun n x => R n x.1 x.2) h
    exact ⟨N, fun n hn => .seq k L (h n hn)⟩
  | map k L h1 h2 =>
    obtain ⟨N1, h1⟩ := bound_mem L (fun n x => R n x.1.1 x.1.2) h1
    obtain ⟨N2, h2⟩ := bound_mem L (fun n x => R n x.2.1 x.2.2) h2
    exact ⟨max N1 N2, fun n hn => .map k L (h1 n (by omega)) (h2 n (by omega))⟩
  | tuple m k L h =>
    obtain ⟨N, h⟩ := bound_mem L (fun n x => R n x.2.2.1 x.2.2.2) h
    exact ⟨N, fun n hn => .tuple m k L (h n hn)⟩
  | record m k L h =>
    obtain ⟨N, h⟩ := bound_mem L (fun n x => R n x.2.2.1 x.2.2.2) h
    exact ⟨N, fun n hn => .record m k L (h n hn)⟩
  | enum m X v h => obtain ⟨N, h⟩ := bound_variant h; exact ⟨N, fun n hn => .enum m X v (h n hn)⟩

variable (custom S)

theorem into_shows (n : Nat) : ∀ (k : Nat) (q : List Item) (v : V), sizeOf v ≤ n → Nested.size q ≤ k → Shows q v → supported v = true →
    ∃ N, ∀ d ≥ N, ∀ c s, finish custom (into custom S d c (prog q) s) = serV custom S v s := by
  induction n with
  | zero => intro _ _ v hn; cases v <;> simp at hn
  | succ n ihn =>
    intro k
    induction k with
    | zero =>
      intro q v _ hk h
      exfalso
      cases h <;> simp [Nested.size, Item.size] at hk
    | succ k ihk =>
      intro q v hn hk h hs
      have each : ∀ c, ∃ N, ∀ d ≥ N, ∀ s, finish custom (into custom S d c (prog q) s) = serV custom S v s := by
        intro c
        rcases Nested.makes_any h (Nested.rootOk_of_supported hs) c with ⟨X, hX, hm⟩ | ⟨b, r, h1, h2, h3, hm⟩
        · have : Opened (fun a w => ∃ N, ∀ d ≥ N, Good custom S (into custom S d) a w) X v := by
            refine hX.imp hs ?_
            intro b w hw hsw hb
            obtain ⟨r, hr, hb⟩ := hb
            obtain ⟨N, hN⟩ := ihn (Nested.size r) r w (by omega) (Nat.le_refl _) hb hsw
            exact ⟨N, fun d hd s => by rw [hr]; exact hN d hd false s⟩
          obtain ⟨N, hN⟩ := bound_opened this
          refine ⟨N + 1, fun d hd s => ?_⟩
          obtain ⟨d, rfl⟩ : ∃ e, d = e + 1 := ⟨d - 1, by omega⟩
          rw [into, hm]
          exact opened_run (hN d (by omega)) s
        · obtain ⟨N, hN⟩ := ihk r v hn (by omega) h2 hs
          refine ⟨N + 1, fun d hd s => ?_⟩
          obtain ⟨d, rfl⟩ : ∃ e, d = e + 1 := ⟨d - 1, by omega⟩
          rw [into, hm, ← hN d (by omega) (!b.borrowed) s]
          simp only [Nested.runCb_cons, adapter, h1]
          cases into custom S d (!b.borrowed) (prog r) s with
          | panicked => rfl
          | done ok st => cases ok <;> rfl
      obtain ⟨N1, h1⟩ := each false
      obtain ⟨N2, h2⟩ := each true
      exact ⟨max N1 N2, fun d hd c s => by cases c; exacts [h1 d (by omega) s, h2 d (by omega) s]⟩

/-- Deep enough, a value that shows a tree is serialized as that tree. -/
theorem serialize_shows {q : List Item} {v : V} (h : Shows q v) (hs : supported v = true) :
    ∃ N, ∀ d ≥ N, ∀ s, serialize custom S d (prog q) s = serV custom S v s := by
  obtain ⟨N, hN⟩ := into_shows custom S _ _ q v (Nat.le_refl _) (Nat.le_refl _) h hs
  exact ⟨N, fun d hd s => hN d hd false s⟩

end

end Sval.Serde
