import Verif.Json.Join

set_option autoImplicit false

/-!
# The formatter does the same on any two writers

As long as both writers succeed, the formatter makes the same calls on both. When only the first one
fails, the formatter stops there, and `F` relates what the first has to what the second will have.
-/

namespace Sval.Json

def Pair {σ τ : Type} (S F : σ → τ → Prop) : Res Unit σ → Res Unit τ → Prop
  | .ok a, .ok b => S a b
  | .err _ a, .err _ b => S a b ∨ F a b
  | .err _ a, .ok b => F a b
  | .err _ a, .panic => ∃ b, F a b
  | .panic, .panic => True
  | .panic, _ => False
  | .ok _, _ => False

structure Sim {σ τ : Type} (S F : σ → τ → Prop) (f : σ → Res Unit σ) (g : τ → Res Unit τ) : Prop where
  both : ∀ a b, S a b → Pair S F (f a) (g b)
  only : ∀ a b, F a b → Out (F a) (g b)

namespace Sim
variable {σ τ : Type} {S F : σ → τ → Prop}

theorem bind {f f' : σ → Res Unit σ} {g g' : τ → Res Unit τ} (h : Sim S F f g) (h' : Sim S F f' g') :
    Sim S F (fun a => (f a).bind f') (fun b => (g b).bind g') := by
  constructor
  · intro a b hs
    have h1 := h.both a b hs
    show Pair S F ((f a).bind f') ((g b).bind g')
    cases hf : f a with
    | ok a' =>
      cases hg : g b with
      | ok b' => rw [hf, hg] at h1; exact h'.both a' b' h1
      | err e b' => rw [hf, hg] at h1; exact h1.elim
      | panic => rw [hf, hg] at h1; exact h1.elim
    | err e a' =>
      cases hg : g b with
      | ok b' =>
        rw [hf, hg] at h1
        have h2 := h'.only a' b' h1
        show Pair S F (.err e a') (g' b')
        cases hg' : g' b' with
        | ok b'' => rw [hg'] at h2; exact h2
        | err e' b'' => rw [hg'] at h2; exact .inr h2
        | panic => exact ⟨b', h1⟩
      | err e' b' => rw [hf, hg] at h1; exact h1
      | panic => rw [hf, hg] at h1; exact h1
    | panic =>
      cases hg : g b with
      | ok _ => rw [hf, hg] at h1; exact h1.elim
      | err _ _ => rw [hf, hg] at h1; exact h1.elim
      | panic => trivial
  · intro a b hF
    have h1 := h.only a b hF
    show Out (F a) ((g b).bind g')
    cases hg : g b with
    | ok b' => rw [hg] at h1; exact h'.only a b' h1
    | err e b' => rw [hg] at h1; exact h1
    | panic => trivial

theorem pre {f : σ → Res Unit σ} {g : τ → Res Unit τ} (u : σ → σ) (u' : τ → τ) (hS : ∀ a b, S a b → S (u a) (u' b))
    (hF : ∀ a b, F a b → F a (u' b)) (h : Sim S F f g) : Sim S F (fun a => f (u a)) (fun b => g (u' b)) :=
  ⟨fun a b hs => h.both _ _ (hS a b hs), fun a b hf => h.only a _ (hF a b hf)⟩

theorem ite {f f' : σ → Res Unit σ} {g g' : τ → Res Unit τ} (p : σ → Prop) (q : τ → Prop) [DecidablePred p] [DecidablePred q]
    (hpq : ∀ a b, S a b → (p a ↔ q b)) (h : Sim S F f g) (h' : Sim S F f' g') :
    Sim S F (fun a => if p a then f a else f' a) (fun b => if q b then g b else g' b) := by
  constructor
  · intro a b hs
    have := hpq a b hs
    by_cases hp : p a
    · simp only [if_pos hp, if_pos (this.1 hp)]; exact h.both a b hs
    · simp only [if_neg hp, if_neg (fun hq => hp (this.2 hq))]; exact h'.both a b hs
  · intro a b hf
    by_cases hq : q b
    · simp only [if_pos hq]; exact h.only a b hf
    · simp only [if_neg hq]; exact h'.only a b hf

theorem upd (u : σ → σ) (u' : τ → τ) (hS : ∀ a b, S a b → S (u a) (u' b)) (hF : ∀ a b, F a b → F a (u' b)) :
    Sim S F (fun a => .ok (u a)) (fun b => .ok (u' b)) :=
  ⟨fun a b hs => hS a b hs, fun a b hf => hF a b hf⟩

theorem updErr (u : σ → σ) (u' : τ → τ) (hS : ∀ a b, S a b → S (u a) (u' b)) (hF : ∀ a b, F a b → F a (u' b)) :
    Sim S F (fun a => .err () (u a)) (fun b => .err () (u' b)) :=
  ⟨fun a b hs => .inl (hS a b hs), fun a b hf => hF a b hf⟩

theorem skip : Sim S F (fun a => (.ok a : Res Unit σ)) (fun b => (.ok b : Res Unit τ)) :=
  ⟨fun _ _ hs => hs, fun _ _ hf => hf⟩

theorem run {f : Token → σ → Res Unit σ} {g : Token → τ → Res Unit τ} (ts : List Token) (h : ∀ t, Sim S F (f t) (g t)) :
    Sim S F (Sval.run f ts) (Sval.run g ts) := by
  induction ts with
  | nil => exact skip
  | cons t ts ih =>
    have := bind (h t) ih
    exact ⟨fun a b hs => by rw [run_cons, run_cons]; exact this.both a b hs,
      fun a b hf => by rw [run_cons]; exact this.only a b hf⟩
end Sim

section
variable {ω υ : Type} {w : Writer ω} {x : Writer υ} {ρ φ : ω → υ → Prop}

/-- The same flags, related outputs. -/
def SR (ρ : ω → υ → Prop) (a : St ω) (b : St υ) : Prop :=
  a.tagged = b.tagged ∧ a.empty = b.empty ∧ a.quoted = b.quoted ∧ a.handler = b.handler ∧ a.badKey = b.badKey ∧ ρ a.out b.out

def FR (φ : ω → υ → Prop) (a : St ω) (b : St υ) : Prop := φ a.out b.out

abbrev SimS (ρ φ : ω → υ → Prop) := Sim (SR ρ) (FR φ)

theorem simWr {f : ω → Res Unit ω} {g : υ → Res Unit υ} (h : Sim ρ φ f g) : SimS ρ φ (wr f) (wr g) := by
  constructor
  · rintro a b ⟨h1, h2, h3, h4, h5, h6⟩
    have := h.both _ _ h6
    unfold wr
    cases hf : f a.out with
    | ok o =>
      cases hg : g b.out with
      | ok o' => rw [hf, hg] at this; exact ⟨h1, h2, h3, h4, h5, this⟩
      | err e o' => rw [hf, hg] at this; exact this.elim
      | panic => rw [hf, hg] at this; exact this.elim
    | err e o =>
      cases hg : g b.out with
      | ok o' => rw [hf, hg] at this; exact this
      | err e o' =>
        rw [hf, hg] at this
        rcases this with this | this
        · exact .inl ⟨h1, h2, h3, h4, h5, this⟩
        · exact .inr this
      | panic =>
        rw [hf, hg] at this
        obtain ⟨o', this⟩ := this
        exact ⟨{ b with out := o' }, this⟩
    | panic =>
      cases hg : g b.out with
      | ok _ => rw [hf, hg] at this; exact this.elim
      | err _ _ => rw [hf, hg] at this; exact this.elim
      | panic => trivial
  · intro a b hF
    have := h.only a.out b.out hF
    unfold wr
    cases hg : g b.out with
    | ok o' => rw [hg] at this; exact this
    | err e o' => rw [hg] at this; exact this
    | panic => trivial

variable (hw : ∀ t, Sim ρ φ (w t) (x t))
include hw

theorem simWrites (ts : List Text) : Sim ρ φ (writes w ts) (writes x ts) := by
  induction ts with
  | nil => exact .skip
  | cons t ts ih => exact .bind (hw t) ih

theorem simEscape (v : Text) : Sim ρ φ (escapeStr w v) (escapeStr x v) := by
  have := simWrites hw (pieces [] v)
  constructor
  · intro a b h
    rw [escapeStr, escapeStr, escapeLoop_writes, escapeLoop_writes]
    exact this.both a b h
  · intro a b h
    rw [escapeStr, escapeLoop_writes]
    exact this.only a b h

/-! ### Numbers -/

def NR (ρ : ω → υ → Prop) (a : NumRun ω) (b : NumRun υ) : Prop :=
  a.st = b.st ∧ a.start = b.start ∧ a.stop = b.stop ∧ ρ a.out b.out

def NF (φ : ω → υ → Prop) (a : NumRun ω) (b : NumRun υ) : Prop := φ a.out b.out

theorem simNumWrite (t : Text) : Sim (NR ρ) (NF φ) (NumRun.write w t) (NumRun.write x t) := by
  constructor
  · rintro a b ⟨h1, h2, h3, h6⟩
    have := (hw t).both _ _ h6
    unfold NumRun.write
    cases hf : w t a.out with
    | ok o =>
      cases hg : x t b.out with
      | ok o' => rw [hf, hg] at this; exact ⟨h1, h2, h3, this⟩
      | err e o' => rw [hf, hg] at this; exact this.elim
      | panic => rw [hf, hg] at this; exact this.elim
    | err e o =>
      cases hg : x t b.out with
      | ok o' => rw [hf, hg] at this; exact this
      | err e o' =>
        rw [hf, hg] at this
        rcases this with this | this
        · exact .inl ⟨h1, h2, h3, this⟩
        · exact .inr this
      | panic =>
        rw [hf, hg] at this
        obtain ⟨o', this⟩ := this
        exact ⟨{ b with out := o' }, this⟩
    | panic =>
      cases hg : x t b.out with
      | ok _ => rw [hf, hg] at this; exact this.elim
      | err _ _ => rw [hf, hg] at this; exact this.elim
      | panic => trivial
  · intro a b hF
    have := (hw t).only a.out b.out hF
    unfold NumRun.write
    cases hg : x t b.out with
    | ok o' => rw [hg] at this; exact this
    | err e o' => rw [hg] at this; exact this
    | panic => trivial

theorem simNumLoop (v : Text) : Sim (NR ρ) (NF φ) (numLoop w v) (numLoop x v) := by
  have hwr := simNumWrite hw
  induction v with
  | nil => exact .skip
  | cons c cs ih =>
    refine .ite (fun r : NumRun ω => c = '0' ∧ r.st.atStart = true) (fun r : NumRun υ => c = '0' ∧ r.st.atStart = true)
      (fun a b h => by rw [h.1])
      (.pre (fun r => { r with start := r.start + 1, stop := r.stop + 1 }) (fun r => { r with start := r.start + 1, stop := r.stop + 1 })
        (fun a b h => ⟨h.1, by simp [h.2.1], by simp [h.2.2.1], h.2.2.2⟩) (fun _ _ h => h) ih) ?_
    refine .ite (fun _ => isDigit c = true) (fun _ => isDigit c = true) (fun _ _ _ => Iff.rfl)
      (.bind (.ite (fun r : NumRun ω => (r.st.atStart && r.st.neg) = true) (fun r : NumRun υ => (r.st.atStart && r.st.neg) = true)
        (fun a b h => by rw [h.1]) (hwr _) .skip)
      (.pre (fun r => { r with st := { r.st with atStart := false }, stop := r.stop + 1 })
        (fun r => { r with st := { r.st with atStart := false }, stop := r.stop + 1 })
        (fun a b h => ⟨by simp [h.1], h.2.1, by simp [h.2.2.1], h.2.2.2⟩) (fun _ _ h => h) ih)) ?_
    refine .ite (fun _ => c = '.') (fun _ => c = '.') (fun _ _ _ => Iff.rfl)
      (.bind (.ite (fun r : NumRun ω => r.st.atStart = true) (fun r : NumRun υ => r.st.atStart = true) (fun a b h => by rw [h.1])
        (.bind (.ite (fun r : NumRun ω => r.st.neg = true) (fun r : NumRun υ => r.st.neg = true) (fun a b h => by rw [h.1])
          (hwr _) .skip) (hwr _)) .skip)
      (.pre (fun r => { r with st := { r.st with atStart := false }, stop := r.stop + 1 })
        (fun r => { r with st := { r.st with atStart := false }, stop := r.stop + 1 })
        (fun a b h => ⟨by simp [h.1], h.2.1, by simp [h.2.2.1], h.2.2.2⟩) (fun _ _ h => h) ih)) ?_
    refine .ite (fun r : NumRun ω => c = '-' ∧ r.st.atStart = true) (fun r : NumRun υ => c = '-' ∧ r.st.atStart = true)
      (fun a b h => by rw [h.1])
      (.pre (fun r => { r with st := { r.st with neg := true }, start := r.start + 1, stop := r.stop + 1 })
        (fun r => { r with st := { r.st with neg := true }, start := r.start + 1, stop := r.stop + 1 })
        (fun a b h => ⟨by simp [h.1], by simp [h.2.1], by simp [h.2.2.1], h.2.2.2⟩) (fun _ _ h => h) ih) ?_
    refine .ite (fun r : NumRun ω => c = '+' ∧ r.st.atStart = true) (fun r : NumRun υ => c = '+' ∧ r.st.atStart = true)
      (fun a b h => by rw [h.1])
      (.pre (fun r => { r with start := r.start + 1, stop := r.stop + 1 }) (fun r => { r with start := r.start + 1, stop := r.stop + 1 })
        (fun a b h => ⟨h.1, by simp [h.2.1], by simp [h.2.2.1], h.2.2.2⟩) (fun _ _ h => h) ih) ?_
    refine .ite (fun _ => c ∈ t! "sniSNI") (fun _ => c ∈ t! "sniSNI") (fun _ _ _ => Iff.rfl) ?_
      (.pre (fun r => { r with stop := r.stop + c.utf8Size }) (fun r => { r with stop := r.stop + c.utf8Size })
        (fun a b h => ⟨h.1, h.2.1, by simp [h.2.2.1], h.2.2.2⟩) (fun _ _ h => h) ih)
    exact .bind (.pre (fun r => { r with st := { r.st with nan := true, atStart := false } })
        (fun r => { r with st := { r.st with nan := true, atStart := false } })
        (fun a b h => ⟨by simp [h.1], h.2.1, h.2.2.1, h.2.2.2⟩) (fun _ _ h => h) (hwr _))
      (.upd (fun r : NumRun ω => { r with start := 0, stop := 0 }) (fun r : NumRun υ => { r with start := 0, stop := 0 })
        (fun a b h => ⟨h.1, rfl, rfl, h.2.2.2⟩) (fun _ _ h => h))

theorem simNumFragment (v : Text) :
    Sim (fun a b => a.1 = b.1 ∧ ρ a.2 b.2) (fun a b => φ a.2 b.2) (numFragment w v) (numFragment x v) := by
  have hl := simNumLoop hw v
  constructor
  · rintro ⟨n, o⟩ ⟨n', o'⟩ ⟨h1, h2⟩
    cases h1
    unfold numFragment
    split
    · exact ⟨rfl, h2⟩
    · have h := hl.both { st := n, out := o } { st := n, out := o' } ⟨rfl, rfl, rfl, h2⟩
      cases hr : numLoop w v { st := n, out := o } with
      | ok r1 =>
        cases hr' : numLoop x v { st := n, out := o' } with
        | ok r2 =>
          rw [hr, hr'] at h
          obtain ⟨e1, e2, e3, e4⟩ := h
          simp only
          rw [e2, e3]
          cases hsl : sliceBytes v r2.start r2.stop with
          | none => trivial
          | some t =>
            have h2 := (hw t).both _ _ e4
            simp only
            cases hg : w t r1.out with
            | ok p =>
              cases hg' : x t r2.out with
              | ok p' => rw [hg, hg'] at h2; exact ⟨e1, h2⟩
              | err e p' => rw [hg, hg'] at h2; exact h2.elim
              | panic => rw [hg, hg'] at h2; exact h2.elim
            | err e p =>
              cases hg' : x t r2.out with
              | ok p' => rw [hg, hg'] at h2; exact h2
              | err e p' =>
                rw [hg, hg'] at h2
                rcases h2 with h2 | h2
                · exact .inl ⟨e1, h2⟩
                · exact .inr h2
              | panic =>
                rw [hg, hg'] at h2
                obtain ⟨b, h2⟩ := h2
                exact ⟨(r2.st, b), h2⟩
            | panic =>
              cases hg' : x t r2.out with
              | ok _ => rw [hg, hg'] at h2; exact h2.elim
              | err _ _ => rw [hg, hg'] at h2; exact h2.elim
              | panic => trivial
        | err e r2 => rw [hr, hr'] at h; exact h.elim
        | panic => rw [hr, hr'] at h; exact h.elim
      | err e r1 =>
        cases hr' : numLoop x v { st := n, out := o' } with
        | ok r2 =>
          rw [hr, hr'] at h
          have h' : φ r1.out r2.out := h
          simp only
          cases hsl : sliceBytes v r2.start r2.stop with
          | none => exact ⟨(r2.st, r2.out), h'⟩
          | some t =>
            have h2 := (hw t).only _ _ h'
            simp only
            cases hg' : x t r2.out with
            | ok p' => rw [hg'] at h2; exact h2
            | err e p' => rw [hg'] at h2; exact .inr h2
            | panic => exact ⟨(r2.st, r2.out), h'⟩
        | err e r2 =>
          rw [hr, hr'] at h
          rcases h with h | h
          · exact .inl ⟨h.1, h.2.2.2⟩
          · exact .inr h
        | panic =>
          rw [hr, hr'] at h
          obtain ⟨b, h⟩ := h
          exact ⟨(b.st, b.out), h⟩
      | panic =>
        cases hr' : numLoop x v { st := n, out := o' } with
        | ok _ => rw [hr, hr'] at h; exact h.elim
        | err _ _ => rw [hr, hr'] at h; exact h.elim
        | panic => trivial
  · rintro ⟨n, o⟩ ⟨n', o'⟩ h
    unfold numFragment
    split
    · exact h
    · have h1 := hl.only { st := n, out := o } { st := n', out := o' } h
      cases hr' : numLoop x v { st := n', out := o' } with
      | ok r2 =>
        rw [hr'] at h1
        simp only
        cases hsl : sliceBytes v r2.start r2.stop with
        | none => trivial
        | some t =>
          have h2 := (hw t).only _ _ h1
          simp only
          cases hg' : x t r2.out with
          | ok p' => rw [hg'] at h2; exact h2
          | err e p' => rw [hg'] at h2; exact h2
          | panic => trivial
      | err e r2 => rw [hr'] at h1; exact h1
      | panic => trivial

/-! ### The methods -/

theorem simWrite (t : Text) : SimS ρ φ (wr (w t)) (wr (x t)) := simWr (hw t)

theorem simFrag (v : Text) : SimS ρ φ (textFragment w v) (textFragment x v) := by
  have hesc := simWr (simEscape hw v)
  have hn := simNumFragment hw v
  constructor
  · intro a b hs
    obtain ⟨h1, h2, h3, h4, h5, h6⟩ := id hs
    unfold textFragment
    rw [h4]
    cases b.handler with
    | none => exact hesc.both a b hs
    | some h =>
      cases h with
      | native => exact (simWrite hw v).both a b hs
      | number n =>
        have h := hn.both (n, a.out) (n, b.out) ⟨rfl, h6⟩
        simp only
        cases hr : numFragment w v (n, a.out) with
        | ok r1 =>
          cases hr' : numFragment x v (n, b.out) with
          | ok r2 => rw [hr, hr'] at h; exact ⟨h1, h2, h3, by simp [h.1], h5, h.2⟩
          | err e r2 => rw [hr, hr'] at h; exact h.elim
          | panic => rw [hr, hr'] at h; exact h.elim
        | err e r1 =>
          cases hr' : numFragment x v (n, b.out) with
          | ok r2 => rw [hr, hr'] at h; exact h
          | err e r2 =>
            rw [hr, hr'] at h
            rcases h with h | h
            · exact .inl ⟨h1, h2, h3, by simp [h.1], h5, h.2⟩
            · exact .inr h
          | panic =>
            rw [hr, hr'] at h
            obtain ⟨r, h⟩ := h
            exact ⟨{ b with out := r.2 }, h⟩
        | panic =>
          cases hr' : numFragment x v (n, b.out) with
          | ok _ => rw [hr, hr'] at h; exact h.elim
          | err _ _ => rw [hr, hr'] at h; exact h.elim
          | panic => trivial
  · intro a b hF
    unfold textFragment
    cases b.handler with
    | none => exact hesc.only a b hF
    | some h =>
      cases h with
      | native => exact (simWrite hw v).only a b hF
      | number n =>
        have h := hn.only (n, a.out) (n, b.out) hF
        simp only
        cases hr' : numFragment x v (n, b.out) with
        | ok r2 => rw [hr'] at h; exact h
        | err e r2 => rw [hr'] at h; exact h
        | panic => trivial

omit hw in
theorem fl (tg em qu bk : Bool → Bool) (hd : Option Handler → Option Handler) (a : St ω) (b : St υ) (hs : SR ρ a b) :
    SR ρ { a with tagged := tg a.tagged, empty := em a.empty, quoted := qu a.quoted, handler := hd a.handler, badKey := bk a.badKey }
      { b with tagged := tg b.tagged, empty := em b.empty, quoted := qu b.quoted, handler := hd b.handler, badKey := bk b.badKey } := by
  obtain ⟨h1, h2, h3, h4, h5, h6⟩ := hs
  exact ⟨by simp [h1], by simp [h2], by simp [h3], by simp [h4], by simp [h5], h6⟩

omit hw in
/-- Change the flags, then go on. -/
theorem preF {f : St ω → Res Unit (St ω)} {g : St υ → Res Unit (St υ)} (tg em qu bk : Bool → Bool) (hd : Option Handler → Option Handler)
    (h : SimS ρ φ f g) :
    SimS ρ φ (fun a => f { a with tagged := tg a.tagged, empty := em a.empty, quoted := qu a.quoted, handler := hd a.handler, badKey := bk a.badKey })
      (fun b => g { b with tagged := tg b.tagged, empty := em b.empty, quoted := qu b.quoted, handler := hd b.handler, badKey := bk b.badKey }) :=
  .pre _ _ (fl tg em qu bk hd) (fun _ _ h => h) h

omit hw in
theorem updF (tg em qu bk : Bool → Bool) (hd : Option Handler → Option Handler) :
    SimS ρ φ (fun a => .ok { a with tagged := tg a.tagged, empty := em a.empty, quoted := qu a.quoted, handler := hd a.handler, badKey := bk a.badKey })
      (fun b => .ok { b with tagged := tg b.tagged, empty := em b.empty, quoted := qu b.quoted, handler := hd b.handler, badKey := bk b.badKey }) :=
  .upd _ _ (fl tg em qu bk hd) (fun _ _ h => h)

omit hw in
theorem iteE {f f' : St ω → Res Unit (St ω)} {g g' : St υ → Res Unit (St υ)} (h : SimS ρ φ f g) (h' : SimS ρ φ f' g') :
    SimS ρ φ (fun a => if a.empty = true then f a else f' a) (fun a => if a.empty = true then g a else g' a) :=
  .ite (fun a : St ω => a.empty = true) (fun a : St υ => a.empty = true) (fun _ _ h => by rw [h.2.1]) h h'

omit hw in
theorem iteNE {f f' : St ω → Res Unit (St ω)} {g g' : St υ → Res Unit (St υ)} (h : SimS ρ φ f g) (h' : SimS ρ φ f' g') :
    SimS ρ φ (fun a => if (!a.empty) = true then f a else f' a) (fun a => if (!a.empty) = true then g a else g' a) :=
  .ite (fun a : St ω => (!a.empty) = true) (fun a : St υ => (!a.empty) = true) (fun _ _ h => by rw [h.2.1]) h h'

omit hw in
theorem iteT {f f' : St ω → Res Unit (St ω)} {g g' : St υ → Res Unit (St υ)} (h : SimS ρ φ f g) (h' : SimS ρ φ f' g') :
    SimS ρ φ (fun a => if a.tagged = true then f a else f' a) (fun a => if a.tagged = true then g a else g' a) :=
  .ite (fun a : St ω => a.tagged = true) (fun a : St υ => a.tagged = true) (fun _ _ h => by rw [h.1]) h h'

omit hw in
theorem iteQ {f f' : St ω → Res Unit (St ω)} {g g' : St υ → Res Unit (St υ)} (h : SimS ρ φ f g) (h' : SimS ρ φ f' g') :
    SimS ρ φ (fun a => if a.quoted = true then f a else f' a) (fun a => if a.quoted = true then g a else g' a) :=
  .ite (fun a : St ω => a.quoted = true) (fun a : St υ => a.quoted = true) (fun _ _ h => by rw [h.2.2.1]) h h'

omit hw in
theorem iteNQ {f f' : St ω → Res Unit (St ω)} {g g' : St υ → Res Unit (St υ)} (h : SimS ρ φ f g) (h' : SimS ρ φ f' g') :
    SimS ρ φ (fun a => if (!a.quoted) = true then f a else f' a) (fun a => if (!a.quoted) = true then g a else g' a) :=
  .ite (fun a : St ω => (!a.quoted) = true) (fun a : St υ => (!a.quoted) = true) (fun _ _ h => by rw [h.2.2.1]) h h'

omit hw in
theorem iteC {f f' : St ω → Res Unit (St ω)} {g g' : St υ → Res Unit (St υ)} (p : Prop) [Decidable p] (h : SimS ρ φ f g) (h' : SimS ρ φ f' g') :
    SimS ρ φ (fun a => if p then f a else f' a) (fun a => if p then g a else g' a) :=
  .ite (fun _ : St ω => p) (fun _ : St υ => p) (fun _ _ _ => Iff.rfl) h h'

theorem simScalar (t : Text) : SimS ρ φ (scalar w t) (scalar x t) := preF id (fun _ => false) id id id (simWrite hw t)

theorem simTextBegin : SimS ρ φ (textBegin w) (textBegin x) :=
  iteQ (preF id (fun _ => false) id id id (simWrite hw _)) (updF id (fun _ => false) id id id)

theorem simTextEnd : SimS ρ φ (textEnd w) (textEnd x) := iteQ (simWrite hw _) .skip

omit hw in
theorem simBad : SimS ρ φ (fun a => .err () { a with badKey := true }) (fun b => .err () { b with badKey := true }) :=
  .updErr _ _ (fl id id id (fun _ => true) id) (fun _ _ h => h)

theorem simMapBegin : SimS ρ φ (mapBegin w) (mapBegin x) :=
  iteNQ simBad (preF id (fun _ => true) id id id (simWrite hw _))

theorem simMapKeyBegin : SimS ρ φ (mapKeyBegin w) (mapKeyBegin x) :=
  preF (fun _ => false) id (fun _ => false) id id (iteNE (simWrite hw _) (simWrite hw _))

theorem simMapKeyEnd : SimS ρ φ (mapKeyEnd w) (mapKeyEnd x) := .bind (simWrite hw _) (updF id id (fun _ => true) id id)

theorem simMapEnd : SimS ρ φ (mapEnd w) (mapEnd x) := preF id (fun _ => false) id id id (simWrite hw _)

theorem simSeqBegin : SimS ρ φ (seqBegin w) (seqBegin x) :=
  iteNQ simBad (preF id (fun _ => true) id id id (simWrite hw _))

theorem simSeqValueBegin : SimS ρ φ (seqValueBegin w) (seqValueBegin x) :=
  preF (f := fun s => if (!s.empty) = true then wr (w [',']) s else .ok s)
    (g := fun s => if (!s.empty) = true then wr (x [',']) s else .ok s) (fun _ => false) id id id id (iteNE (simWrite hw _) .skip)

theorem simSeqEnd : SimS ρ φ (seqEnd w) (seqEnd x) := preF id (fun _ => false) id id id (simWrite hw _)

theorem simTagMapBeginLabel (l : Text) : SimS ρ φ (tagMapBeginLabel w l) (tagMapBeginLabel x l) :=
  .bind (simMapBegin hw) (.bind (simMapKeyBegin hw) (.bind (simWr (simEscape hw l)) (simMapKeyEnd hw)))

theorem simTagMapBeginIndex (i : Int) : SimS ρ φ (tagMapBeginIndex w i) (tagMapBeginIndex x i) :=
  .bind (simMapBegin hw) (.bind (simMapKeyBegin hw) (.bind (simScalar hw _) (simMapKeyEnd hw)))

theorem simTagBegin (m : Meta) : SimS ρ φ (tagBegin w m) (tagBegin x m) := by
  have h : SimS ρ φ (fun s : St ω => match m.label with
      | some l => tagMapBeginLabel w l.text s
      | none =>
        match ixI64 m.index with
        | some i => tagMapBeginIndex w i s
        | none => .ok s) (fun s : St υ => match m.label with
      | some l => tagMapBeginLabel x l.text s
      | none =>
        match ixI64 m.index with
        | some i => tagMapBeginIndex x i s
        | none => .ok s) := by
    cases m.label with
    | some l => exact simTagMapBeginLabel hw l.text
    | none =>
      cases ixI64 m.index with
      | some i => exact simTagMapBeginIndex hw i
      | none => exact .skip
  exact iteT (preF (fun _ => false) id id id id h) .skip

omit hw in
theorem simTagEnd (m : Meta) : SimS ρ φ (tagEnd (ω := ω) m) (tagEnd (ω := υ) m) :=
  updF (fun _ => m.label.isSome || (ixI64 m.index).isSome) id id id id

theorem simTagStep (m : Meta) : SimS ρ φ (tagStep w m) (tagStep x m) := by
  have h : SimS ρ φ (fun s : St ω => match m.label with
      | some l => (textBegin w s).bind fun s => (textFragment w l.text s).bind fun s => textEnd w s
      | none =>
        match ixI64 m.index with
        | some i => scalar w (intDec i) s
        | none => scalar w (t! "null") s) (fun s : St υ => match m.label with
      | some l => (textBegin x s).bind fun s => (textFragment x l.text s).bind fun s => textEnd x s
      | none =>
        match ixI64 m.index with
        | some i => scalar x (intDec i) s
        | none => scalar x (t! "null") s) := by
    cases m.label with
    | some l => exact .bind (simTextBegin hw) (.bind (simFrag hw _) (simTextEnd hw))
    | none =>
      cases ixI64 m.index with
      | some i => exact simScalar hw _
      | none => exact simScalar hw _
  exact preF (fun _ => false) (fun _ => false) id id id (iteC _ (simScalar hw _) h)

theorem simTaggedBegin (m : Meta) : SimS ρ φ (taggedBegin w m) (taggedBegin x m) := by
  unfold taggedBegin
  refine .pre (fun s : St ω => if m.tag = some tags.JSON_TEXT then { s with handler := some .native }
    else if m.tag = some tags.JSON_VALUE then { s with quoted := false, handler := some .native }
    else if m.tag = some tags.NUMBER then
      { s with quoted := false, handler := if s.handler.isNone then some (.number {}) else s.handler }
    else if m.tag = some tags.JSON_NUMBER then { s with quoted := false, handler := some .native }
    else s) (fun s : St υ => if m.tag = some tags.JSON_TEXT then { s with handler := some .native }
    else if m.tag = some tags.JSON_VALUE then { s with quoted := false, handler := some .native }
    else if m.tag = some tags.NUMBER then
      { s with quoted := false, handler := if s.handler.isNone then some (.number {}) else s.handler }
    else if m.tag = some tags.JSON_NUMBER then { s with quoted := false, handler := some .native }
    else s) ?_ ?_ (.bind (simTagBegin hw m) (updF id (fun _ => true) id id id))
  · intro a b hs
    show SR ρ (if _ then _ else _) (if _ then _ else _)
    split
    · exact fl id id id id (fun _ => some .native) a b hs
    · split
      · exact fl id id (fun _ => false) id (fun _ => some .native) a b hs
      · split
        · exact fl id id (fun _ => false) id (fun h => if h.isNone then some (.number {}) else h) a b hs
        · split
          · exact fl id id (fun _ => false) id (fun _ => some .native) a b hs
          · exact hs
  · intro a b hf
    show FR φ a (if _ then _ else _)
    split
    · exact hf
    · split
      · exact hf
      · split
        · exact hf
        · split
          · exact hf
          · exact hf

theorem simTaggedEnd (m : Meta) : SimS ρ φ (taggedEnd w m) (taggedEnd x m) := by
  have hq : SimS ρ φ (fun a => .ok { a with quoted := true, handler := none }) (fun b => .ok { b with quoted := true, handler := none }) :=
    updF id id (fun _ => true) id (fun _ => none)
  refine .bind ?_ (.bind (iteE (simTagStep hw m) .skip) (simTagEnd m))
  refine iteC _ (updF id id id id (fun _ => none)) (iteC _ hq (iteC _ ?_ (iteC _ hq .skip)))
  have hn : ∀ n : NumSt, SimS ρ φ (fun a => wr (numEnd w n) { a with quoted := true, handler := none })
      (fun b => wr (numEnd x n) { b with quoted := true, handler := none }) := by
    intro n
    refine preF (f := wr (numEnd w n)) (g := wr (numEnd x n)) id id (fun _ => true) id (fun _ => none) (simWr ?_)
    unfold numEnd
    cases n.atStart
    · exact .skip
    · exact hw ['0']
  constructor
  · intro a b hs
    show Pair _ _ (match a.handler with
     | some (.number n) => wr (numEnd w n) { a with quoted := true, handler := none }
     | _ => .ok { a with quoted := true, handler := none }) (match b.handler with
     | some (.number n) => wr (numEnd x n) { b with quoted := true, handler := none }
     | _ => .ok { b with quoted := true, handler := none })
    rw [show a.handler = b.handler from hs.2.2.2.1]
    cases hb : b.handler with
    | none => exact hq.both a b hs
    | some h =>
      cases h with
      | native => exact hq.both a b hs
      | number n => exact (hn n).both a b hs
  · intro a b hf
    show Out _ (match b.handler with
     | some (.number n) => wr (numEnd x n) { b with quoted := true, handler := none }
     | _ => .ok { b with quoted := true, handler := none })
    cases hb : b.handler with
    | none => exact hq.only a b hf
    | some h =>
      cases h with
      | native => exact hq.only a b hf
      | number n => exact (hn n).only a b hf

theorem simEnumBegin (m : Meta) : SimS ρ φ (enumBegin w m) (enumBegin x m) :=
  .bind (simTagBegin hw m) (updF (fun _ => true) (fun _ => true) id id id)

theorem simEnumEnd (m : Meta) : SimS ρ φ (enumEnd w m) (enumEnd x m) :=
  .bind (iteE (simTagStep hw m) .skip) (iteT (simMapEnd hw) (simTagEnd m))

theorem simRecordValueBegin (l : Label) : SimS ρ φ (recordValueBegin w l) (recordValueBegin x l) :=
  preF (fun _ => false) id id id id (.bind (iteNE (simWrite hw _) (simWrite hw _))
    (.bind (iteC _ (simWrite hw _) (simWr (simEscape hw _))) (simWrite hw _)))

theorem simStep (env : Env) (t : Token) : SimS ρ φ (step w env t) (step x env t) := by
  have hfail : SimS ρ φ (fun s : St ω => .err () s) (fun s : St υ => .err () s) :=
    .updErr _ _ (fun _ _ h => h) (fun _ _ h => h)
  cases t with
  | null => exact simScalar hw _
  | bool b => exact simScalar hw _
  | int t v => exact simScalar hw _
  | f32 b => exact simScalar hw _
  | f64 b => exact simScalar hw _
  | textBegin n => exact simTextBegin hw
  | textFragmentComputed v => exact simFrag hw v
  | textEnd => exact simTextEnd hw
  | mapBegin n => exact simMapBegin hw
  | mapKeyBegin => exact simMapKeyBegin hw
  | mapKeyEnd => exact simMapKeyEnd hw
  | mapValueBegin => exact .skip
  | mapValueEnd => exact .skip
  | mapEnd => exact simMapEnd hw
  | seqBegin n => exact simSeqBegin hw
  | seqValueBegin => exact simSeqValueBegin hw
  | seqValueEnd => exact .skip
  | seqEnd => exact simSeqEnd hw
  | enumBegin m => exact simEnumBegin hw m
  | enumEnd m => exact simEnumEnd hw m
  | taggedBegin m => exact simTaggedBegin hw m
  | taggedEnd m => exact simTaggedEnd hw m
  | tag m => exact simTagStep hw m
  | recordBegin m n => exact .bind (simTagBegin hw m) (simMapBegin hw)
  | recordValueBegin t l => exact simRecordValueBegin hw l
  | recordValueEnd t l => exact .skip
  | recordEnd m => exact .bind (simMapEnd hw) (simTagEnd m)
  | tupleBegin m n => exact .bind (simTagBegin hw m) (simSeqBegin hw)
  | tupleValueBegin t i => exact simSeqValueBegin hw
  | tupleValueEnd t i => exact .skip
  | tupleEnd m => exact .bind (simSeqEnd hw) (simTagEnd m)
  | textFragment v => exact hfail
  | binaryBegin n => exact hfail
  | binaryFragment s => exact hfail
  | binaryFragmentComputed s => exact hfail
  | binaryEnd => exact hfail
  | tagHint t => exact hfail
  | recordTupleBegin m n => exact hfail
  | recordTupleValueBegin t l i => exact hfail
  | recordTupleValueEnd t l i => exact hfail
  | recordTupleEnd m => exact hfail

/-- Every call on the formatter does the same on both writers. -/
theorem simCall (env : Env) (t : Token) : SimS ρ φ (call w env t) (call x env t) :=
  .run _ (simStep hw env)
end

end Sval.Json
