import Verif.Nested.Fills

set_option autoImplicit false

/-! # The methods that are called for a value -/

namespace Sval.Nested

open Buf (Appends Replays Part Opener)

/-! ## Agreeing with a list of methods -/

section
variable {σ : Type} (C : Cb → σ → Res Unit σ)

/-- Before `try_catch`. -/
def Agrees₀ (b : Option Buffered) (m : Mode) (r : Res Unit (St σ)) : Res Unit σ → Prop
  | .ok s => r = .ok ⟨b, m, s⟩
  | .err _ s => ∃ st, r = .err () st ∧ st.s = s
  | .panic => r = .panic

/-- The stream is left in the given state, or in `Done(Err)`. -/
def Agrees (b : Option Buffered) (m : Mode) (r : Outcome (St σ)) : Res Unit σ → Prop
  | .ok s => r = .done true ⟨b, m, s⟩
  | .err _ s => ∃ b', r = .done false ⟨b', .done false, s⟩
  | .panic => r = .panicked

theorem Agrees₀.catch {b : Option Buffered} {m : Mode} {a : Act σ} {st : St σ} {x : Res Unit σ}
    (h : Agrees₀ b m (a st) x) : Agrees b m (tryCatch a st).outcome x := by
  cases x with
  | ok s => simp only [Agrees₀] at h; simp [tryCatch, h, Res.outcome, Agrees]
  | err e s =>
    obtain ⟨st', h, rfl⟩ := h
    simp [tryCatch, h, Res.outcome, Agrees]
  | panic => simp only [Agrees₀] at h; simp [tryCatch, h, Res.outcome, Agrees]

theorem agrees₀_cb (c : Cb) (b : Option Buffered) (m : Mode) (s : σ) :
    Agrees₀ b m (cb C c ⟨b, m, s⟩) (runCb C [c] s) := by
  simp only [cb, runCb_cons]
  cases C c s <;> simp [Res.bind, Agrees₀]

theorem Agrees₀.bind {b b' : Option Buffered} {m m' : Mode} {r : Res Unit (St σ)} {x : Res Unit σ} {f : Act σ}
    {g : σ → Res Unit σ} (h : Agrees₀ b m r x) (hf : ∀ s, Agrees₀ b' m' (f ⟨b, m, s⟩) (g s)) :
    Agrees₀ b' m' (r.bind f) (x.bind g) := by
  cases x with
  | ok s => simp only [Agrees₀] at h; subst h; exact hf s
  | err e s => obtain ⟨st', rfl, rfl⟩ := h; exact ⟨st', rfl, rfl⟩
  | panic => simp only [Agrees₀] at h; subst h; rfl

theorem Agrees₀.to {b : Option Buffered} {m m' : Mode} {r : Res Unit (St σ)} {x : Res Unit σ}
    (h : Agrees₀ b m r x) : Agrees₀ b m' (r.bind (toMode m')) x := by
  have := h.bind (f := toMode m') (g := .ok) (b' := b) (m' := m') fun s => rfl
  cases x <;> exact this

/-- The methods around those of an inner enum. -/
def nested (q : List Meta) (X : List Cb) : List Cb := q.map .nestedBegin ++ (X ++ (q.reverse.map .nestedEnd))

theorem agrees₀_nest (q : List Meta) (X : List Cb) (a : Act σ) (b : Option Buffered) (m : Mode) (m' : Mode)
    (h : ∀ s, Agrees₀ b m' (a ⟨b, m, s⟩) (runCb C X s)) (s : σ) :
    Agrees₀ b m' (nest C q a ⟨b, m, s⟩) (runCb C (nested q X) s) := by
  induction q generalizing s with
  | nil => simpa [nest, nested] using h s
  | cons e q ih =>
    have h1 := (agrees₀_cb C (.nestedBegin e) b m s).bind (f := nest C q a) ih
    have h2 := h1.bind (f := cb C (.nestedEnd e)) (fun s => agrees₀_cb C (.nestedEnd e) b m' s)
    have e' : nested (e :: q) X = [.nestedBegin e] ++ (nested q X ++ [.nestedEnd e]) := by simp [nested]
    rw [e', runCb_append]
    have e2 : runCb C (nested q X ++ [.nestedEnd e]) = fun s => (runCb C (nested q X) s).bind (runCb C [.nestedEnd e]) := by
      funext s; exact runCb_append C _ _ s
    rw [e2, ← Res.bind_assoc]
    exact h2
end

/-- Doing `q` in one state calls the methods `X` and leads to another state. -/
def Does (q : List Item) (b : Option Buffered) (m : Mode) (X : List Cb) (b' : Option Buffered) (m' : Mode) : Prop :=
  ∀ (σ : Type) (C : Cb → σ → Res Unit σ) (s : σ), Agrees b' m' (exec C (prog q) false ⟨b, m, s⟩) (runCb C X s)

theorem Does.nil (b : Option Buffered) (m : Mode) : Does [] b m [] b m := fun _ _ _ => rfl

theorem Does.append {p q : List Item} {b b' b'' : Option Buffered} {m m' m'' : Mode} {X Y : List Cb}
    (h1 : Does p b m X b' m') (h2 : Does q b' m' Y b'' m'') : Does (p ++ q) b m (X ++ Y) b'' m'' := by
  intro σ C s
  have h := h1 σ C s
  rw [exec_append, runCb_append]
  cases e : runCb C X s with
  | ok s' =>
    rw [e] at h; simp only [Agrees] at h
    rw [h]; exact h2 σ C s'
  | err _ s' =>
    rw [e] at h
    obtain ⟨b', h⟩ := h
    rw [h]; exact ⟨b', rfl⟩
  | panic =>
    rw [e] at h; simp only [Agrees] at h
    rw [h]; rfl

theorem does_tok {t : Token} {b b' : Option Buffered} {m m' : Mode} {X : List Cb}
    (h : ∀ (σ : Type) (C : Cb → σ → Res Unit σ) (s : σ), Agrees b' m' (call C t ⟨b, m, s⟩).outcome (runCb C X s)) :
    Does [.tok t] b m X b' m' := by
  intro σ C s; rw [exec_tok]; exact h σ C s

theorem does_ok {t : Token} {b b' : Option Buffered} {m m' : Mode}
    (h : ∀ (σ : Type) (C : Cb → σ → Res Unit σ) (s : σ), call C t ⟨b, m, s⟩ = .ok ⟨b', m', s⟩) :
    Does [.tok t] b m [] b' m' :=
  does_tok fun σ C s => by rw [h]; rfl

theorem Does.cons {t : Token} {q : List Item} {b b' b'' : Option Buffered} {m m' m'' : Mode} {X Y : List Cb}
    (h1 : Does [.tok t] b m X b' m') (h2 : Does q b' m' Y b'' m'') : Does (.tok t :: q) b m (X ++ Y) b'' m'' :=
  h1.append h2

/-! ## Slots -/

/-- The states that wait for a value. -/
def isSlot : Mode → Bool
  | .seq | .map _ | .tagged _ | .vtagged _ _ | .tuple (some _) | .record (some _) | .vtuple (some _) | .vrecord (some _) => true
  | _ => false

/-- The methods that are called with that value. -/
def slotCb : Mode → Arg → List Cb
  | .seq, a => [.seqValue a]
  | .map true, a => [.mapKey a]
  | .map false, a => [.mapValue a]
  | .tagged m, a => [.tagged m a]
  | .vtagged m q, a => nested q [.variantTagged m a]
  | .tuple (some (t, i)), a => [.tupleValue t i a]
  | .record (some (t, l)), a => [.recordValue t l a]
  | .vtuple (some (t, i)), a => [.tupleValue t i a]
  | .vrecord (some (t, l)), a => [.recordValue t l a]
  | _, _ => []

def slotNext : Mode → Mode
  | .seq => .seq
  | .map k => .map k
  | .tagged _ | .vtagged _ _ => .done true
  | .tuple _ => .tuple none
  | .record _ => .record none
  | .vtuple _ => .vtuple none
  | .vrecord _ => .vrecord none
  | m => m

theorem agrees₀_put {σ : Type} (C : Cb → σ → Res Unit σ) (any : Cb) (a : Arg) (m : Mode) (hm : isSlot m = true) (s : σ) :
    Agrees₀ none (slotNext m) (put C any a ⟨none, m, s⟩) (runCb C (slotCb m a) s) := by
  cases m with
  | seq => exact agrees₀_cb C _ _ _ s
  | map k => cases k <;> exact agrees₀_cb C _ _ _ s
  | tagged m => exact (agrees₀_cb C _ _ _ s).to
  | vtagged m q => exact (agrees₀_nest C q _ _ _ _ _ (fun s => agrees₀_cb C _ _ _ s) s).to
  | tuple f => cases f with
    | none => exact Bool.noConfusion hm
    | some f => exact agrees₀_cb C _ _ _ s
  | record f => cases f with
    | none => exact Bool.noConfusion hm
    | some f => exact agrees₀_cb C _ _ _ s
  | vtuple f => cases f with
    | none => exact Bool.noConfusion hm
    | some f => exact agrees₀_cb C _ _ _ s
  | vrecord f => cases f with
    | none => exact Bool.noConfusion hm
    | some f => exact agrees₀_cb C _ _ _ s
  | any => exact Bool.noConfusion hm
  | enum q => exact Bool.noConfusion hm
  | done ok => exact Bool.noConfusion hm

theorem agrees₀_put_any {σ : Type} (C : Cb → σ → Res Unit σ) (any : Cb) (a : Arg) (s : σ) :
    Agrees₀ none (.done true) (put C any a ⟨none, .any, s⟩) (runCb C [any] s) :=
  (agrees₀_cb C _ _ _ s).to

/-- A value in `Any` or in a slot: the method, and the state after it. -/
def Puts (m : Mode) (any : Cb) (a : Arg) (X : List Cb) (m' : Mode) : Prop :=
  (m = .any ∧ X = [any] ∧ m' = .done true) ∨ (isSlot m = true ∧ X = slotCb m a ∧ m' = slotNext m)

theorem Puts.agrees₀ {m m' : Mode} {any : Cb} {a : Arg} {X : List Cb} (h : Puts m any a X m') {σ : Type}
    (C : Cb → σ → Res Unit σ) (s : σ) : Agrees₀ none m' (put C any a ⟨none, m, s⟩) (runCb C X s) := by
  rcases h with ⟨rfl, rfl, rfl⟩ | ⟨hm, rfl, rfl⟩
  · exact agrees₀_put_any C any a s
  · exact agrees₀_put C any a m hm s

theorem Puts.not_enum {m m' : Mode} {any : Cb} {a : Arg} {X : List Cb} (h : Puts m any a X m') (q : List Meta) : m ≠ .enum q := by
  rintro rfl
  rcases h with ⟨h, _⟩ | ⟨h, _⟩
  · exact Mode.noConfusion h
  · exact Bool.noConfusion h

theorem bufferOr_none {σ : Type} (t : Token) (a : Act σ) (m : Mode) (s : σ) (b : Option Buffered)
    (hb : ∀ v, b ≠ some (.value v)) : bufferOr t a ⟨b, m, s⟩ = tryCatch a ⟨b, m, s⟩ := by
  match b, hb with
  | none, _ => rfl
  | some (.text _), _ => rfl
  | some (.binary _), _ => rfl
  | some (.value v), hb => exact absurd rfl (hb v)

/-- Scalars. -/
theorem does_scalar {t : Token} {brw : Bool} {m m' : Mode} {X : List Cb}
    (ht : ∀ (σ : Type) (C : Cb → σ → Res Unit σ), call C t = bufferOr t (put C (.scalar t) ⟨brw, .ofToks [t]⟩))
    (h : Puts m (.scalar t) ⟨brw, .ofToks [t]⟩ X m') : Does [.tok t] none m X none m' := by
  refine does_tok fun σ C s => ?_
  rw [ht, bufferOr_none _ _ _ _ _ (by simp)]
  exact (h.agrees₀ C s).catch

theorem does_tag {mt : Meta} {m m' : Mode} {X : List Cb}
    (h : Puts m (.tag (cloneMeta mt)) ⟨false, .ofToks [.tag mt]⟩ X m') : Does [.tok (.tag mt)] none m X none m' := by
  refine does_tok fun σ C s => ?_
  simp only [call]
  rw [bufferOr_none _ _ _ _ _ (by simp)]
  refine Agrees₀.catch (m := m') (b := none) ?_
  have h0 := h.agrees₀ C s
  cases m with
  | enum q => exact absurd rfl (h.not_enum q)
  | _ => exact h0

theorem does_val {q : List Item} {m m' : Mode} {X : List Cb}
    (h : Puts m (.value ⟨true, prog q⟩) ⟨true, prog q⟩ X m') : Does [.val q] none m X none m' := by
  intro σ C s
  simp only [exec_one, delegate]
  have h0 := (h.agrees₀ C s).catch
  cases m with
  | enum q => exact absurd rfl (h.not_enum q)
  | _ => exact h0

theorem does_comp {q : List Item} {m m' : Mode} {X : List Cb}
    (h : Puts m (.value ⟨false, prog q⟩) ⟨false, prog q⟩ X m') : Does [.comp q] none m X none m' := by
  intro σ C s
  simp only [exec_one, delegate]
  have h0 := (h.agrees₀ C s).catch
  cases m with
  | enum q => exact absurd rfl (h.not_enum q)
  | _ => exact h0

theorem push_true (f : Frag Text) (c : Buf.Cow Char) :
    (match f with | .borrowed f => c.push true f | .computed f => c.pushComputed true f) = .ok (Buf.pushFrag c f) := by
  cases f with
  | borrowed f =>
    simp only [Buf.Cow.push, Buf.pushFrag]
    split <;> rfl
  | computed f => rfl

theorem pushBin_true (f : Frag Bytes) (c : Buf.Cow UInt8) :
    (match f with | .borrowed f => c.push true f | .computed f => c.pushComputed true f) = .ok (Buf.pushFrag c f) := by
  cases f with
  | borrowed f =>
    simp only [Buf.Cow.push, Buf.pushFrag]
    split <;> rfl
  | computed f => rfl

theorem does_textFrags (fs : List (Frag Text)) (c : Buf.Cow Char) (m : Mode) :
    Does (fs.map (Item.tok ∘ textFragTok)) (some (.text c)) m [] (some (.text (fs.foldl Buf.pushFrag c))) m := by
  induction fs generalizing c with
  | nil => exact .nil _ _
  | cons f fs ih =>
    refine Does.cons (X := []) (Y := []) ?_ (ih (Buf.pushFrag c f))
    refine does_ok fun σ C s => ?_
    have := push_true f c
    cases f <;> (simp only [textFragTok, call]; rw [bufferOr_none _ _ _ _ _ (by simp)]; simp only at this; simp [tryCatch, withText, this])

theorem does_binFrags (fs : List (Frag Bytes)) (c : Buf.Cow UInt8) (m : Mode) :
    Does (fs.map (Item.tok ∘ binFragTok)) (some (.binary c)) m [] (some (.binary (fs.foldl Buf.pushFrag c))) m := by
  induction fs generalizing c with
  | nil => exact .nil _ _
  | cons f fs ih =>
    refine Does.cons (X := []) (Y := []) ?_ (ih (Buf.pushFrag c f))
    refine does_ok fun σ C s => ?_
    have := pushBin_true f c
    cases f <;> (simp only [binFragTok, call]; rw [bufferOr_none _ _ _ _ _ (by simp)]; simp only at this; simp [tryCatch, withBinary, this])

/-- Is the text all of one borrowed fragment? -/
def isBorrowed {α : Type} (c : Buf.Cow α) : Bool := c.asBorrowed.isSome

theorem does_text (n : Option Nat) (fs : List (Frag Text)) (m : Mode) :
    ∃ b, ∀ X m', Puts m (.text b (fs.map Frag.content).flatten) (textArg b (fs.map Frag.content).flatten) X m' →
      Does (.tok (.textBegin n) :: (fs.map (Item.tok ∘ textFragTok) ++ [.tok .textEnd])) none m X none m' := by
  refine ⟨isBorrowed (Buf.merged fs), fun X m' h => ?_⟩
  refine Does.cons (X := []) (b' := some (.text .new)) (m' := m) (does_ok fun σ C s => rfl) ?_
  refine Does.append (X := []) (does_textFrags fs .new m) ?_
  have hm : fs.foldl Buf.pushFrag (Buf.Cow.new : Buf.Cow Char) = Buf.merged fs := Buf.merged_foldl [] fs
  rw [hm]
  refine does_tok fun σ C s => ?_
  have h0 := h.agrees₀ C s
  simp only [call]
  rw [bufferOr_none _ _ _ _ _ (by simp)]
  refine Agrees₀.catch ?_
  rw [← Buf.merged_content] at h0
  generalize Buf.merged fs = c at h0
  cases c <;> exact h0

theorem does_binary (n : Option Nat) (fs : List (Frag Bytes)) (m : Mode) :
    ∃ b, ∀ X m', Puts m (.binary b (fs.map Frag.content).flatten) (binaryArg b (fs.map Frag.content).flatten) X m' →
      Does (.tok (.binaryBegin n) :: (fs.map (Item.tok ∘ binFragTok) ++ [.tok .binaryEnd])) none m X none m' := by
  refine ⟨isBorrowed (Buf.merged fs), fun X m' h => ?_⟩
  refine Does.cons (X := []) (b' := some (.binary .new)) (m' := m) (does_ok fun σ C s => rfl) ?_
  refine Does.append (X := []) (does_binFrags fs .new m) ?_
  have hm : fs.foldl Buf.pushFrag (Buf.Cow.new : Buf.Cow UInt8) = Buf.merged fs := Buf.merged_foldl [] fs
  rw [hm]
  refine does_tok fun σ C s => ?_
  have h0 := h.agrees₀ C s
  simp only [call]
  rw [bufferOr_none _ _ _ _ _ (by simp)]
  refine Agrees₀.catch ?_
  rw [← Buf.merged_content] at h0
  generalize Buf.merged fs = c at h0
  cases c <;> exact h0

end Sval.Nested
