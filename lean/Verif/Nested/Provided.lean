import Verif.Nested.DefaultSpec
import Verif.Nested.Deep
import Verif.Core.LowerDen

set_option autoImplicit false

/-!
# What the provided methods of recursive streams come down to
-/

namespace Sval.Nested

variable {I : Impl}

/-- The methods `X`, with the provided ones, call the methods `X'` of the implementation for `v`. -/
def Lowered (I : Impl) (X : List Cb) (v : V) : Prop :=
  ∃ X' N, (∀ (σ : Type) (C : Cb → σ → Res Unit σ) (s : σ) (n : Nat), N ≤ n → runCb (full I C n) X s = runCb C X' s) ∧
    (∀ c ∈ X', I.has c = true) ∧ Opened (Gets I) X' v

theorem runCb_one {σ : Type} (C : Cb → σ → Res Unit σ) (c : Cb) (s : σ) : runCb C [c] s = C c s := by
  simp only [runCb]
  cases C c s <;> rfl

theorem result_outcome {σ : Type} (r : Res Unit σ) : result r.outcome = r := by
  cases r <;> rfl

theorem each_eq {σ : Type} (C : Cb → σ → Res Unit σ) (X : List Cb) : ∀ s : σ, each C X s = runCb C X s := by
  induction X with
  | nil => intro s; rfl
  | cons c X ih =>
    intro s
    simp only [each, runCb]
    congr 1
    funext s
    exact ih s

theorem full_has {σ : Type} (C : Cb → σ → Res Unit σ) {c : Cb} (h : I.has c = true) (n : Nat) : full I C n c = C c := by
  cases n <;> simp [full, h]

theorem full_not {σ : Type} (C : Cb → σ → Res Unit σ) {c : Cb} (h : I.has c = false) (n : Nat) :
    full I C (n + 1) c = provided (full I C n) c := by simp [full, h]

theorem gets_of_lowered {a : Arg} {X : List Cb} {v : V} (h : Makes (!a.borrowed) a.prog X) (hX : Lowered I X v) :
    Gets I a v := by
  obtain ⟨X', N, h1, h2, h3⟩ := hX
  exact .mk a X' v N (fun σ C s n hn => by rw [h, h1 σ C s n hn]) h2 h3

/-- A method that is not there streams a value. -/
theorem lowered_stream {c : Cb} {a : Arg} {v : V} (hc : I.has c = false)
    (hp : ∀ (σ : Type) (C : Cb → σ → Res Unit σ) (s : σ), provided C c s = result (stream C (!a.borrowed) a.prog s))
    (h : Gets I a v) : Lowered I [c] v := by
  cases h with
  | mk _ X _ N h hI hX =>
    refine ⟨X, N + 1, ?_, hI, hX⟩
    intro σ C s n hn
    obtain ⟨n, rfl⟩ : ∃ k, n = k + 1 := ⟨n - 1, by omega⟩
    rw [runCb_one, full_not C hc, hp, h σ C s n (by omega), result_outcome]

theorem lowered_value {a : Arg} {v : V} (h : Gets I a v) : Lowered I [.value a] v :=
  lowered_stream rfl (fun _ _ _ => rfl) h

theorem lowered_has {c : Cb} {v : V} (h : I.has c = true) (hc : Opened (Gets I) [c] v) : Lowered I [c] v := by
  refine ⟨[c], 0, ?_, by simpa using h, hc⟩
  intro σ C s n _
  rw [runCb_one, runCb_one, full_has C h]

/-- A method that is not there does what another one does. -/
theorem lowered_to {c c' : Cb} {v : V} (h : I.has c = false)
    (hp : ∀ (σ : Type) (C : Cb → σ → Res Unit σ) (s : σ), provided C c s = C c' s) (h' : Lowered I [c'] v) : Lowered I [c] v := by
  obtain ⟨X, N, h1, h2, h3⟩ := h'
  refine ⟨X, N + 1, ?_, h2, h3⟩
  intro σ C s n hn
  obtain ⟨n, rfl⟩ : ∃ k, n = k + 1 := ⟨n - 1, by omega⟩
  rw [runCb_one, full_not C h, hp, ← h1 σ C s n (by omega), runCb_one]

/-- A value that is handed on any number of times. -/
theorem handed {v v' : V} (hv : rootOk v = true) (h : ∀ X, Opened Showing X v → Lowered I X v') : ∀ (k : Nat) (a : Arg) (q : List Item),
    size q ≤ k → a.prog = prog q → Shows q v → Gets I a v' := by
  intro k
  induction k with
  | zero =>
    intro a q hk _ h
    exfalso
    cases h <;> simp [size, Item.size] at hk
  | succ k ih =>
    intro a q hk ha hq
    rcases makes_any hq hv (!a.borrowed) with ⟨X, hX, hm⟩ | ⟨b, r, h1, h2, h3, hm⟩
    · rw [← ha] at hm
      exact gets_of_lowered hm (h X hX)
    · rw [← ha] at hm
      exact gets_of_lowered hm (lowered_value (ih b r (by omega) h1 h2))

theorem gets_of {v v' : V} (hv : rootOk v = true) (h : ∀ X, Opened Showing X v → Lowered I X v') {a : Arg}
    (ha : Showing a v) : Gets I a v' := by
  obtain ⟨q, h1, h2⟩ := ha
  exact handed hv h _ a q (Nat.le_refl _) h1 h2

/-! ## Values that are one method -/

theorem lowered_text (b : Bool) (s : Text) : Lowered I [.text b s] (text s) := by
  cases h : I.has (.text b s) with
  | true => exact lowered_has h (.text b s)
  | false =>
    cases b with
    | false => simp [Impl.has] at h
    | true => exact lowered_to h (fun _ _ _ => rfl) (lowered_has rfl (.text false s))

theorem gets_text (s : Text) {a : Arg} (h : Showing a (text s)) : Gets I a (text s) := by
  refine gets_of rfl ?_ h
  intro X hX
  generalize e : text s = v at hX
  cases hX <;> simp [text, binary] at e
  subst e
  exact lowered_text _ _

theorem gets_null {a : Arg} (h : Showing a .null) : Gets I a .null := by
  refine gets_of rfl ?_ h
  intro X hX
  cases hX
  exact lowered_has rfl .null

theorem lowered_tagged (m : Meta) (a : Arg) (v : V) (h : ∀ b : Bool, Gets I { a with borrowed := b } v) :
    Lowered I [.tagged m a] (taggedV I (own m) v) := by
  have hc : Lowered I [.tagged m a.computed] (taggedV I (own m) v) := by
    cases ht : I.tagged with
    | true =>
      simp only [taggedV, ht, if_true]
      exact lowered_has (by simp [Impl.has, ht, Arg.computed]) (.tagged m _ v (h false))
    | false =>
      simp only [taggedV, ht, Bool.false_eq_true, if_false]
      exact lowered_to (by simp [Impl.has, ht]) (fun _ _ _ => rfl) (lowered_value (h false))
  cases hh : I.has (.tagged m a) with
  | true =>
    have ht : I.tagged = true := by simp only [Impl.has, Bool.and_eq_true] at hh; exact hh.1
    simp only [taggedV, ht, if_true]
    exact lowered_has hh (.tagged m _ v (h a.borrowed))
  | false =>
    cases hb : a.borrowed with
    | false =>
      have : a.computed = a := by cases a; simp_all [Arg.computed]
      rwa [this] at hc
    | true => exact lowered_to hh (fun _ _ _ => by simp [provided, hb]) hc

theorem Showing.borrow {a : Arg} {v : V} (h : Showing a v) (b : Bool) : Showing { a with borrowed := b } v := h

/-! ## Integers -/

theorem shows_number (n : Int) : Shows (numberItems n) (.tagged { tag := some tags.NUMBER } (text (intDec n))) := by
  have h := Shows.text none ((intDecFrags n).map Frag.computed)
  have e : ((intDecFrags n).map Frag.computed).map Frag.content = intDecFrags n := by
    simp [Frag.content, Function.comp_def]
  rw [e, LowV.intDecFrags_flatten] at h
  have h' := Shows.tagged { tag := some tags.NUMBER } _ _ (Shows.comp _ _ h)
  simpa [numberItems, own, textFragTok, Function.comp_def] using h'

theorem gets_number (n : Int) (b : Bool) :
    Gets I ⟨b, prog (numberItems n)⟩ (taggedV I { tag := some tags.NUMBER } (text (intDec n))) := by
  refine gets_of (v := .tagged { tag := some tags.NUMBER } (text (intDec n))) rfl ?_ ⟨_, rfl, shows_number n⟩
  intro X hX
  generalize e : V.tagged { tag := some tags.NUMBER } (text (intDec n)) = v at hX
  cases hX <;> simp [text, binary] at e
  rename_i m a w hw
  obtain ⟨e1, rfl⟩ := e
  rw [e1]
  exact lowered_tagged m a _ fun b => gets_text _ (hw.borrow b)

theorem lowered_wide (t : IntTy) (n : Int) (ht : t = .i128 ∨ t = .u128) (h : I.int t = false) :
    Lowered I [.scalar (.int t n)] (if IntTy.i64.fits n then .int .i64 n else taggedV I { tag := some tags.NUMBER } (text (intDec n))) := by
  have hh : I.has (.scalar (.int t n)) = false := by rcases ht with rfl | rfl <;> simpa [Impl.has] using h
  split
  · rename_i hf
    refine lowered_to (c' := .scalar (.int .i64 n)) hh (fun _ _ _ => ?_) (lowered_has rfl (.int _ _))
    rcases ht with rfl | rfl <;> simp [provided, hf]
  · rename_i hf
    refine lowered_stream (a := ⟨true, prog (numberItems n)⟩) hh (fun _ _ _ => ?_) (gets_number n true)
    rcases ht with rfl | rfl <;> simp [provided, hf]

theorem lowered_narrow {t u : IntTy} (n : Int) {v : V} (h : I.int t = false) (ht : t ≠ .i64)
    (hp : ∀ (σ : Type) (C : Cb → σ → Res Unit σ) (s : σ), provided C (.scalar (.int t n)) s = C (.scalar (.int u n)) s)
    (h' : Lowered I [.scalar (.int u n)] v) : Lowered I [.scalar (.int t n)] v := by
  refine lowered_to ?_ hp h'
  cases t <;> first | exact absurd rfl ht | simpa [Impl.has] using h

theorem has_int (t : IntTy) (n : Int) : I.has (.scalar (.int t n)) = (decide (t = .i64) || I.int t) := by
  cases t <;> simp [Impl.has]

theorem lowered_int (t : IntTy) (n : Int) : Lowered I [.scalar (.int t n)] (intV I t n) := by
  have own : ∀ t, (decide (t = .i64) || I.int t) = true → Lowered I [.scalar (.int t n)] (.int t n) :=
    fun t h => lowered_has (by rw [has_int]; exact h) (.int t n)
  have i64 := own .i64 rfl
  have i32 : Lowered I [.scalar (.int .i32 n)] (intV I .i32 n) := by
    cases h : I.int .i32 with
    | true => simpa [intV, wider, h] using own .i32 (by simp [h])
    | false => simpa [intV, wider, h] using lowered_narrow n h (by simp) (fun _ _ _ => rfl) i64
  have i16 : Lowered I [.scalar (.int .i16 n)] (intV I .i16 n) := by
    cases h : I.int .i16 with
    | true => simpa [intV, wider, h] using own .i16 (by simp [h])
    | false => simpa [intV, wider, h] using lowered_narrow n h (by simp) (fun _ _ _ => rfl) i32
  have u128 : Lowered I [.scalar (.int .u128 n)] (intV I .u128 n) := by
    cases h : I.int .u128 with
    | true => simpa [intV, wider, h] using own .u128 (by simp [h])
    | false => simpa [intV, wider, h] using lowered_wide .u128 n (.inr rfl) h
  have u64 : Lowered I [.scalar (.int .u64 n)] (intV I .u64 n) := by
    cases h : I.int .u64 with
    | true => simpa [intV, wider, h] using own .u64 (by simp [h])
    | false => simpa [intV, wider, h] using lowered_narrow n h (by simp) (fun _ _ _ => rfl) u128
  have u32 : Lowered I [.scalar (.int .u32 n)] (intV I .u32 n) := by
    cases h : I.int .u32 with
    | true => simpa [intV, wider, h] using own .u32 (by simp [h])
    | false => simpa [intV, wider, h] using lowered_narrow n h (by simp) (fun _ _ _ => rfl) u64
  have u16 : Lowered I [.scalar (.int .u16 n)] (intV I .u16 n) := by
    cases h : I.int .u16 with
    | true => simpa [intV, wider, h] using own .u16 (by simp [h])
    | false => simpa [intV, wider, h] using lowered_narrow n h (by simp) (fun _ _ _ => rfl) u32
  cases t with
  | i8 =>
    cases h : I.int .i8 with
    | true => simpa [intV, wider, h] using own .i8 (by simp [h])
    | false => simpa [intV, wider, h] using lowered_narrow n h (by simp) (fun _ _ _ => rfl) i16
  | i16 => exact i16
  | i32 => exact i32
  | i64 => simpa [intV, wider] using i64
  | i128 =>
    cases h : I.int .i128 with
    | true => simpa [intV, wider, h] using own .i128 (by simp [h])
    | false => simpa [intV, wider, h] using lowered_wide .i128 n (.inl rfl) h
  | u8 =>
    cases h : I.int .u8 with
    | true => simpa [intV, wider, h] using own .u8 (by simp [h])
    | false => simpa [intV, wider, h] using lowered_narrow n h (by simp) (fun _ _ _ => rfl) u16
  | u16 => exact u16
  | u32 => exact u32
  | u64 => exact u64
  | u128 => exact u128

theorem gets_int (t : IntTy) (n : Int) {a : Arg} (h : Showing a (.int t n)) : Gets I a (intV I t n) := by
  refine gets_of rfl ?_ h
  intro X hX
  cases hX
  exact lowered_int t n

/-! ## Tags -/

theorem tagV_own (m : Meta) : tagV (own m) = tagV m := by
  obtain ⟨t, l, i⟩ := m
  cases l with
  | none => rfl
  | some l =>
    have : l.toOwned.text = l.text := by
      simp only [Label.toOwned]
      split <;> rfl
    simp only [tagV, own, Option.map_some, this]

theorem shows_str (s : Text) : Shows (strProg s) (text s) := by
  simpa [strProg, textFragTok, Frag.content] using Shows.text (some (utf8Len s)) [.borrowed s]

theorem shows_tag (m : Meta) : Shows (tagItems m) (tagV m) := by
  unfold tagItems tagV
  split
  · exact .null
  · cases m.label with
    | none => exact .null
    | some l =>
      cases e : l.asStaticStr with
      | none =>
        simp only [e]
        exact .comp _ _ (shows_str _)
      | some s =>
        have : s = l.text := by
          simp only [Label.asStaticStr] at e
          split at e <;> simp_all
        subst this
        simp only [e]
        exact .val _ _ (shows_str _)

theorem gets_tag (m : Meta) (b : Bool) : Gets I ⟨b, prog (tagItems m)⟩ (tagV m) := by
  have h : Showing ⟨b, prog (tagItems m)⟩ (tagV m) := ⟨_, rfl, shows_tag m⟩
  generalize Arg.mk b (prog (tagItems m)) = a at h
  unfold tagV at h ⊢
  split at h
  · rename_i h1
    rw [if_pos h1]
    exact gets_null h
  · rename_i h1
    rw [if_neg h1]
    split at h
    · exact gets_text _ h
    · exact gets_null h

theorem lowered_tag (m : Meta) : Lowered I [.tag m] (lower I (.tag (own m))) := by
  simp only [lower]
  cases h : I.tag with
  | true => exact lowered_has (by simpa [Impl.has] using h) (.tag m)
  | false =>
    simp only [Bool.false_eq_true, if_false, tagV_own]
    exact lowered_to (by simpa [Impl.has] using h) (fun _ _ _ => rfl)
      (lowered_tagged m ⟨true, prog (tagItems m)⟩ _ fun b => gets_tag m b)

/-! ## Elements -/

/-- How the implementation is called for an element. -/
def Arg.dem (I : Impl) (a : Arg) : Arg := if I.borrowed then a else a.computed

/-- The method of the implementation for an element. -/
def Cb.dem (I : Impl) : Cb → Cb
  | .seqValue a => .seqValue (a.dem I)
  | .mapKey a => .mapKey (a.dem I)
  | .mapValue a => .mapValue (a.dem I)
  | .tupleValue t i a => .tupleValue t i (a.dem I)
  | .recordValue t l a => .recordValue t l (a.dem I)
  | .variantTagged m a => .variantTagged m (a.dem I)
  | c => c

/-- Is it a required method or one for an element? -/
def Cb.plain : Cb → Bool
  | .scalar _ | .text _ _ | .binary _ _ | .tag _ | .tagged _ _ | .value _ => false
  | _ => true

theorem has_dem (c : Cb) (h : c.plain = true) : I.has (c.dem I) = true := by
  cases hb : I.borrowed <;> cases c <;> first | (simp [Cb.plain] at h; done) | simp [Cb.dem, Impl.has, Arg.dem, Arg.computed, hb]

theorem dem_of_has (c : Cb) (h : I.has c = true) : c.dem I = c := by
  cases hb : I.borrowed <;> cases c <;>
    first
    | rfl
    | (rename_i a
       cases ha : a.borrowed <;> simp_all [Cb.dem, Arg.dem, Arg.computed, Impl.has]
       try (cases a; simp_all))

theorem full_plain {σ : Type} (C : Cb → σ → Res Unit σ) (c : Cb) (h : c.plain = true) (n : Nat) :
    full I C (n + 1) c = C (c.dem I) := by
  cases hh : I.has c with
  | true => rw [full_has C hh, dem_of_has c hh]
  | false =>
    have e : provided (full I C n) c = full I C n (c.dem I) := by
      cases hb : I.borrowed <;> cases c <;>
        first
        | (simp [Cb.plain] at h; done)
        | (simp [Impl.has, hb] at hh; done)
        | simp [provided, Cb.dem, Arg.dem, hb]
    rw [full_not C hh, e, full_has C (has_dem c h)]

theorem runCb_plain {σ : Type} (C : Cb → σ → Res Unit σ) (X : List Cb) (h : ∀ c ∈ X, c.plain = true) (n : Nat) : ∀ s,
    runCb (full I C (n + 1)) X s = runCb C (X.map (Cb.dem I)) s := by
  induction X with
  | nil => intro s; rfl
  | cons c X ih =>
    intro s
    simp only [runCb, List.map_cons, full_plain C c (h c (by simp))]
    congr 1
    funext s
    exact ih (fun c hc => h c (by simp [hc])) s

theorem lowered_plain {X : List Cb} {v : V} (h : ∀ c ∈ X, c.plain = true) (hX : Opened (Gets I) (X.map (Cb.dem I)) v) :
    Lowered I X v := by
  refine ⟨X.map (Cb.dem I), 1, ?_, ?_, hX⟩
  · intro σ C s n hn
    obtain ⟨n, rfl⟩ : ∃ k, n = k + 1 := ⟨n - 1, by omega⟩
    exact runCb_plain C X h n s
  · intro c hc
    obtain ⟨c, hc', rfl⟩ := List.mem_map.1 hc
    exact has_dem c (h c hc')

theorem lowered_seq (n : Option Nat) (L : List (Arg × V)) (h : ∀ x ∈ L, ∀ b : Bool, Gets I { x.1 with borrowed := b } x.2) :
    Lowered I (.seqBegin n :: ((L.map fun x => .seqValue x.1) ++ [.seqEnd])) (.seq n (L.map (·.2))) := by
  refine lowered_plain (by intro c hc; simp at hc; rcases hc with rfl | ⟨_, _, _, rfl⟩ | rfl <;> rfl) ?_
  have := Opened.seq n (L.map fun x => (x.1.dem I, x.2)) (R := Gets I) (fun y hy => by
    obtain ⟨x, hx, rfl⟩ := List.mem_map.1 hy
    have := h x hx
    unfold Arg.dem
    split
    · exact this x.1.borrowed
    · exact this false)
  simpa [Cb.dem, Function.comp_def] using this

theorem gets_dem {a : Arg} {v : V} (h : ∀ b : Bool, Gets I { a with borrowed := b } v) : Gets I (a.dem I) v := by
  unfold Arg.dem
  split
  · exact h a.borrowed
  · exact h false

theorem lowered_bytes (s : Bytes) : Lowered I [.binary false s] (lower I (binary s)) := by
  cases h : I.binary with
  | true => simpa [lower, binary, h] using lowered_has (by simp [Impl.has, h]) (.binary false s)
  | false =>
    have hh : I.has (.binary false s) = false := by simp [Impl.has, h]
    have hg : ∀ (b : UInt8) (c : Bool), Gets I { byteArg b with borrowed := c } (intV I .u8 b.toNat) := by
      intro b c
      exact gets_int .u8 b.toNat ⟨[.tok (.int .u8 b.toNat)], by simp [byteArg, ← prog_toks], .int _ _⟩
    obtain ⟨X, N, h1, h2, h3⟩ := lowered_seq (I := I) (some s.length) (s.map fun b => (byteArg b, intV I .u8 b.toNat)) (by
      intro x hx
      obtain ⟨b, _, rfl⟩ := List.mem_map.1 hx
      exact hg b)
    refine ⟨X, N + 1, ?_, h2, ?_⟩
    · intro σ C s' n hn
      obtain ⟨n, rfl⟩ : ∃ k, n = k + 1 := ⟨n - 1, by omega⟩
      rw [runCb_one, full_not C hh, ← h1 σ C s' n (by omega)]
      simp only [provided, each_eq]
      simp [Function.comp_def]
    · simpa [lower, binary, h, Frag.content, Function.comp_def] using h3

theorem lowered_binary (b : Bool) (s : Bytes) : Lowered I [.binary b s] (lower I (binary s)) := by
  cases b with
  | false => exact lowered_bytes s
  | true =>
    cases h : I.has (.binary true s) with
    | true =>
      have hb : I.binary = true := by simp only [Impl.has, Bool.and_eq_true] at h; exact h.1
      simpa [lower, binary, hb] using lowered_has h (.binary true s)
    | false => exact lowered_to h (fun _ _ _ => rfl) (lowered_bytes s)

/-! ## All values -/

theorem lowerSeq_map (L : List V) : lowerSeq I L = L.map (lower I) := by
  induction L with
  | nil => rfl
  | cons x L ih => simp [lowerSeq, ih]

theorem lowerMap_map (L : List (V × V)) : lowerMap I L = L.map fun x => (lower I x.1, lower I x.2) := by
  induction L with
  | nil => rfl
  | cons x L ih => obtain ⟨k, v⟩ := x; simp [lowerMap, ih]

theorem lowerRec_map (L : List (Option Tag × Label × V)) : lowerRec I L = L.map fun x => (x.1, x.2.1, lower I x.2.2) := by
  induction L with
  | nil => rfl
  | cons x L ih => obtain ⟨t, l, v⟩ := x; simp [lowerRec, ih]

theorem lowerTup_map (L : List (Option Tag × Index × V)) : lowerTup I L = L.map fun x => (x.1, x.2.1, lower I x.2.2) := by
  induction L with
  | nil => rfl
  | cons x L ih => obtain ⟨t, l, v⟩ := x; simp [lowerTup, ih]

/-- What is known of the values in a value. -/
def Known (I : Impl) (a : Arg) (v : V) : Prop := ∀ b : Bool, Gets I { a with borrowed := b } (lower I v)

theorem variant_lowered {X : List Cb} {v : V} (h : Variant (Known I) X v) :
    (∀ c ∈ X, c.plain = true) ∧ Variant (Gets I) (X.map (Cb.dem I)) (lowerVariant I v) := by
  induction h with
  | tag m => exact ⟨by simp [Cb.plain], .tag m⟩
  | tagged m a v h => exact ⟨by simp [Cb.plain], .tagged m _ _ (gets_dem h)⟩
  | tuple m n L h =>
    refine ⟨by intro c hc; simp at hc; rcases hc with rfl | ⟨_, _, _, _, _, rfl⟩ | rfl <;> rfl, ?_⟩
    have := Variant.tuple m n (L.map fun x => (x.1, x.2.1, x.2.2.1.dem I, lower I x.2.2.2)) (R := Gets I) (fun y hy => by
      obtain ⟨x, hx, rfl⟩ := List.mem_map.1 hy
      exact gets_dem (h x hx))
    simpa [Cb.dem, Function.comp_def, lowerVariant, lowerTup_map] using this
  | record m n L h =>
    refine ⟨by intro c hc; simp at hc; rcases hc with rfl | ⟨_, _, _, _, _, rfl⟩ | rfl <;> rfl, ?_⟩
    have := Variant.record m n (L.map fun x => (x.1, x.2.1, x.2.2.1.dem I, lower I x.2.2.2)) (R := Gets I) (fun y hy => by
      obtain ⟨x, hx, rfl⟩ := List.mem_map.1 hy
      exact gets_dem (h x hx))
    simpa [Cb.dem, Function.comp_def, lowerVariant, lowerRec_map] using this
  | nested m X v h ih =>
    refine ⟨?_, ?_⟩
    · intro c hc
      simp only [List.mem_cons, List.mem_append, List.not_mem_nil, or_false] at hc
      rcases hc with rfl | hc | rfl
      · rfl
      · exact ih.1 c hc
      · rfl
    · simpa [Cb.dem, lowerVariant] using Variant.nested m _ _ ih.2

theorem lowered_opened {X : List Cb} {v : V} (h : Opened (Known I) X v) : Lowered I X (lower I v) := by
  cases h with
  | null => exact lowered_has rfl .null
  | bool b => exact lowered_has rfl (.bool b)
  | int t n => simpa [lower] using lowered_int t n
  | f32 b =>
    simp only [lower]
    cases h : I.f32 with
    | true => exact lowered_has (by simpa [Impl.has] using h) (.f32 b)
    | false => exact lowered_to (by simpa [Impl.has] using h) (fun _ _ _ => rfl) (lowered_has rfl (.f64 _))
  | f64 b => exact lowered_has rfl (.f64 b)
  | text b s => exact lowered_text b s
  | binary b s => exact lowered_binary b s
  | tag m => exact lowered_tag m
  | tagged m a v h => exact lowered_tagged m a _ h
  | seq n L h =>
    have := lowered_seq n (L.map fun x => (x.1, lower I x.2)) (I := I) (fun y hy => by
      obtain ⟨x, hx, rfl⟩ := List.mem_map.1 hy
      exact h x hx)
    simpa [lower, lowerSeq_map, Function.comp_def] using this
  | map n L h1 h2 =>
    refine lowered_plain (by intro c hc; simp at hc; rcases hc with rfl | ⟨_, _, _, _, rfl | rfl⟩ | rfl <;> rfl) ?_
    have := Opened.map n (L.map fun x => ((x.1.1.dem I, lower I x.1.2), (x.2.1.dem I, lower I x.2.2))) (R := Gets I)
      (fun y hy => by
        obtain ⟨x, hx, rfl⟩ := List.mem_map.1 hy
        exact gets_dem (h1 x hx))
      (fun y hy => by
        obtain ⟨x, hx, rfl⟩ := List.mem_map.1 hy
        exact gets_dem (h2 x hx))
    simpa [Cb.dem, Function.comp_def, lower, lowerMap_map, List.map_flatMap, List.flatMap_map] using this
  | tuple m n L h =>
    refine lowered_plain (by intro c hc; simp at hc; rcases hc with rfl | ⟨_, _, _, _, _, rfl⟩ | rfl <;> rfl) ?_
    have := Opened.tuple m n (L.map fun x => (x.1, x.2.1, x.2.2.1.dem I, lower I x.2.2.2)) (R := Gets I) (fun y hy => by
      obtain ⟨x, hx, rfl⟩ := List.mem_map.1 hy
      exact gets_dem (h x hx))
    simpa [Cb.dem, Function.comp_def, lower, lowerTup_map] using this
  | record m n L h =>
    refine lowered_plain (by intro c hc; simp at hc; rcases hc with rfl | ⟨_, _, _, _, _, rfl⟩ | rfl <;> rfl) ?_
    have := Opened.record m n (L.map fun x => (x.1, x.2.1, x.2.2.1.dem I, lower I x.2.2.2)) (R := Gets I) (fun y hy => by
      obtain ⟨x, hx, rfl⟩ := List.mem_map.1 hy
      exact gets_dem (h x hx))
    simpa [Cb.dem, Function.comp_def, lower, lowerRec_map] using this
  | enum m X v h =>
    have hv := variant_lowered h
    refine lowered_plain ?_ ?_
    · intro c hc
      simp only [List.mem_cons] at hc
      rcases hc with rfl | hc
      · rfl
      · exact hv.1 c hc
    · simpa [Cb.dem, lower] using Opened.enum m _ _ hv.2

theorem gets_lower (k : Nat) : ∀ (v : V), sizeOf v ≤ k → supported v = true → ∀ a : Arg, Showing a v → Gets I a (lower I v) := by
  induction k with
  | zero => intro v hn; cases v <;> simp at hn
  | succ k ih =>
    intro v hk hs a ha
    refine gets_of (rootOk_of_supported hs) ?_ ha
    intro X hX
    exact lowered_opened (hX.imp hs fun b w hw hsw hb c => ih w (by omega) hsw _ (hb.borrow c))

/-! ## Implementations that have everything -/

/-- All the methods. -/
def Impl.all : Impl := { int := fun _ => true, f32 := true, binary := true, tag := true, tagged := true, borrowed := true }

theorem map_same {α : Type} {f : α → α} {L : List α} (h : ∀ x ∈ L, f x = x) : L.map f = L := by
  induction L with
  | nil => rfl
  | cons x L ih => rw [List.map_cons, h x (by simp), ih fun y hy => h y (by simp [hy])]

theorem lower_all (v : V) : lower .all v = v ∧ lowerVariant .all v = v := by
  have int : ∀ t n, intV .all t n = .int t n := by intro t n; cases t <;> rfl
  induction v using V.ind with
  | int t n => exact ⟨int t n, rfl⟩
  | tagged m v ih =>
    have : Impl.all.tagged = true := rfl
    simp [lower, lowerVariant, taggedV, this, ih]
  | enum m v ih => simp [lower, lowerVariant, ih]
  | seq n xs ih =>
    simp only [lower, lowerVariant, lowerSeq_map, and_true, V.seq.injEq, true_and]
    exact map_same (fun x hx => (ih x hx).1)
  | map n xs ih =>
    simp only [lower, lowerVariant, lowerMap_map, and_true, V.map.injEq, true_and]
    exact map_same (fun x hx => by rw [(ih x hx).1.1, (ih x hx).2.1])
  | record m n xs ih =>
    simp only [lower, lowerVariant, lowerRec_map, and_self, V.record.injEq, true_and]
    exact map_same (fun x hx => by rw [(ih x hx).1])
  | tuple m n xs ih =>
    simp only [lower, lowerVariant, lowerTup_map, and_self, V.tuple.injEq, true_and]
    exact map_same (fun x hx => by rw [(ih x hx).1])
  | _ => exact ⟨rfl, rfl⟩

end Sval.Nested
