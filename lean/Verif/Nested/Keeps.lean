import Verif.Nested.Run

set_option autoImplicit false

/-! # Buffering a value -/

namespace Sval.Nested

open Buf (Appends Replays Part Opener)

/-! ## The calls of a value handed to a buffer -/

mutual
def Item.flat : Item → Bool → List Token
  | .tok t, c => [if c then computedTok t else t]
  | .val q, c => Nested.flat q c
  | .comp q, _ => Nested.flat q true
def flat : List Item → Bool → List Token
  | [], _ => []
  | i :: q, c => i.flat c ++ flat q c
end

theorem flat_append (p q : List Item) (c : Bool) : flat (p ++ q) c = flat p c ++ flat q c := by
  induction p with
  | nil => rfl
  | cons i p ih => simp [flat, ih]

def wrapper (c : Bool) : Wrapper := if c then .computed .base else .base

theorem wrapper_tok (c : Bool) (t : Token) : (wrapper c).tok t = if c then computedTok t else t := by
  cases c <;> rfl

section
variable {ε τ : Type} (f : Token → τ → Res ε τ)

/-- If all calls succeed then so does the code that makes them. -/
theorem exec_guarded_call (t : Token) (k : Prog) (c : Bool) (s s' : τ) (h : f (if c then computedTok t else t) s = .ok s') :
    Sval.exec (guarded f) (Item.prog (.tok t) k) (wrapper c) (s, false) = Sval.exec (guarded f) k (wrapper c) (s', false) := by
  simp [Item.prog, Sval.exec, wrapper_tok, guarded, h]

mutual
theorem exec_guarded_item (i : Item) (k : Prog) (c : Bool) (s s' : τ) (h : run f (i.flat c) s = .ok s') :
    Sval.exec (guarded f) (i.prog k) (wrapper c) (s, false) = Sval.exec (guarded f) k (wrapper c) (s', false) := by
  match i with
  | .tok t =>
    refine exec_guarded_call f t k c s s' ?_
    simp only [Item.flat, run_cons] at h
    cases e : f (if c then computedTok t else t) s <;> simp [e, Res.bind, run] at h ⊢
    exact h
  | .val q =>
    have e : (wrapper c).valueTarget = wrapper c := by cases c <;> rfl
    simp only [Item.prog, Sval.exec, e]
    rw [exec_guarded q c s s' h]
  | .comp q =>
    have e : (wrapper c).computedTarget = wrapper true := by cases c <;> rfl
    simp only [Item.prog, Sval.exec, e]
    rw [exec_guarded q true s s' h]
theorem exec_guarded (q : List Item) (c : Bool) (s s' : τ) (h : run f (flat q c) s = .ok s') :
    Sval.exec (guarded f) (prog q) (wrapper c) (s, false) = ((s', false), true) := by
  match q with
  | [] =>
    simp only [flat, run] at h
    cases h
    rfl
  | i :: q =>
    rw [flat, run_append] at h
    cases e : run f (i.flat c) s with
    | ok s1 =>
      rw [e, Res.bind_ok] at h
      rw [prog, exec_guarded_item i (prog q) c s s1 e]
      exact exec_guarded q c s1 s' h
    | err _ _ => rw [e] at h; simp [Res.bind] at h
    | panic => rw [e] at h; simp [Res.bind] at h
end
end

theorem bufValue_flat (q : List Item) (c : Bool) (b b' : Buf.St) (h : run (Buf.step true) (flat q c) b = .ok b') :
    bufValue (prog q) c b = .done true b' := by
  have := exec_guarded (Buf.step true) q c b b' h
  simp only [bufValue]
  have e : (if c then Wrapper.computed .base else .base) = wrapper c := rfl
  rw [e, this]
  simp

/-! ## What a buffered value does -/

/-- The items of a replay, whatever follows. -/
def Regroups (T : List Token) (I : List Item) : Prop := ∀ R, regroup (T ++ R) = I ++ regroup R

theorem Regroups.nil : Regroups [] [] := fun _ => rfl

theorem Regroups.append {T1 T2 : List Token} {I1 I2 : List Item} (h1 : Regroups T1 I1) (h2 : Regroups T2 I2) :
    Regroups (T1 ++ T2) (I1 ++ I2) := by
  intro R
  rw [List.append_assoc, h1, h2, List.append_assoc]

theorem Regroups.tok (t : Token) (h1 : ∀ n, t ≠ .textBegin n) (h2 : ∀ n, t ≠ .binaryBegin n) : Regroups [t] [.tok t] := by
  intro R
  rw [List.singleton_append, List.singleton_append, regroup.eq_4]
  · intro n f r e; exact absurd e (h1 n)
  · intro n f r e; exact absurd e (h2 n)
  · intro n f r e; exact absurd e (h2 n)

theorem Regroups.wrap {T : List Token} {I : List Item} (h : Regroups T I) (o : Opener) :
    Regroups (o.begin :: (T ++ [o.end])) (.tok o.begin :: (I ++ [.tok o.end])) :=
  (Regroups.tok o.begin (by cases o <;> simp [Opener.begin]) (by cases o <;> simp [Opener.begin])).append
    (h.append (Regroups.tok o.end (by cases o <;> simp [Opener.end]) (by cases o <;> simp [Opener.end])))

theorem Regroups.text (c : Buf.Cow Char) : ∃ I, Regroups c.textToks I ∧ Shows I (text c.content) := by
  cases c with
  | borrowed s =>
    refine ⟨[.val [.tok (.textBegin (some (utf8Len s))), .tok (.textFragment s), .tok .textEnd]], fun R => rfl, .val _ _ ?_⟩
    simpa [Frag.content, textFragTok, Buf.Cow.content] using Shows.text (some (utf8Len s)) [.borrowed s]
  | owned s =>
    refine ⟨[.tok (.textBegin (some (utf8Len s))), .tok (.textFragmentComputed s), .tok .textEnd], fun R => ?_, ?_⟩
    · simp [Buf.Cow.textToks, Buf.Cow.content, regroup]
    simpa [Frag.content, textFragTok, Buf.Cow.content] using Shows.text (some (utf8Len s)) [.computed s]

theorem Regroups.binary (c : Buf.Cow UInt8) : ∃ I, Regroups c.binaryToks I ∧ Shows I (binary c.content) := by
  cases c with
  | borrowed s =>
    refine ⟨[.val [.tok (.binaryBegin (some s.length)), .tok (.binaryFragment s), .tok .binaryEnd]], fun R => rfl, .val _ _ ?_⟩
    simpa [Frag.content, binFragTok, Buf.Cow.content] using Shows.binary (some s.length) [.borrowed s]
  | owned s =>
    refine ⟨[.comp [.tok (.binaryBegin (some s.length)), .tok (.binaryFragment s), .tok .binaryEnd]], fun R => rfl, .comp _ _ ?_⟩
    simpa [Frag.content, binFragTok, Buf.Cow.content] using Shows.binary (some s.length) [.borrowed s]

/-! ## Ways of filling a buffer -/

/-- The calls that a part stands for. -/
inductive Leaf : Token → Part → Prop
  | null : Leaf .null .null
  | bool (b : Bool) : Leaf (.bool b) (.bool b)
  | int (t : IntTy) (v : Int) : Leaf (.int t v) (.int t v)
  | f32 (b : UInt32) : Leaf (.f32 b) (.f32 b)
  | f64 (b : UInt64) : Leaf (.f64 b) (.f64 b)
  | tag (m : Meta) : Leaf (.tag m) (.tag (own m))

inductive Opens : Token → Token → Opener → Prop
  | map (n : Option Nat) : Opens (.mapBegin n) .mapEnd (.map n)
  | mapKey : Opens .mapKeyBegin .mapKeyEnd .mapKey
  | mapValue : Opens .mapValueBegin .mapValueEnd .mapValue
  | seq (n : Option Nat) : Opens (.seqBegin n) .seqEnd (.seq n)
  | enum (m : Meta) : Opens (.enumBegin m) (.enumEnd m) (.enum (own m))
  | tagged (m : Meta) : Opens (.taggedBegin m) (.taggedEnd m) (.tagged (own m))
  | record (m : Meta) (n : Option Nat) : Opens (.recordBegin m n) (.recordEnd m) (.record (own m) n)
  | recordValue (t : Option Tag) (l : Label) : Opens (.recordValueBegin t l) (.recordValueEnd t l) (.recordValue t l.toOwned)
  | tuple (m : Meta) (n : Option Nat) : Opens (.tupleBegin m n) (.tupleEnd m) (.tuple (own m) n)
  | tupleValue (t : Option Tag) (i : Index) : Opens (.tupleValueBegin t i) (.tupleValueEnd t i) (.tupleValue t i)

/-- A way of filling a buffer, through `FlatStream` or directly. `D q B` says that doing `q` adds `B`. -/
structure Sink (bare lower : Bool) (D : List Item → List Part → Prop) : Prop where
  nil : D [] []
  append : ∀ {p q A B}, D p A → D q B → D (p ++ q) (A ++ B)
  leaf : ∀ {t k}, Leaf t k → D [.tok t] [k]
  text : ∀ n (fs : List (Frag Text)), ∃ c : Buf.Cow Char, c.content = (fs.map Frag.content).flatten ∧
    D (.tok (.textBegin n) :: (fs.map (Item.tok ∘ textFragTok) ++ [.tok .textEnd])) [.text c]
  binary : ∀ n (fs : List (Frag Bytes)), ∃ c : Buf.Cow UInt8, c.content = (fs.map Frag.content).flatten ∧
    D (.tok (.binaryBegin n) :: (fs.map (Item.tok ∘ binFragTok) ++ [.tok .binaryEnd])) [.binary c]
  wrap : ∀ {b e o q B}, Opens b e o → D q B → D (.tok b :: (q ++ [.tok e])) (.opened o B.length :: B)
  hint : ∀ t, D [.tok (.tagHint t)] (if lower then [] else [.tagHint t])
  seqValue : ∀ {q B}, D q B → D (.tok .seqValueBegin :: (q ++ [.tok .seqValueEnd]))
    (if bare then B else .opened .seqValue B.length :: B)
  recordTuple : ∀ {q B} m n, D q B → D (.tok (.recordTupleBegin m n) :: (q ++ [.tok (.recordTupleEnd m)]))
    (.opened (if lower then .record (own m) n else .recordTuple (own m) n) B.length :: B)
  recordTupleValue : ∀ {q B} t l i, D q B →
    D (.tok (.recordTupleValueBegin t l i) :: (q ++ [.tok (.recordTupleValueEnd t l i)]))
    (.opened (if lower then .recordValue t l.toOwned else .recordTupleValue t l.toOwned i) B.length :: B)

/-- Doing `q` fills the buffer with parts that do something with property `P`. -/
def Keeps (D : List Item → List Part → Prop) (q : List Item) (P : List Item → Prop) : Prop :=
  ∃ B T I, D q B ∧ Replays B T ∧ Regroups T I ∧ P I

theorem Keeps.imp {D : List Item → List Part → Prop} {q : List Item} {P Q : List Item → Prop} (h : Keeps D q P)
    (f : ∀ I, P I → Q I) : Keeps D q Q := by
  obtain ⟨B, T, I, h1, h2, h3, h4⟩ := h
  exact ⟨B, T, I, h1, h2, h3, f I h4⟩

section
variable {bare lower : Bool} {D : List Item → List Part → Prop} (K : Sink bare lower D)
include K

theorem Sink.keeps_nil : Keeps D [] (· = []) := ⟨[], [], [], K.nil, .nil, .nil, rfl⟩

theorem Sink.keeps_append {p q : List Item} {P Q : List Item → Prop} (hp : Keeps D p P) (hq : Keeps D q Q) :
    Keeps D (p ++ q) fun I => ∃ I1 I2, I = I1 ++ I2 ∧ P I1 ∧ Q I2 := by
  obtain ⟨B, T, I, h1, h2, h3, h4⟩ := hp
  obtain ⟨B', T', I', h1', h2', h3', h4'⟩ := hq
  exact ⟨B ++ B', T ++ T', I ++ I', K.append h1 h1', h2.append h2', h3.append h3', I, I', rfl, h4, h4'⟩

theorem Sink.keeps_leaf {t : Token} {k : Part} {P : List Item → Prop} (h : Leaf t k)
    (hP : ∀ t', k.leafToks = [t'] → P [.tok t']) : Keeps D [.tok t] P := by
  have ho : k.isOpened = false := by cases h <;> rfl
  obtain ⟨t', e⟩ : ∃ t', k.leafToks = [t'] := by cases h <;> exact ⟨_, rfl⟩
  refine ⟨[k], k.leafToks, [.tok t'], K.leaf h, .leaf k ho, ?_, hP t' e⟩
  rw [e]
  refine .tok t' ?_ ?_ <;> (intro n h'; subst h'; cases h <;> simp [Part.leafToks] at e)

theorem Sink.keeps_wrap {b e : Token} {o : Opener} {q : List Item} {P : List Item → Prop} (h : Opens b e o)
    (hq : Keeps D q P) :
    Keeps D (.tok b :: (q ++ [.tok e])) fun I => ∃ I', I = .tok o.begin :: (I' ++ [.tok o.end]) ∧ P I' := by
  obtain ⟨B, T, I, h1, h2, h3, h4⟩ := hq
  exact ⟨_, _, _, K.wrap h h1, h2.wrap o, h3.wrap o, I, rfl, h4⟩

/-- A list of parts, one after the other. -/
theorem Sink.keeps_flatMap {α β : Type} (L : List α) (f : α → List Item) (g : β → List Item) (Q : α → β → Prop)
    (h : ∀ x ∈ L, Keeps D (f x) fun I => ∃ y, Q x y ∧ I = g y) :
    Keeps D (L.flatMap f) fun I => ∃ M : List β, I = M.flatMap g ∧ List.Forall₂ Q L M := by
  induction L with
  | nil => exact K.keeps_nil.imp fun I h => ⟨[], h, .nil⟩
  | cons x L ih =>
    have := K.keeps_append (h x (by simp)) (ih fun y hy => h y (by simp [hy]))
    refine this.imp ?_
    rintro I ⟨I1, I2, rfl, ⟨y, hy, rfl⟩, M, rfl, hM⟩
    exact ⟨y :: M, by simp [List.flatMap_cons], .cons hy hM⟩

end

theorem toOwned_toOwned (l : Label) : l.toOwned.toOwned = l.toOwned := by
  simp only [Label.toOwned]; split <;> simp_all [Label.new, Label.newOwned]

theorem forall₂_map {α β γ : Type} {L : List α} {M : List β} {Q : α → β → Prop} (f : α → γ) (g : β → γ)
    (h : List.Forall₂ Q L M) (hQ : ∀ x y, Q x y → g y = f x) : M.map g = L.map f := by
  induction h with
  | nil => rfl
  | cons h _ ih => simp [hQ _ _ h, ih]

theorem forall₂_mem {α β : Type} {L : List α} {M : List β} {Q : α → β → Prop} {P : β → Prop}
    (h : List.Forall₂ Q L M) (hQ : ∀ x y, Q x y → P y) : ∀ y ∈ M, P y := by
  induction h with
  | nil => simp
  | cons h _ ih => intro y hy; cases hy with
    | head => exact hQ _ _ h
    | tail _ hy => exact ih y hy

section
variable {bare lower : Bool} {D : List Item → List Part → Prop} (K : Sink bare lower D)
include K

theorem Sink.seqs (n : Option Nat) (L : List (List Item × V)) (h : ∀ x ∈ L, Keeps D x.1 (Shows · x.2)) :
    Keeps D (L.flatMap fun x => .tok .seqValueBegin :: (x.1 ++ [.tok .seqValueEnd])) fun I =>
      Shows (.tok (.seqBegin n) :: (I ++ [.tok .seqEnd])) (.seq n (L.map (·.2))) := by
  cases bare with
  | true =>
    refine (K.keeps_flatMap L _ (fun y : List Item × V => y.1) (fun x y => y.2 = x.2 ∧ Shows y.1 y.2) ?_).imp ?_
    · intro x hx
      obtain ⟨B, T, I, h1, h2, h3, h4⟩ := h x hx
      exact ⟨B, T, I, K.seqValue h1, h2, h3, (I, x.2), ⟨rfl, h4⟩, rfl⟩
    · rintro I ⟨M, rfl, hM⟩
      rw [← forall₂_map (fun x => x.2) (fun x => x.2) hM fun _ _ h => h.1]
      exact .bareSeq n M (forall₂_mem hM fun _ _ h => h.2)
  | false =>
    refine (K.keeps_flatMap L _ (fun y : List Item × V => .tok .seqValueBegin :: (y.1 ++ [.tok .seqValueEnd]))
      (fun x y => y.2 = x.2 ∧ Shows y.1 y.2) ?_).imp ?_
    · intro x hx
      obtain ⟨B, T, I, h1, h2, h3, h4⟩ := h x hx
      exact ⟨_, _, _, K.seqValue h1, h2.wrap .seqValue, h3.wrap .seqValue, (I, x.2), ⟨rfl, h4⟩, rfl⟩
    · rintro I ⟨M, rfl, hM⟩
      rw [← forall₂_map (fun x => x.2) (fun x => x.2) hM fun _ _ h => h.1]
      exact .seq n M (forall₂_mem hM fun _ _ h => h.2)

theorem Sink.bareSeqs (n : Option Nat) (L : List (List Item × V)) (h : ∀ x ∈ L, Keeps D x.1 (Shows · x.2)) :
    Keeps D (L.flatMap fun x => x.1) fun I =>
      Shows (.tok (.seqBegin n) :: (I ++ [.tok .seqEnd])) (.seq n (L.map (·.2))) := by
  refine (K.keeps_flatMap L _ (fun y : List Item × V => y.1) (fun x y => y.2 = x.2 ∧ Shows y.1 y.2) ?_).imp ?_
  · intro x hx
    exact (h x hx).imp fun I hI => ⟨(I, x.2), ⟨rfl, hI⟩, rfl⟩
  · rintro I ⟨M, rfl, hM⟩
    rw [← forall₂_map (fun x => x.2) (fun x => x.2) hM fun _ _ h => h.1]
    exact .bareSeq n M (forall₂_mem hM fun _ _ h => h.2)

theorem Sink.maps (n : Option Nat) (L : List ((List Item × V) × (List Item × V)))
    (h1 : ∀ x ∈ L, Keeps D x.1.1 (Shows · x.1.2)) (h2 : ∀ x ∈ L, Keeps D x.2.1 (Shows · x.2.2)) :
    Keeps D (L.flatMap fun x => .tok .mapKeyBegin :: (x.1.1 ++ [.tok .mapKeyEnd]) ++
      .tok .mapValueBegin :: (x.2.1 ++ [.tok .mapValueEnd])) fun I =>
      Shows (.tok (.mapBegin n) :: (I ++ [.tok .mapEnd])) (.map n (L.map fun x => (x.1.2, x.2.2))) := by
  refine (K.keeps_flatMap L _ (fun y : (List Item × V) × (List Item × V) =>
    .tok .mapKeyBegin :: (y.1.1 ++ [.tok .mapKeyEnd]) ++ .tok .mapValueBegin :: (y.2.1 ++ [.tok .mapValueEnd]))
    (fun x y => (y.1.2 = x.1.2 ∧ y.2.2 = x.2.2) ∧ Shows y.1.1 y.1.2 ∧ Shows y.2.1 y.2.2) ?_).imp ?_
  · intro x hx
    refine (K.keeps_append (K.keeps_wrap .mapKey (h1 x hx)) (K.keeps_wrap .mapValue (h2 x hx))).imp ?_
    rintro I ⟨_, _, rfl, ⟨I1, rfl, s1⟩, I2, rfl, s2⟩
    exact ⟨((I1, x.1.2), (I2, x.2.2)), ⟨⟨rfl, rfl⟩, s1, s2⟩, rfl⟩
  · rintro I ⟨M, rfl, hM⟩
    rw [← forall₂_map (fun x => (x.1.2, x.2.2)) (fun x => (x.1.2, x.2.2)) hM fun _ _ h => by rw [h.1.1, h.1.2]]
    exact .map n M (forall₂_mem hM fun _ _ h => h.2.1) (forall₂_mem hM fun _ _ h => h.2.2)

theorem Sink.tuples (m : Meta) (n : Option Nat) (L : List (Option Tag × Index × List Item × V))
    (h : ∀ x ∈ L, Keeps D x.2.2.1 (Shows · x.2.2.2)) :
    Keeps D (L.flatMap fun x => .tok (.tupleValueBegin x.1 x.2.1) :: (x.2.2.1 ++ [.tok (.tupleValueEnd x.1 x.2.1)])) fun I =>
      Shows (.tok (.tupleBegin (own m) n) :: (I ++ [.tok (.tupleEnd (own m))]))
        (.tuple (own m) n (L.map fun x => (x.1, x.2.1, x.2.2.2))) := by
  refine (K.keeps_flatMap L _ (fun y : Option Tag × Index × List Item × V =>
    .tok (.tupleValueBegin y.1 y.2.1) :: (y.2.2.1 ++ [.tok (.tupleValueEnd y.1 y.2.1)]))
    (fun x y => (y.1 = x.1 ∧ y.2.1 = x.2.1 ∧ y.2.2.2 = x.2.2.2) ∧ Shows y.2.2.1 y.2.2.2) ?_).imp ?_
  · intro x hx
    refine (K.keeps_wrap (.tupleValue x.1 x.2.1) (h x hx)).imp ?_
    rintro I ⟨I1, rfl, s1⟩
    exact ⟨(x.1, x.2.1, I1, x.2.2.2), ⟨⟨rfl, rfl, rfl⟩, s1⟩, rfl⟩
  · rintro I ⟨M, rfl, hM⟩
    rw [← forall₂_map (fun x => (x.1, x.2.1, x.2.2.2)) (fun x => (x.1, x.2.1, x.2.2.2)) hM
      fun _ _ h => by rw [h.1.1, h.1.2.1, h.1.2.2]]
    have := Shows.tuple (own m) n M (forall₂_mem hM fun _ _ h => h.2)
    rwa [own_own] at this

theorem Sink.records (m : Meta) (n : Option Nat) (L : List (Option Tag × Label × List Item × V))
    (h : ∀ x ∈ L, Keeps D x.2.2.1 (Shows · x.2.2.2)) :
    Keeps D (L.flatMap fun x => .tok (.recordValueBegin x.1 x.2.1) :: (x.2.2.1 ++ [.tok (.recordValueEnd x.1 x.2.1)])) fun I =>
      Shows (.tok (.recordBegin (own m) n) :: (I ++ [.tok (.recordEnd (own m))]))
        (.record (own m) n (L.map fun x => (x.1, x.2.1.toOwned, x.2.2.2))) := by
  refine (K.keeps_flatMap L _ (fun y : Option Tag × Label × List Item × V =>
    .tok (.recordValueBegin y.1 y.2.1) :: (y.2.2.1 ++ [.tok (.recordValueEnd y.1 y.2.1)]))
    (fun x y => (y.1 = x.1 ∧ y.2.1 = x.2.1.toOwned ∧ y.2.2.2 = x.2.2.2) ∧ Shows y.2.2.1 y.2.2.2) ?_).imp ?_
  · intro x hx
    refine (K.keeps_wrap (.recordValue x.1 x.2.1) (h x hx)).imp ?_
    rintro I ⟨I1, rfl, s1⟩
    exact ⟨(x.1, x.2.1.toOwned, I1, x.2.2.2), ⟨⟨rfl, rfl, rfl⟩, s1⟩, rfl⟩
  · rintro I ⟨M, rfl, hM⟩
    rw [← forall₂_map (fun x => (x.1, x.2.1.toOwned, x.2.2.2)) (fun x => (x.1, x.2.1.toOwned, x.2.2.2)) hM
      fun _ _ h => by rw [h.1.1, h.1.2.1, h.1.2.2, toOwned_toOwned]]
    have := Shows.record (own m) n M (forall₂_mem hM fun _ _ h => h.2)
    rwa [own_own] at this

theorem Sink.recordTuples (m : Meta) (n : Option Nat) (L : List (Option Tag × Label × Index × List Item × V))
    (h : ∀ x ∈ L, Keeps D x.2.2.2.1 (Shows · x.2.2.2.2)) :
    Keeps D (L.flatMap fun x => .tok (.recordTupleValueBegin x.1 x.2.1 x.2.2.1) ::
        (x.2.2.2.1 ++ [.tok (.recordTupleValueEnd x.1 x.2.1 x.2.2.1)])) fun I =>
      Shows (if lower then .tok (.recordBegin (own m) n) :: (I ++ [.tok (.recordEnd (own m))])
        else .tok (.recordTupleBegin (own m) n) :: (I ++ [.tok (.recordTupleEnd (own m))]))
        (.record (own m) n (L.map fun x => (x.1, x.2.1.toOwned, x.2.2.2.2))) := by
  cases lower with
  | true =>
    refine (K.keeps_flatMap L _ (fun y : Option Tag × Label × List Item × V =>
      .tok (.recordValueBegin y.1 y.2.1) :: (y.2.2.1 ++ [.tok (.recordValueEnd y.1 y.2.1)]))
      (fun x y => (y.1 = x.1 ∧ y.2.1 = x.2.1.toOwned ∧ y.2.2.2 = x.2.2.2.2) ∧ Shows y.2.2.1 y.2.2.2) ?_).imp ?_
    · intro x hx
      obtain ⟨B, T, I, h1, h2, h3, h4⟩ := h x hx
      exact ⟨_, _, _, K.recordTupleValue x.1 x.2.1 x.2.2.1 h1, h2.wrap _, h3.wrap _,
        (x.1, x.2.1.toOwned, I, x.2.2.2.2), ⟨⟨rfl, rfl, rfl⟩, h4⟩, rfl⟩
    · rintro I ⟨M, rfl, hM⟩
      rw [← forall₂_map (fun x => (x.1, x.2.1.toOwned, x.2.2.2.2)) (fun x => (x.1, x.2.1.toOwned, x.2.2.2)) hM
        fun _ _ h => by rw [h.1.1, h.1.2.1, h.1.2.2, toOwned_toOwned]]
      have := Shows.record (own m) n M (forall₂_mem hM fun _ _ h => h.2)
      rw [own_own] at this
      exact this
  | false =>
    refine (K.keeps_flatMap L _ (fun y : Option Tag × Label × Index × List Item × V =>
      .tok (.recordTupleValueBegin y.1 y.2.1 y.2.2.1) ::
        (y.2.2.2.1 ++ [.tok (.recordTupleValueEnd y.1 y.2.1 y.2.2.1)]))
      (fun x y => (y.1 = x.1 ∧ y.2.1 = x.2.1.toOwned ∧ y.2.2.2.2 = x.2.2.2.2) ∧ Shows y.2.2.2.1 y.2.2.2.2) ?_).imp ?_
    · intro x hx
      obtain ⟨B, T, I, h1, h2, h3, h4⟩ := h x hx
      exact ⟨_, _, _, K.recordTupleValue x.1 x.2.1 x.2.2.1 h1, h2.wrap _, h3.wrap _,
        (x.1, x.2.1.toOwned, x.2.2.1, I, x.2.2.2.2), ⟨⟨rfl, rfl, rfl⟩, h4⟩, rfl⟩
    · rintro I ⟨M, rfl, hM⟩
      rw [← forall₂_map (fun x => (x.1, x.2.1.toOwned, x.2.2.2.2)) (fun x => (x.1, x.2.1.toOwned, x.2.2.2.2)) hM
        fun _ _ h => by rw [h.1.1, h.1.2.1, h.1.2.2, toOwned_toOwned]]
      have := Shows.recordTuple (own m) n M (forall₂_mem hM fun _ _ h => h.2)
      rw [own_own] at this
      exact this

/-- What a buffer is filled with by a value shows the same tree. -/
theorem Sink.keeps {q : List Item} {v : V} (h : Shows q v)
    (hval : ∀ q v, Shows q v → Keeps D q (Shows · v) → Keeps D [.val q] (Shows · v))
    (hcomp : ∀ q v, Shows q v → Keeps D q (Shows · v) → Keeps D [.comp q] (Shows · v)) :
    Keeps D q (Shows · v) := by
  induction h with
  | null => exact K.keeps_leaf .null fun t' h => by cases h; exact .null
  | bool b => exact K.keeps_leaf (.bool b) fun t' h => by cases h; exact .bool b
  | int t v => exact K.keeps_leaf (.int t v) fun t' h => by cases h; exact .int t v
  | f32 b => exact K.keeps_leaf (.f32 b) fun t' h => by cases h; exact .f32 b
  | f64 b => exact K.keeps_leaf (.f64 b) fun t' h => by cases h; exact .f64 b
  | tag m =>
    refine K.keeps_leaf (.tag m) ?_
    · intro t' h
      cases h
      have := Shows.tag (own m)
      rwa [own_own] at this
  | text n fs =>
    obtain ⟨c, e, h⟩ := K.text n fs
    obtain ⟨I, h1, h2⟩ := Regroups.text c
    exact ⟨_, _, I, h, .leaf (.text c) rfl, h1, e ▸ h2⟩
  | binary n fs =>
    obtain ⟨c, e, h⟩ := K.binary n fs
    obtain ⟨I, h1, h2⟩ := Regroups.binary c
    exact ⟨_, _, I, h, .leaf (.binary c) rfl, h1, e ▸ h2⟩
  | seq n L h ih =>
    refine (K.keeps_wrap (.seq n) (K.seqs n L ih)).imp ?_
    rintro I ⟨I', rfl, h⟩; exact h
  | bareSeq n L h ih =>
    refine (K.keeps_wrap (.seq n) (K.bareSeqs n L ih)).imp ?_
    rintro I ⟨I', rfl, h⟩; exact h
  | map n L h1 h2 ih1 ih2 =>
    refine (K.keeps_wrap (.map n) (K.maps n L ih1 ih2)).imp ?_
    rintro I ⟨I', rfl, h⟩; exact h
  | tuple m n L h ih =>
    refine (K.keeps_wrap (.tuple m n) (K.tuples m n L ih)).imp ?_
    rintro I ⟨I', rfl, h⟩; exact h
  | record m n L h ih =>
    refine (K.keeps_wrap (.record m n) (K.records m n L ih)).imp ?_
    rintro I ⟨I', rfl, h⟩; exact h
  | recordTuple m n L h ih =>
    obtain ⟨B, T, I, h1, h2, h3, h4⟩ := K.recordTuples m n L ih
    refine ⟨_, _, _, K.recordTuple m n h1, h2.wrap _, h3.wrap _, ?_⟩
    cases lower <;> exact h4
  | tagged m q v h ih =>
    refine (K.keeps_wrap (.tagged m) ih).imp ?_
    rintro I ⟨I', rfl, h⟩
    have := Shows.tagged (own m) _ _ h
    rwa [own_own] at this
  | enum m q v h ih =>
    refine (K.keeps_wrap (.enum m) ih).imp ?_
    rintro I ⟨I', rfl, h⟩
    have := Shows.enum (own m) _ _ h
    rwa [own_own] at this
  | hint t q v h ih =>
    obtain ⟨B, T, I, h1, h2, h3, h4⟩ := ih
    have := K.append (K.hint t) h1
    cases lower with
    | true => exact ⟨_, _, _, this, h2, h3, h4⟩
    | false =>
      exact ⟨_, _, _, this, (Replays.leaf (.tagHint t) rfl).append h2,
        (Regroups.tok (.tagHint t) (by simp) (by simp)).append h3, .hint t _ _ h4⟩
  | val q v h ih => exact hval q v h ih
  | comp q v h ih => exact hcomp q v h ih

end

/-! ## Directly -/

theorem appends_text (n : Option Nat) (fs : List (Frag Text)) :
    Appends (.textBegin n :: (fs.map textFragTok ++ [.textEnd])) [.text (Buf.merged fs)] := by
  have := Buf.appends_enc (.text n fs)
  simpa [toks, Buf.enc] using this

theorem appends_binary (n : Option Nat) (fs : List (Frag Bytes)) :
    Appends (.binaryBegin n :: (fs.map binFragTok ++ [.binaryEnd])) [.binary (Buf.merged fs)] := by
  have := Buf.appends_enc (.binary n fs)
  simpa [toks, Buf.enc] using this

theorem flat_tok (t : Token) (q : List Item) (c : Bool) (h : computedTok t = t) : flat (.tok t :: q) c = t :: flat q c := by
  cases c <;> simp [flat, Item.flat, h]

theorem flat_one (t : Token) (c : Bool) (h : computedTok t = t) : flat [.tok t] c = [t] := flat_tok t [] c h

theorem computedTok_opens {b e : Token} {o : Opener} (h : Opens b e o) : computedTok b = b ∧ computedTok e = e := by
  cases h <;> exact ⟨rfl, rfl⟩

theorem step_opens {b e : Token} {o : Opener} (h : Opens b e o) :
    (∀ s, Buf.step true b s = Buf.pushBegin true o s) ∧ ∀ s, Buf.step true e s = Buf.pushEnd s := by
  cases h with
  | enum m => exact ⟨fun s => Buf.beginMeta_true m .enum s, fun _ => rfl⟩
  | tagged m => exact ⟨fun s => Buf.beginMeta_true m .tagged s, fun _ => rfl⟩
  | record m n => exact ⟨fun s => Buf.beginMeta_true m (.record · n) s, fun _ => rfl⟩
  | tuple m n => exact ⟨fun s => Buf.beginMeta_true m (.tuple · n) s, fun _ => rfl⟩
  | recordValue t l => exact ⟨fun s => Buf.beginLabel_true l (.recordValue t ·) s, fun _ => rfl⟩
  | _ => exact ⟨fun _ => rfl, fun _ => rfl⟩

theorem step_leaf {t : Token} {k : Part} (h : Leaf t k) (s : Buf.St) : Buf.step true t s = Buf.pushKind true k s := by
  cases h with
  | tag m => simp [Buf.step, Buf.ownMeta_true]; rfl
  | _ => rfl

theorem appends_wrap {b e : Token} {o : Opener} {q : List Item} {B : List Part} {c : Bool}
    (h1 : computedTok b = b) (h2 : computedTok e = e)
    (h3 : ∀ s, Buf.step true b s = Buf.pushBegin true o s) (h4 : ∀ s, Buf.step true e s = Buf.pushEnd s)
    (h : Appends (flat q c) B) : Appends (flat (.tok b :: (q ++ [.tok e])) c) (.opened o B.length :: B) := by
  rw [flat_tok _ _ _ h1, flat_append, flat_one _ _ h2]
  exact h.wrap o b e h3 h4

theorem flat_textFrags (fs : List (Frag Text)) (c : Bool) :
    flat (fs.map (Item.tok ∘ textFragTok)) c =
      (if c then fs.map fun f => Frag.computed f.content else fs).map textFragTok := by
  induction fs with
  | nil => cases c <;> rfl
  | cons f fs ih =>
    cases c <;> cases f <;> simp [flat, Item.flat, textFragTok, computedTok, Frag.content] at ih ⊢ <;> exact ih

theorem flat_binFrags (fs : List (Frag Bytes)) (c : Bool) :
    flat (fs.map (Item.tok ∘ binFragTok)) c =
      (if c then fs.map fun f => Frag.computed f.content else fs).map binFragTok := by
  induction fs with
  | nil => cases c <;> rfl
  | cons f fs ih =>
    cases c <;> cases f <;> simp [flat, Item.flat, binFragTok, computedTok, Frag.content] at ih ⊢ <;> exact ih

theorem frags_content {α : Type} (fs : List (Frag (List α))) (c : Bool) :
    ((if c then fs.map fun f => Frag.computed f.content else fs).map Frag.content) = fs.map Frag.content := by
  cases c
  · rfl
  · simp only [if_true, List.map_map]; rfl

theorem sink_direct (c : Bool) : Sink false false fun q B => Appends (flat q c) B where
  nil := .nil
  append h1 h2 := by rw [flat_append]; exact h1.append h2
  leaf {t k} h := by
    rw [flat_one _ _ (by cases h <;> rfl)]
    exact .leaf t k (step_leaf h)
  text n fs := by
    refine ⟨Buf.merged (if c then fs.map fun f => Frag.computed f.content else fs), ?_, ?_⟩
    · rw [Buf.merged_content, frags_content]
    rw [flat_tok _ _ _ rfl, flat_append, flat_one _ _ rfl, flat_textFrags]
    exact appends_text n _
  binary n fs := by
    refine ⟨Buf.merged (if c then fs.map fun f => Frag.computed f.content else fs), ?_, ?_⟩
    · rw [Buf.merged_content, frags_content]
    rw [flat_tok _ _ _ rfl, flat_append, flat_one _ _ rfl, flat_binFrags]
    exact appends_binary n _
  wrap h hq := appends_wrap (computedTok_opens h).1 (computedTok_opens h).2 (step_opens h).1 (step_opens h).2 hq
  hint t := by rw [flat_one _ _ rfl]; exact .leaf _ _ fun _ => rfl
  seqValue hq := appends_wrap rfl rfl (fun _ => rfl) (fun _ => rfl) hq
  recordTuple m n hq := appends_wrap rfl rfl (fun s => Buf.beginMeta_true m (.recordTuple · n) s) (fun _ => rfl) hq
  recordTupleValue t l i hq :=
    appends_wrap rfl rfl (fun s => Buf.beginLabel_true l (.recordTupleValue t · i) s) (fun _ => rfl) hq

theorem keeps_direct_true {q : List Item} {v : V} (h : Shows q v) : Keeps (fun q B => Appends (flat q true) B) q (Shows · v) := by
  refine (sink_direct true).keeps h ?_ ?_
  · intro q v _ h; simpa [Keeps, flat, Item.flat] using h
  · intro q v _ h; simpa [Keeps, flat, Item.flat] using h

theorem keeps_direct {q : List Item} {v : V} (h : Shows q v) (c : Bool) :
    Keeps (fun q B => Appends (flat q c) B) q (Shows · v) := by
  cases c with
  | true => exact keeps_direct_true h
  | false =>
    refine (sink_direct false).keeps h ?_ ?_
    · intro q v _ h; simpa [Keeps, flat, Item.flat] using h
    · intro q v h _; simpa [Keeps, flat, Item.flat] using keeps_direct_true h

end Sval.Nested
