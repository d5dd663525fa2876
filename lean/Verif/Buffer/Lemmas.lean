import Verif.Buffer.Model
import Mathlib.Data.List.Basic

set_option autoImplicit false

namespace Sval.Buf

/-! ## Fragments -/

section
variable {α : Type}

def pushFrag (c : Cow α) : Frag (List α) → Cow α
  | .borrowed f => if c.content.length = 0 then .borrowed f else .owned (c.content ++ f)
  | .computed f => .owned (c.content ++ f)

/-- Specification: what a list of fragments amounts to. All of it, borrowed exactly if nothing was
pushed, or the last fragment was borrowed and everything before it was empty. -/
def merged (fs : List (Frag (List α))) : Cow α :=
  match fs.getLast? with
  | none => .borrowed []
  | some (.borrowed f) =>
    if (fs.dropLast.map Frag.content).flatten.length = 0 then .borrowed f
    else .owned (fs.map Frag.content).flatten
  | some (.computed _) => .owned (fs.map Frag.content).flatten

theorem merged_content (fs : List (Frag (List α))) :
    (merged fs).content = (fs.map Frag.content).flatten := by
  cases h : fs.getLast? with
  | none => simp [merged, Cow.content, List.getLast?_eq_none_iff.1 h]
  | some f =>
    have e := List.dropLast_append_getLast? (l := fs) f h
    cases f with
    | computed f => simp [merged, h, Cow.content]
    | borrowed f =>
      simp only [merged, h]
      split
      · next h0 =>
        have h0' : (fs.dropLast.map Frag.content).flatten = [] := List.length_eq_zero_iff.1 h0
        conv => rhs; rw [← e]
        simp only [List.map_append, List.flatten_append, h0']
        simp [Frag.content, Cow.content]
      · rfl

theorem merged_snoc (fs : List (Frag (List α))) (f : Frag (List α)) :
    merged (fs ++ [f]) = pushFrag (merged fs) f := by
  cases f with
  | computed f =>
    rw [pushFrag, merged_content]
    simp [merged, Frag.content]
  | borrowed f =>
    rw [pushFrag, merged_content]
    simp only [merged, List.getLast?_concat, List.dropLast_concat, List.map_append, List.flatten_append]
    simp [Frag.content]

theorem merged_foldl (fs gs : List (Frag (List α))) :
    gs.foldl pushFrag (merged fs) = merged (fs ++ gs) := by
  induction gs generalizing fs with
  | nil => simp
  | cons g gs ih => rw [List.foldl_cons, ← merged_snoc, ih]; simp
end

/-! ## Appending a value -/

/-- Running the calls appends the parts and changes nothing else. -/
def Appends (T : List Token) (B : List Part) : Prop :=
  ∀ s, s.inText = false → run (step true) T s = .ok { s with parts := s.parts ++ B }

theorem Appends.nil : Appends [] [] := by intro s _; simp

theorem Appends.append {T1 T2 : List Token} {B1 B2 : List Part} (h1 : Appends T1 B1)
    (h2 : Appends T2 B2) : Appends (T1 ++ T2) (B1 ++ B2) := by
  intro s hs
  rw [run_append, h1 s hs, Res.bind_ok, h2 { s with parts := s.parts ++ B1 } hs]
  simp

theorem pushBegin_true (o : Opener) (s : St) :
    pushBegin true o s = .ok { s with parts := s.parts ++ [.opened o 0], stack := s.parts.length :: s.stack } := rfl

theorem pushEnd_opened (P B : List Part) (o : Opener) (l : Nat) (st : List Nat) (s : St)
    (h1 : s.parts = P ++ .opened o l :: B) (h2 : s.stack = P.length :: st) :
    pushEnd s = .ok { s with parts := P ++ .opened o B.length :: B, stack := st } := by
  simp only [pushEnd, h2, h1]
  have h3 : ¬ ((P ++ Part.opened o l :: B).length < P.length + 1) := by simp
  rw [if_neg h3]
  simp

theorem Appends.wrap {T : List Token} {B : List Part} (h : Appends T B) (o : Opener) (b e : Token)
    (hb : ∀ s, step true b s = pushBegin true o s) (he : ∀ s, step true e s = pushEnd s) :
    Appends (b :: (T ++ [e])) (.opened o B.length :: B) := by
  intro s hs
  rw [run_cons, hb, pushBegin_true, Res.bind_ok, run_append, h _ (by exact hs), Res.bind_ok]
  simp only [run_cons, he]
  rw [pushEnd_opened s.parts B o 0 s.stack _ (by simp) rfl]
  simp

theorem Appends.leaf (t : Token) (k : Part) (h : ∀ s, step true t s = pushKind true k s) :
    Appends [t] [k] := by
  intro s _
  simp [h, pushKind]

theorem setLast_append (P : List Part) (k k' : Part) (s : St) (h : s.parts = P ++ [k]) :
    setLast s k' = { s with parts := P ++ [k'] } := by
  simp [setLast, h]

theorem run_textFrags (fs : List (Frag Text)) (P : List Part) (c : Cow Char) (s : St)
    (h : s.parts = P ++ [.text c]) :
    run (step true) (fs.map textFragTok) s = .ok { s with parts := P ++ [.text (fs.foldl pushFrag c)] } := by
  induction fs generalizing c s with
  | nil => simp [← h]
  | cons f fs ih =>
    have hs : step true (textFragTok f) s = .ok { s with parts := P ++ [.text (pushFrag c f)] } := by
      cases f with
      | borrowed f =>
        simp only [textFragTok, step, textPush, h, List.getLast?_concat, Cow.push, pushFrag]
        by_cases h0 : c.content.length = 0
        · rw [if_pos h0, if_pos h0]; simp only [setLast_append P _ _ s h]
        · rw [if_neg h0, if_neg h0]; simp only [Cow.pushComputed, if_true, setLast_append P _ _ s h]
      | computed f =>
        simp only [textFragTok, step, textPush, h, List.getLast?_concat, Cow.pushComputed, if_true,
          pushFrag, setLast_append P _ _ s h]
    rw [List.map_cons, run_cons, hs, Res.bind_ok, ih (pushFrag c f) _ rfl]
    rfl

theorem run_binFrags (fs : List (Frag Bytes)) (P : List Part) (c : Cow UInt8) (s : St)
    (h : s.parts = P ++ [.binary c]) :
    run (step true) (fs.map binFragTok) s = .ok { s with parts := P ++ [.binary (fs.foldl pushFrag c)] } := by
  induction fs generalizing c s with
  | nil => simp [← h]
  | cons f fs ih =>
    have hs : step true (binFragTok f) s = .ok { s with parts := P ++ [.binary (pushFrag c f)] } := by
      cases f with
      | borrowed f =>
        simp only [binFragTok, step, binaryPush, h, List.getLast?_concat, Cow.push, pushFrag]
        by_cases h0 : c.content.length = 0
        · rw [if_pos h0, if_pos h0]; simp only [setLast_append P _ _ s h]
        · rw [if_neg h0, if_neg h0]; simp only [Cow.pushComputed, if_true, setLast_append P _ _ s h]
      | computed f =>
        simp only [binFragTok, step, binaryPush, h, List.getLast?_concat, Cow.pushComputed, if_true,
          pushFrag, setLast_append P _ _ s h]
    rw [List.map_cons, run_cons, hs, Res.bind_ok, ih (pushFrag c f) _ rfl]
    rfl

def own (m : Meta) : Meta := { m with label := m.label.map Label.toOwned }

theorem ownMeta_true (m : Meta) : ownMeta true m = some (own m) := by
  obtain ⟨t, l, i⟩ := m
  cases l <;> rfl

mutual
/-- The parts of a buffered value. -/
def enc : V → List Part
  | .null => [.null]
  | .bool b => [.bool b]
  | .int t v => [.int t v]
  | .f32 b => [.f32 b]
  | .f64 b => [.f64 b]
  | .text _ fs => [.text (merged fs)]
  | .binary _ fs => [.binary (merged fs)]
  | .seq n xs => .opened (.seq n) (encSeq xs).length :: encSeq xs
  | .map n kvs => .opened (.map n) (encMap kvs).length :: encMap kvs
  | .tag m => [.tag (own m)]
  | .tagged m v => .opened (.tagged (own m)) (enc v).length :: enc v
  | .enum m v => .opened (.enum (own m)) (enc v).length :: enc v
  | .record m n fs => .opened (.record (own m) n) (encRec fs).length :: encRec fs
  | .tuple m n fs => .opened (.tuple (own m) n) (encTup fs).length :: encTup fs
  | .recordTuple m n fs => .opened (.recordTuple (own m) n) (encRT fs).length :: encRT fs
  | .hint t v => .tagHint t :: enc v
def encSeq : List V → List Part
  | [] => []
  | x :: xs => (.opened .seqValue (enc x).length :: enc x) ++ encSeq xs
def encMap : List (V × V) → List Part
  | [] => []
  | (k, v) :: r =>
    (.opened .mapKey (enc k).length :: enc k) ++ ((.opened .mapValue (enc v).length :: enc v) ++ encMap r)
def encRec : List (Option Tag × Label × V) → List Part
  | [] => []
  | (t, l, v) :: r => (.opened (.recordValue t l.toOwned) (enc v).length :: enc v) ++ encRec r
def encTup : List (Option Tag × Index × V) → List Part
  | [] => []
  | (t, i, v) :: r => (.opened (.tupleValue t i) (enc v).length :: enc v) ++ encTup r
def encRT : List (Option Tag × Label × Index × V) → List Part
  | [] => []
  | (t, l, i, v) :: r => (.opened (.recordTupleValue t l.toOwned i) (enc v).length :: enc v) ++ encRT r
end

theorem beginMeta_true (m : Meta) (o : Meta → Opener) (s : St) :
    beginMeta true m o s = pushBegin true (o (own m)) s := by
  simp [beginMeta, ownMeta_true]

theorem beginLabel_true (l : Label) (o : Label → Opener) (s : St) :
    beginLabel true l o s = pushBegin true (o l.toOwned) s := rfl

theorem Appends.seq (xs : List V) (h : ∀ x ∈ xs, Appends (toks x) (enc x)) :
    Appends (toksSeq xs) (encSeq xs) := by
  induction xs with
  | nil => exact .nil
  | cons x xs ih =>
    have := ((h x (by simp)).wrap .seqValue .seqValueBegin .seqValueEnd (fun _ => rfl) (fun _ => rfl)).append
      (ih (fun y hy => h y (by simp [hy])))
    simpa [toksSeq, encSeq] using this

theorem Appends.map (xs : List (V × V)) (h : ∀ x ∈ xs, Appends (toks x.1) (enc x.1) ∧ Appends (toks x.2) (enc x.2)) :
    Appends (toksMap xs) (encMap xs) := by
  induction xs with
  | nil => exact .nil
  | cons x xs ih =>
    have := ((h x (by simp)).1.wrap .mapKey .mapKeyBegin .mapKeyEnd (fun _ => rfl) (fun _ => rfl)).append
      (((h x (by simp)).2.wrap .mapValue .mapValueBegin .mapValueEnd (fun _ => rfl) (fun _ => rfl)).append
      (ih (fun y hy => h y (by simp [hy]))))
    obtain ⟨k, v⟩ := x
    simpa [toksMap, encMap] using this

theorem Appends.rec' (xs : List (Option Tag × Label × V)) (h : ∀ x ∈ xs, Appends (toks x.2.2) (enc x.2.2)) :
    Appends (toksRec xs) (encRec xs) := by
  induction xs with
  | nil => exact .nil
  | cons x xs ih =>
    obtain ⟨t, l, v⟩ := x
    have := ((h (t, l, v) (by simp)).wrap (.recordValue t l.toOwned) (.recordValueBegin t l) (.recordValueEnd t l)
      (fun _ => rfl) (fun _ => rfl)).append (ih (fun y hy => h y (by simp [hy])))
    simpa [toksRec, encRec] using this

theorem Appends.tup (xs : List (Option Tag × Index × V)) (h : ∀ x ∈ xs, Appends (toks x.2.2) (enc x.2.2)) :
    Appends (toksTup xs) (encTup xs) := by
  induction xs with
  | nil => exact .nil
  | cons x xs ih =>
    obtain ⟨t, l, v⟩ := x
    have := ((h (t, l, v) (by simp)).wrap (.tupleValue t l) (.tupleValueBegin t l) (.tupleValueEnd t l)
      (fun _ => rfl) (fun _ => rfl)).append (ih (fun y hy => h y (by simp [hy])))
    simpa [toksTup, encTup] using this

theorem Appends.rt (xs : List (Option Tag × Label × Index × V))
    (h : ∀ x ∈ xs, Appends (toks x.2.2.2) (enc x.2.2.2)) : Appends (toksRT xs) (encRT xs) := by
  induction xs with
  | nil => exact .nil
  | cons x xs ih =>
    obtain ⟨t, l, i, v⟩ := x
    have := ((h (t, l, i, v) (by simp)).wrap (.recordTupleValue t l.toOwned i) (.recordTupleValueBegin t l i)
      (.recordTupleValueEnd t l i) (fun _ => rfl) (fun _ => rfl)).append (ih (fun y hy => h y (by simp [hy])))
    simpa [toksRT, encRT] using this

theorem appends_enc (v : V) : Appends (toks v) (enc v) := by
  induction v using V.ind with
  | null => exact .leaf _ _ fun _ => rfl
  | bool b => exact .leaf _ _ fun _ => rfl
  | int t v => exact .leaf _ _ fun _ => rfl
  | f32 b => exact .leaf _ _ fun _ => rfl
  | f64 b => exact .leaf _ _ fun _ => rfl
  | text n fs =>
    intro s hs
    have e : toks (.text n fs) = .textBegin n :: (fs.map textFragTok ++ [.textEnd]) := by simp [toks]
    rw [e, run_cons]
    simp only [step, pushKind, Bool.true_or, if_true, Res.bind_ok]
    rw [run_append, run_textFrags fs s.parts .new _ rfl, Res.bind_ok]
    have hm : fs.foldl pushFrag (Cow.new : Cow Char) = merged fs := merged_foldl [] fs
    simp [step, enc, hm, ← hs]
  | binary n fs =>
    intro s hs
    have e : toks (.binary n fs) = .binaryBegin n :: (fs.map binFragTok ++ [.binaryEnd]) := by simp [toks]
    rw [e, run_cons]
    simp only [step, pushKind, Bool.true_or, if_true, Res.bind_ok]
    rw [run_append, run_binFrags fs s.parts .new _ rfl, Res.bind_ok]
    have hm : fs.foldl pushFrag (Cow.new : Cow UInt8) = merged fs := merged_foldl [] fs
    simp [step, enc, hm, ← hs]
  | seq n xs ih =>
    simpa [toks, enc] using (Appends.seq xs ih).wrap (.seq n) (.seqBegin n) .seqEnd (fun _ => rfl) (fun _ => rfl)
  | map n kvs ih =>
    simpa [toks, enc] using (Appends.map kvs ih).wrap (.map n) (.mapBegin n) .mapEnd (fun _ => rfl) (fun _ => rfl)
  | tag m => exact .leaf _ _ fun s => by simp [step, ownMeta_true]
  | tagged m v ih =>
    simpa [toks, enc] using ih.wrap (.tagged (own m)) (.taggedBegin m) (.taggedEnd m)
      (fun s => beginMeta_true m .tagged s) (fun _ => rfl)
  | enum m v ih =>
    simpa [toks, enc] using ih.wrap (.enum (own m)) (.enumBegin m) (.enumEnd m)
      (fun s => beginMeta_true m .enum s) (fun _ => rfl)
  | record m n fs ih =>
    simpa [toks, enc] using (Appends.rec' fs ih).wrap (.record (own m) n) (.recordBegin m n) (.recordEnd m)
      (fun s => beginMeta_true m (.record · n) s) (fun _ => rfl)
  | tuple m n fs ih =>
    simpa [toks, enc] using (Appends.tup fs ih).wrap (.tuple (own m) n) (.tupleBegin m n) (.tupleEnd m)
      (fun s => beginMeta_true m (.tuple · n) s) (fun _ => rfl)
  | recordTuple m n fs ih =>
    simpa [toks, enc] using (Appends.rt fs ih).wrap (.recordTuple (own m) n) (.recordTupleBegin m n)
      (.recordTupleEnd m) (fun s => beginMeta_true m (.recordTuple · n) s) (fun _ => rfl)
  | hint t v ih =>
    simpa [toks, enc] using (Appends.leaf (.tagHint t) (.tagHint t) fun _ => rfl).append ih

/-! ## Replaying -/

theorem Out.then_assoc (a b c : Out) : (a.then b).then c = a.then (b.then c) := by
  obtain ⟨ta, pa⟩ := a; obtain ⟨tb, pb⟩ := b
  cases pa <;> cases pb <;> simp [Out.then]

@[simp] theorem Out.then_mk (a b : List Token) : Out.then ⟨a, false⟩ ⟨b, false⟩ = ⟨a ++ b, false⟩ := rfl
@[simp] theorem Out.nil_then (a : Out) : Out.then ⟨[], false⟩ a = a := rfl
theorem Out.then_nil (a : Out) : a.then ⟨[], false⟩ = a := by
  obtain ⟨ta, pa⟩ := a; cases pa <;> simp [Out.then]

theorem replayN_fuel (n : Nat) : ∀ (m : Nat) (ps : List Part), ps.length ≤ n → ps.length ≤ m →
    replayN n ps = replayN m ps := by
  induction n with
  | zero =>
    intro m ps h _
    have : ps = [] := by simpa using h
    subst this
    cases m <;> rfl
  | succ n ih =>
    intro m ps h1 h2
    cases ps with
    | nil => cases m <;> rfl
    | cons p rest =>
      cases m with
      | zero => simp at h2
      | succ m =>
        simp only [List.length_cons] at h1 h2
        have hr := ih m rest (by omega) (by omega)
        cases p with
        | opened o len =>
          simp only [replayN]
          split
          · rfl
          · rw [ih m (rest.take len) (by simp; omega) (by simp; omega),
              ih m (rest.drop len) (by simp; omega) (by simp; omega)]
        | _ => simp only [replayN, hr]

/-- Replay with as much fuel as there are parts. -/
def rp (ps : List Part) : Out := replayN ps.length ps

/-- The calls of a part that is not a container. -/
def Part.leafToks : Part → List Token
  | .null => [.null]
  | .bool b => [.bool b]
  | .int t v => [.int t v]
  | .f32 b => [.f32 b]
  | .f64 b => [.f64 b]
  | .text c => c.textToks
  | .binary c => c.binaryToks
  | .tag m => [.tag m]
  | .tagHint t => [.tagHint t]
  | .opened _ _ => []

def Part.isOpened : Part → Bool
  | .opened _ _ => true
  | _ => false

theorem rp_nil : rp [] = ⟨[], false⟩ := rfl

theorem rp_leaf (k : Part) (rest : List Part) (h : k.isOpened = false) :
    rp (k :: rest) = Out.then ⟨k.leafToks, false⟩ (rp rest) := by
  cases k <;> first | rfl | simp [Part.isOpened] at h

theorem rp_opened (o : Opener) (B rest : List Part) :
    rp (.opened o B.length :: (B ++ rest)) =
      ((Out.then ⟨[o.begin], false⟩ (rp B)).then ⟨[o.end], false⟩).then (rp rest) := by
  have h : ¬ ((B ++ rest).length < B.length) := by simp
  show replayN ((B ++ rest).length + 1) _ = _
  simp only [replayN, if_neg h]
  have e1 : (B ++ rest).take B.length = B := by simp
  have e2 : (B ++ rest).drop B.length = rest := by simp
  rw [e1, e2, replayN_fuel _ B.length B (by simp) (Nat.le_refl _),
    replayN_fuel _ rest.length rest (by simp) (Nat.le_refl _)]
  rfl

/-- The parts replay as the calls, whatever follows them. -/
def Replays (B : List Part) (T : List Token) : Prop :=
  ∀ rest, rp (B ++ rest) = Out.then ⟨T, false⟩ (rp rest)

theorem Replays.nil : Replays [] [] := by intro rest; rfl

theorem Replays.append {B1 B2 : List Part} {T1 T2 : List Token} (h1 : Replays B1 T1) (h2 : Replays B2 T2) :
    Replays (B1 ++ B2) (T1 ++ T2) := by
  intro rest
  rw [List.append_assoc, h1, h2, ← Out.then_assoc, Out.then_mk]

theorem Replays.leaf (k : Part) (h : k.isOpened = false) : Replays [k] k.leafToks := by
  intro rest
  exact rp_leaf k rest h

theorem Replays.wrap {B : List Part} {T : List Token} (h : Replays B T) (o : Opener) :
    Replays (.opened o B.length :: B) (o.begin :: (T ++ [o.end])) := by
  intro rest
  rw [List.cons_append, rp_opened]
  have := h []
  rw [List.append_nil, rp_nil, Out.then_nil] at this
  rw [this]
  simp

theorem Replays.out {B : List Part} {T : List Token} (h : Replays B T) : rp B = ⟨T, false⟩ := by
  have := h []
  rwa [List.append_nil, rp_nil, Out.then_nil] at this

/-! ## Specification of what a buffered value replays -/

def Cow.frag {α : Type} : Cow α → Frag (List α)
  | .borrowed s => .borrowed s
  | .owned s => .computed s

/-- One fragment with the content of all of them. -/
def mergedFrag {α : Type} (fs : List (Frag (List α))) : Frag (List α) := (merged fs).frag

mutual
/-- Specification: the normalisation buffering applies. Text and binary become a single fragment with
an exact size hint, labels become owned, everything else is kept. -/
def norm : V → V
  | .null => .null
  | .bool b => .bool b
  | .int t v => .int t v
  | .f32 b => .f32 b
  | .f64 b => .f64 b
  | .text _ fs => .text (some (utf8Len (fragsText fs))) [mergedFrag fs]
  | .binary _ fs => .binary (some (fragsBytes fs).length) [mergedFrag fs]
  | .seq n xs => .seq n (normSeq xs)
  | .map n kvs => .map n (normMap kvs)
  | .tag m => .tag (own m)
  | .tagged m v => .tagged (own m) (norm v)
  | .enum m v => .enum (own m) (norm v)
  | .record m n fs => .record (own m) n (normRec fs)
  | .tuple m n fs => .tuple (own m) n (normTup fs)
  | .recordTuple m n fs => .recordTuple (own m) n (normRT fs)
  | .hint t v => .hint t (norm v)
def normSeq : List V → List V
  | [] => []
  | x :: xs => norm x :: normSeq xs
def normMap : List (V × V) → List (V × V)
  | [] => []
  | (k, v) :: r => (norm k, norm v) :: normMap r
def normRec : List (Option Tag × Label × V) → List (Option Tag × Label × V)
  | [] => []
  | (t, l, v) :: r => (t, l.toOwned, norm v) :: normRec r
def normTup : List (Option Tag × Index × V) → List (Option Tag × Index × V)
  | [] => []
  | (t, i, v) :: r => (t, i, norm v) :: normTup r
def normRT : List (Option Tag × Label × Index × V) → List (Option Tag × Label × Index × V)
  | [] => []
  | (t, l, i, v) :: r => (t, l.toOwned, i, norm v) :: normRT r
end

theorem Replays.seq (xs : List V) (h : ∀ x ∈ xs, Replays (enc x) (toks (norm x))) :
    Replays (encSeq xs) (toksSeq (normSeq xs)) := by
  induction xs with
  | nil => exact .nil
  | cons x xs ih =>
    have := ((h x (by simp)).wrap .seqValue).append (ih (fun y hy => h y (by simp [hy])))
    simpa [normSeq, toksSeq, encSeq, Opener.begin, Opener.end] using this

theorem Replays.map (xs : List (V × V))
    (h : ∀ x ∈ xs, Replays (enc x.1) (toks (norm x.1)) ∧ Replays (enc x.2) (toks (norm x.2))) :
    Replays (encMap xs) (toksMap (normMap xs)) := by
  induction xs with
  | nil => exact .nil
  | cons x xs ih =>
    have := ((h x (by simp)).1.wrap .mapKey).append (((h x (by simp)).2.wrap .mapValue).append
      (ih (fun y hy => h y (by simp [hy]))))
    obtain ⟨k, v⟩ := x
    simpa [normMap, toksMap, encMap, Opener.begin, Opener.end] using this

theorem Replays.rec' (xs : List (Option Tag × Label × V))
    (h : ∀ x ∈ xs, Replays (enc x.2.2) (toks (norm x.2.2))) :
    Replays (encRec xs) (toksRec (normRec xs)) := by
  induction xs with
  | nil => exact .nil
  | cons x xs ih =>
    obtain ⟨t, l, v⟩ := x
    have := ((h (t, l, v) (by simp)).wrap (.recordValue t l.toOwned)).append (ih (fun y hy => h y (by simp [hy])))
    simpa [normRec, toksRec, encRec, Opener.begin, Opener.end] using this

theorem Replays.tup (xs : List (Option Tag × Index × V))
    (h : ∀ x ∈ xs, Replays (enc x.2.2) (toks (norm x.2.2))) :
    Replays (encTup xs) (toksTup (normTup xs)) := by
  induction xs with
  | nil => exact .nil
  | cons x xs ih =>
    obtain ⟨t, l, v⟩ := x
    have := ((h (t, l, v) (by simp)).wrap (.tupleValue t l)).append (ih (fun y hy => h y (by simp [hy])))
    simpa [normTup, toksTup, encTup, Opener.begin, Opener.end] using this

theorem Replays.rt (xs : List (Option Tag × Label × Index × V))
    (h : ∀ x ∈ xs, Replays (enc x.2.2.2) (toks (norm x.2.2.2))) :
    Replays (encRT xs) (toksRT (normRT xs)) := by
  induction xs with
  | nil => exact .nil
  | cons x xs ih =>
    obtain ⟨t, l, i, v⟩ := x
    have := ((h (t, l, i, v) (by simp)).wrap (.recordTupleValue t l.toOwned i)).append (ih (fun y hy => h y (by simp [hy])))
    simpa [normRT, toksRT, encRT, Opener.begin, Opener.end] using this

theorem textToks_merged (fs : List (Frag Text)) :
    (merged fs).textToks = .textBegin (some (utf8Len (fragsText fs))) :: ([mergedFrag fs].map textFragTok ++ [.textEnd]) := by
  have := merged_content fs
  unfold Cow.textToks mergedFrag fragsText
  rw [this]
  cases merged fs <;> rfl

theorem binaryToks_merged (fs : List (Frag Bytes)) :
    (merged fs).binaryToks = .binaryBegin (some (fragsBytes fs).length) :: ([mergedFrag fs].map binFragTok ++ [.binaryEnd]) := by
  have := merged_content fs
  unfold Cow.binaryToks mergedFrag fragsBytes
  rw [this]
  cases merged fs <;> rfl

theorem replays_enc (v : V) : Replays (enc v) (toks (norm v)) := by
  induction v using V.ind with
  | null => exact .leaf .null rfl
  | bool b => exact .leaf (.bool b) rfl
  | int t v => exact .leaf (.int t v) rfl
  | f32 b => exact .leaf (.f32 b) rfl
  | f64 b => exact .leaf (.f64 b) rfl
  | text n fs =>
    have := Replays.leaf (.text (merged fs)) rfl
    rw [Part.leafToks, textToks_merged] at this
    simpa only [enc, norm, toks] using this
  | binary n fs =>
    have := Replays.leaf (.binary (merged fs)) rfl
    rw [Part.leafToks, binaryToks_merged] at this
    simpa only [enc, norm, toks] using this
  | seq n xs ih => simpa [enc, norm, toks, Opener.begin, Opener.end] using (Replays.seq xs ih).wrap (.seq n)
  | map n kvs ih => simpa [enc, norm, toks, Opener.begin, Opener.end] using (Replays.map kvs ih).wrap (.map n)
  | tag m => exact .leaf (.tag (own m)) rfl
  | tagged m v ih => simpa [enc, norm, toks, Opener.begin, Opener.end] using ih.wrap (.tagged (own m))
  | enum m v ih => simpa [enc, norm, toks, Opener.begin, Opener.end] using ih.wrap (.enum (own m))
  | record m n fs ih =>
    simpa [enc, norm, toks, Opener.begin, Opener.end] using (Replays.rec' fs ih).wrap (.record (own m) n)
  | tuple m n fs ih =>
    simpa [enc, norm, toks, Opener.begin, Opener.end] using (Replays.tup fs ih).wrap (.tuple (own m) n)
  | recordTuple m n fs ih =>
    simpa [enc, norm, toks, Opener.begin, Opener.end] using (Replays.rt fs ih).wrap (.recordTuple (own m) n)
  | hint t v ih => simpa [enc, norm, toks, Part.leafToks] using (Replays.leaf (.tagHint t) rfl).append ih

theorem enc_ne_nil (v : V) : enc v ≠ [] := by
  cases v <;> simp [enc]

theorem replay_enc (v : V) : replay (enc v) = ⟨toks (norm v), false⟩ := by
  have h : ¬ ((enc v).length = 0) := by simpa using enc_ne_nil v
  rw [replay, if_neg h]
  exact (replays_enc v).out

end Sval.Buf
