import Verif.Fmt.Spec

set_option autoImplicit false

/-!
# What the writer writes

Every run is a fixed list of writes, the same whatever the writer does until one of them fails.
-/

namespace Sval.Fmt

/-- Make some writes, until one fails. -/
def puts {ω : Type} (w : Writer ω) : List (Kind × Text) → ω → Res Unit ω
  | [], o => .ok o
  | (k, t) :: r, o => (w k t o).bind fun o => puts w r o

/-- The characters of some writes. -/
def chars (L : List (Kind × Text)) : Out := L.flatMap fun x => lay x.1 x.2

theorem puts_append {ω : Type} (w : Writer ω) (a b : List (Kind × Text)) (o : ω) :
    puts w (a ++ b) o = (puts w a o).bind fun o => puts w b o := by
  induction a generalizing o with
  | nil => rfl
  | cons x a ih => obtain ⟨k, t⟩ := x; simp only [List.cons_append, puts, ih, Res.bind_assoc]

theorem puts_one {ω : Type} (w : Writer ω) (k : Kind) (t : Text) (o : ω) : puts w [(k, t)] o = w k t o := by
  simp only [puts]
  cases w k t o <;> rfl

theorem chars_append (a b : List (Kind × Text)) : chars (a ++ b) = chars a ++ chars b := by simp [chars]
theorem chars_cons (k : Kind) (t : Text) (L : List (Kind × Text)) : chars ((k, t) :: L) = lay k t ++ chars L := rfl
theorem chars_one (k : Kind) (t : Text) : chars [(k, t)] = lay k t := by simp [chars]
theorem lay_append (k : Kind) (a b : Text) : lay k (a ++ b) = lay k a ++ lay k b := by simp [lay]
theorem lay_cons (k : Kind) (c : Char) (b : Text) : lay k (c :: b) = (k, c) :: lay k b := rfl

/-- The run `r` did the writes `q`, and left the flags as `e` and `n`. -/
def Agrees {ω : Type} (e n : Bool) : Res Unit (St ω) → Res Unit ω → Prop
  | .ok s, .ok o => s = ⟨e, n, o⟩
  | .err _ s, .err _ o => s.out = o
  | .panic, .panic => True
  | _, _ => False

theorem Agrees.bind {ω : Type} {e n e' n' : Bool} {r : Res Unit (St ω)} {q : Res Unit ω} (h : Agrees e n r q)
    {f : St ω → Res Unit (St ω)} {g : ω → Res Unit ω} (hf : ∀ o, Agrees e' n' (f ⟨e, n, o⟩) (g o)) :
    Agrees e' n' (r.bind f) (q.bind g) := by
  cases r <;> cases q <;> simp only [Agrees] at h
  · subst h; exact hf _
  · exact h
  · trivial

theorem agrees_put {ω : Type} (e n : Bool) (f : ω → Res Unit ω) (o : ω) : Agrees e n (put f ⟨e, n, o⟩) (f o) := by
  simp only [put]
  cases f o <;> simp [Agrees]

theorem agrees_ok {ω : Type} (e n : Bool) (o : ω) : Agrees e n (.ok ⟨e, n, o⟩) (.ok o) := rfl

/-- From the flags `e`, `n` the calls write `X` and leave the flags `e'`, `n'`. -/
def Does (env : Env) (ts : List Token) (e n : Bool) (X : Out) (e' n' : Bool) : Prop :=
  ∃ L, chars L = X ∧ ∀ (ω : Type) (w : Writer ω) (o : ω), Agrees e' n' (run (call w env) ts ⟨e, n, o⟩) (puts w L o)

variable {env : Env}

theorem Does.nil (e n : Bool) : Does env [] e n [] e n := ⟨[], rfl, fun _ _ _ => rfl⟩

theorem Does.append {a b : List Token} {e n e1 n1 e2 n2 : Bool} {X Y : Out} (h : Does env a e n X e1 n1)
    (h' : Does env b e1 n1 Y e2 n2) : Does env (a ++ b) e n (X ++ Y) e2 n2 := by
  obtain ⟨L, h1, h2⟩ := h
  obtain ⟨M, g1, g2⟩ := h'
  refine ⟨L ++ M, by rw [chars_append, h1, g1], fun ω w o => ?_⟩
  rw [run_append, puts_append]
  exact (h2 ω w o).bind fun o => g2 ω w o

theorem Does.cons {t : Token} {b : List Token} {e n e1 n1 e2 n2 : Bool} {X Y : Out} (h : Does env [t] e n X e1 n1)
    (h' : Does env b e1 n1 Y e2 n2) : Does env (t :: b) e n (X ++ Y) e2 n2 := h.append h'

/-- A single call of an implemented method. -/
theorem does_one (t : Token) (u : Token) (hu : Low.tok fmtCaps t = [u]) {e n e' n' : Bool} {X : Out} (L : List (Kind × Text))
    (hL : chars L = X)
    (h : ∀ (ω : Type) (w : Writer ω) (o : ω), Agrees e' n' (step w env u ⟨e, n, o⟩) (puts w L o)) :
    Does env [t] e n X e' n' := by
  refine ⟨L, hL, fun ω w o => ?_⟩
  have := h ω w o
  simp only [run_cons, call, hu]
  cases hs : step w env u ⟨e, n, o⟩ with
  | ok s => rw [hs] at this; exact this
  | err e s => rw [hs] at this; exact this
  | panic => rw [hs] at this; exact this

/-- A single call that makes a single write. -/
theorem does_write (t u : Token) (hu : Low.tok fmtCaps t = [u]) {e n : Bool} (k : Kind) (x : Text)
    (h : ∀ (ω : Type) (w : Writer ω) (o : ω), step w env u ⟨e, n, o⟩ = put (w k x) ⟨e, n, o⟩) :
    Does env [t] e n (lay k x) e n := by
  refine does_one t u hu [(k, x)] (chars_one k x) fun ω w o => ?_
  rw [h, puts_one]
  exact agrees_put e n (w k x) o

/-- A single call that changes flags and makes a single write. -/
theorem does_flags (t u : Token) (hu : Low.tok fmtCaps t = [u]) {e n e' n' : Bool} (k : Kind) (x : Text)
    (h : ∀ (ω : Type) (w : Writer ω) (o : ω), step w env u ⟨e, n, o⟩ = put (w k x) ⟨e', n', o⟩) :
    Does env [t] e n (lay k x) e' n' := by
  refine does_one t u hu [(k, x)] (chars_one k x) fun ω w o => ?_
  rw [h, puts_one]
  exact agrees_put e' n' (w k x) o

/-- A single call that writes nothing. -/
theorem does_quiet (t u : Token) (hu : Low.tok fmtCaps t = [u]) {e n e' n' : Bool}
    (h : ∀ (ω : Type) (w : Writer ω) (o : ω), step w env u ⟨e, n, o⟩ = .ok ⟨e', n', o⟩) :
    Does env [t] e n [] e' n' := by
  refine does_one t u hu [] rfl fun ω w o => ?_
  rw [h]
  rfl

/-! ## Text -/

/-- The writes `write_text` makes. -/
def pieces (env : Env) : Text → Text → List (Kind × Text)
  | p, [] => if p = [] then [] else [(.text, p)]
  | p, c :: cs =>
    if (escapeDebug env c).length > 1 then
      (if p = [] then [] else [(.text, p)]) ++ ((escapeDebug env c).map fun c => (.text, [c])) ++ pieces env [] cs
    else pieces env (p ++ [c]) cs

theorem flush_puts {ω : Type} (w : Writer ω) (p : Text) (o : ω) :
    flush w p o = puts w (if p = [] then [] else [(.text, p)]) o := by
  unfold flush
  split
  · rfl
  · rw [puts_one]

theorem writeChars_puts {ω : Type} (w : Writer ω) (cs : List Char) (o : ω) :
    writeChars w cs o = puts w (cs.map fun c => (.text, [c])) o := by
  induction cs generalizing o with
  | nil => rfl
  | cons c cs ih => simp only [writeChars, List.map_cons, puts, ih]

theorem escapeLoop_puts {ω : Type} (w : Writer ω) (p t : Text) (o : ω) :
    escapeLoop w env p t o = puts w (pieces env p t) o := by
  induction t generalizing p o with
  | nil => simp only [escapeLoop, pieces, flush_puts]
  | cons c cs ih =>
    unfold escapeLoop pieces
    split
    · simp only [puts_append, flush_puts, writeChars_puts, Res.bind_assoc, ih]
    · exact ih _ _

theorem chars_flush (p : Text) : chars (if p = [] then [] else [(.text, p)]) = lay .text p := by
  split
  · rename_i h; subst h; rfl
  · exact chars_one _ _

theorem chars_singles (t : Text) : chars (t.map fun c => (.text, [c])) = lay .text t := by
  induction t with
  | nil => rfl
  | cons c t ih =>
    rw [List.map_cons, show ∀ (a : Kind × Text) b, a :: b = [a] ++ b from fun _ _ => rfl, chars_append, ih, chars_one]
    rfl

theorem escapeDebug_short (c : Char) (h : ¬ (escapeDebug env c).length > 1) : escapeDebug env c = [c] := by
  unfold escapeDebug at h ⊢
  split at h
  · simp at h
  · rename_i h1
    split at h
    · simp at h
    · rename_i h2
      split at h
      · simp at h
      · rename_i h3
        split at h
        · simp at h
        · rename_i h4
          split at h
          · simp at h
          · rename_i h5
            split at h
            · simp [escapeUnicode] at h
            · rename_i h6
              split at h
              · rename_i h7; simp [h1, h2, h3, h4, h5, h6, h7]
              · simp [escapeUnicode] at h

theorem chars_pieces (p t : Text) : chars (pieces env p t) = lay .text (p ++ escape env t) := by
  induction t generalizing p with
  | nil => simp only [pieces, chars_flush, escape, List.flatMap_nil, List.append_nil]
  | cons c cs ih =>
    unfold pieces
    split
    · simp only [chars_append, chars_flush, chars_singles, ih, escape, List.flatMap_cons, lay_append, List.nil_append,
        List.append_assoc]
    · rename_i h
      simp only [ih, escape, List.flatMap_cons, escapeDebug_short c h, List.append_assoc]

theorem does_fragment (f : Frag Text) (e n : Bool) :
    Does env [textFragTok f] e n (if n then lay .number f.content else lay .text (escape env f.content)) e n := by
  have hu : Low.tok fmtCaps (textFragTok f) = [.textFragmentComputed f.content] := by cases f <;> rfl
  cases n with
  | true => exact does_write _ _ hu .number f.content fun ω w o => rfl
  | false =>
    refine does_one _ _ hu (pieces env [] f.content) (chars_pieces [] _) fun ω w o => ?_
    rw [← escapeLoop_puts]
    exact agrees_put e false (writeText w env f.content) o

theorem does_fragments (fs : List (Frag Text)) (e n : Bool) :
    Does env (fs.map textFragTok) e n (if n then lay .number (fragsText fs) else lay .text (escape env (fragsText fs))) e n := by
  induction fs with
  | nil => cases n <;> exact Does.nil e _
  | cons f fs ih =>
    have := (does_fragment (env := env) f e n).cons ih
    cases n <;> simpa [fragsText, escape, lay_append] using this

theorem does_text (h : Option Nat) (fs : List (Frag Text)) (again : Meta → V → Out) (e n : Bool) :
    Does env (toks (.text h fs)) e n (layout env again n (.text h fs)) e n := by
  cases n with
  | true =>
    have := ((does_quiet (env := env) (.textBegin h) _ rfl (e := e) (n := true) fun ω w o => rfl).cons
      (does_fragments fs e true)).append (does_quiet .textEnd _ rfl fun ω w o => rfl)
    simpa [layout, toks] using this
  | false =>
    have := ((does_write (env := env) (.textBegin h) _ rfl (e := e) (n := false) .text (t! "\"") fun ω w o => rfl).cons
      (does_fragments fs e false)).append (does_write .textEnd _ rfl .text (t! "\"") fun ω w o => rfl)
    simpa [layout, toks, lay, ← List.append_assoc] using this

/-! ## Separators -/

/-- What precedes an item of `brackets` and `parens`. -/
def sep (first : Bool) : Out := if first then [] else lay .punct (t! ",") ++ lay .ws (t! " ")

/-- Items as they are written, each with what precedes it. -/
def items (first : Bool) : List Out → Out
  | [] => []
  | x :: r => sep first ++ x ++ items false r

theorem items_false (xs : List Out) : items false xs = match xs with | [] => [] | x :: r => sep false ++ commas (x :: r) := by
  induction xs with
  | nil => rfl
  | cons x r ih =>
    cases r with
    | nil => simp [items, commas]
    | cons y r => simp only [items, commas] at ih ⊢; rw [ih]; simp [sep, List.append_assoc]

theorem items_true (xs : List Out) : items true xs = commas xs := by
  cases xs with
  | nil => rfl
  | cons x r =>
    simp only [items, items_false, sep, if_true, List.nil_append]
    cases r with
    | nil => simp [commas]
    | cons y r => simp [commas, List.append_assoc]

/-- What precedes an entry of `braces`. -/
def sepB (first : Bool) : Out := (if first then [] else lay .punct (t! ",")) ++ lay .ws (t! " ")

def itemsB (first : Bool) : List Out → Out
  | [] => []
  | x :: r => sepB first ++ x ++ itemsB false r

theorem itemsB_false (xs : List Out) : itemsB false xs = items false xs := by
  induction xs with
  | nil => rfl
  | cons x r ih => simp only [itemsB, items, ih]; rfl

/-- The end of `braces`. -/
def closeB (empty : Bool) : Out := (if empty then [] else lay .ws (t! " ")) ++ lay .punct (t! "}")

theorem braces_eq (xs : List Out) : braces xs = lay .punct (t! "{") ++ (itemsB true xs ++ closeB xs.isEmpty) := by
  cases xs with
  | nil => rfl
  | cons x r =>
    have : itemsB true (x :: r) = lay .ws (t! " ") ++ commas (x :: r) := by
      rw [← items_true]
      simp [itemsB, items, itemsB_false, sepB, sep]
    simp [braces, this, closeB, List.append_assoc]

theorem does_seqSep (t u : Token) (hu : Low.tok fmtCaps t = [u]) {e n : Bool}
    (h : ∀ (ω : Type) (w : Writer ω) (o : ω), step w env u ⟨e, n, o⟩ = put (writeSeqValueBegin w e) ⟨e, n, o⟩) :
    Does env [t] e n (sep e) e n := by
  refine does_one t u hu (if e then [] else [(.punct, t! ","), (.ws, t! " ")]) (by cases e <;> rfl) fun ω w o => ?_
  rw [h]
  have : puts w (if e then [] else [(.punct, t! ","), (.ws, t! " ")]) o = writeSeqValueBegin w e o := by
    cases e with
    | true => rfl
    | false => simp only [Bool.false_eq_true, if_false, puts, writeSeqValueBegin]; congr 1; funext o; cases w .ws (t! " ") o <;> rfl
  rw [this]
  exact agrees_put e n _ o

theorem does_mapSep {e n : Bool} : Does env [.mapKeyBegin] e n (sepB e) e n := by
  refine does_one _ _ rfl (if e then [(.ws, t! " ")] else [(.punct, t! ","), (.ws, t! " ")]) (by cases e <;> rfl) fun ω w o => ?_
  have : puts w (if e then [(.ws, t! " ")] else [(.punct, t! ","), (.ws, t! " ")]) o = writeMapKeyBegin w e o := by
    cases e with
    | true => simp only [if_true, writeMapKeyBegin, puts_one]; rfl
    | false => simp only [Bool.false_eq_true, if_false, puts, writeMapKeyBegin]; congr 1; funext o; cases w .ws (t! " ") o <;> rfl
  rw [this]
  exact agrees_put e n _ o

theorem does_close (t u : Token) (hu : Low.tok fmtCaps t = [u]) {e n : Bool}
    (h : ∀ (ω : Type) (w : Writer ω) (o : ω), step w env u ⟨e, n, o⟩ = put (writeMapEnd w e) ⟨e, n, o⟩) :
    Does env [t] e n (closeB e) e n := by
  refine does_one _ _ hu (if e then [(.punct, t! "}")] else [(.ws, t! " "), (.punct, t! "}")]) (by cases e <;> rfl) fun ω w o => ?_
  have : puts w (if e then [(.punct, t! "}")] else [(.ws, t! " "), (.punct, t! "}")]) o = writeMapEnd w e o := by
    cases e with
    | true => simp only [if_true, writeMapEnd, puts_one]; rfl
    | false => simp only [Bool.false_eq_true, if_false, puts, writeMapEnd]; congr 1; funext o; cases w .punct (t! "}") o <;> rfl
  rw [this, h]
  exact agrees_put e n _ o

theorem does_colon {e n : Bool} : Does env [.mapKeyEnd] e n (lay .punct (t! ":") ++ lay .ws (t! " ")) e n := by
  refine does_one _ _ rfl [(.punct, t! ":"), (.ws, t! " ")] rfl fun ω w o => ?_
  have : puts w [(.punct, t! ":"), (.ws, t! " ")] o = writeMapValueBegin w o := by
    simp only [puts, writeMapValueBegin]; congr 1; funext o; cases w .ws (t! " ") o <;> rfl
  rw [this]
  exact agrees_put e n _ o

theorem does_field (t : Token) (tg : Option Tag) (l : Label) (hu : Low.tok fmtCaps t = [.recordValueBegin tg l]) {e n : Bool} :
    Does env [t] e n (sepB e ++ (lay .ident l.text ++ lay .punct (t! ":") ++ lay .ws (t! " "))) e n := by
  refine does_one _ _ hu ((if e then [(.ws, t! " ")] else [(.punct, t! ","), (.ws, t! " ")]) ++
    [(.ident, l.text), (.punct, t! ":"), (.ws, t! " ")]) (by cases e <;> simp [chars, sepB]) fun ω w o => ?_
  have h3 : ∀ o, (w .ws (t! " ") o).bind (fun o => .ok o) = w .ws (t! " ") o := fun o => by cases w .ws (t! " ") o <;> rfl
  have : puts w ((if e then [(.ws, t! " ")] else [(.punct, t! ","), (.ws, t! " ")]) ++
    [(.ident, l.text), (.punct, t! ":"), (.ws, t! " ")]) o = writeRecordValueBegin w l.text e o := by
    cases e with
    | true => simp only [if_true, puts, writeRecordValueBegin, List.cons_append, List.nil_append, h3]; rfl
    | false => simp only [Bool.false_eq_true, if_false, puts, writeRecordValueBegin, List.cons_append, List.nil_append, h3]
  rw [this]
  exact agrees_put e n _ o

/-! ## Bytes -/

theorem does_bytes (e : Bool) (b : Bytes) (t : Token) (hu : Low.tok fmtCaps t = [.binaryFragmentComputed b]) :
    Does env [t] e false (items e (b.map fun b => lay .number (intDec b.toNat))) (e && b.isEmpty) false := by
  suffices h : ∃ L, chars L = items e (b.map fun b => lay .number (intDec b.toNat)) ∧
      ∀ (ω : Type) (w : Writer ω) (o : ω), Agrees (e && b.isEmpty) false (binaryBytes w b ⟨e, false, o⟩) (puts w L o) by
    obtain ⟨L, h1, h2⟩ := h
    exact does_one _ _ hu L h1 h2
  clear hu
  induction b generalizing e with
  | nil => exact ⟨[], rfl, fun ω w o => by simp only [List.isEmpty_nil, Bool.and_true]; rfl⟩
  | cons b bs ih =>
    obtain ⟨L, h1, h2⟩ := ih false
    refine ⟨(if e then [] else [(.punct, t! ","), (.ws, t! " ")]) ++ ((.number, intDec b.toNat) :: L), ?_, fun ω w o => ?_⟩
    · rw [chars_append, chars_cons, h1]
      cases e <;> simp [items, sep, chars]
    · have : puts w (if e then [] else [(.punct, t! ","), (.ws, t! " ")]) o = writeSeqValueBegin w e o := by
        cases e with
        | true => rfl
        | false => simp only [Bool.false_eq_true, if_false, puts, writeSeqValueBegin]; congr 1; funext o; cases w .ws (t! " ") o <;> rfl
      rw [puts_append, this]
      simp only [binaryBytes, puts, List.isEmpty_cons, Bool.and_false]
      refine (agrees_put e false _ o).bind fun o => (agrees_put e false _ o).bind fun o => ?_
      simpa using h2 ω w o

theorem items_append (e : Bool) (a b : List Out) : items e (a ++ b) = items e a ++ items (e && a.isEmpty) b := by
  induction a generalizing e with
  | nil => simp [items]
  | cons x a ih => simp [items, ih, List.append_assoc]

theorem does_binFragments (fs : List (Frag Bytes)) (e : Bool) :
    Does env (fs.map binFragTok) e false (items e ((fragsBytes fs).map fun b => lay .number (intDec b.toNat)))
      (e && (fragsBytes fs).isEmpty) false := by
  induction fs generalizing e with
  | nil => simpa [fragsBytes, items] using Does.nil e false
  | cons f fs ih =>
    have := (does_bytes (env := env) e f.content (binFragTok f) (by cases f <;> rfl)).cons (ih (e && f.content.isEmpty))
    have he : (fragsBytes (f :: fs)).isEmpty = (f.content.isEmpty && (fragsBytes fs).isEmpty) := by
      simp only [fragsBytes, List.map_cons, List.flatten_cons]
      cases f.content <;> rfl
    rw [he, ← Bool.and_assoc]
    have hm : (fragsBytes (f :: fs)).map (fun b => lay .number (intDec b.toNat)) =
      (f.content.map fun b => lay .number (intDec b.toNat)) ++ ((fragsBytes fs).map fun b => lay .number (intDec b.toNat)) := by
      simp [fragsBytes]
    rw [hm, items_append]
    simpa using this

/-! ## Values -/

/-- Is `is_number` still set after the value? -/
def numAfter (n : Bool) : V → Bool
  | .null | .bool _ | .int _ _ | .f32 _ | .f64 _ | .text _ _ | .tag _ => n
  | .binary _ _ | .seq _ _ | .map _ _ | .record _ _ _ | .tuple _ _ _ | .recordTuple _ _ _ => false
  | .tagged m v => numAfter (n || decide (m.tag = some tags.NUMBER)) v && !decide (m.tag = some tags.NUMBER)
  | .enum _ v => numAfter n v
  | .hint _ v => numAfter n v

theorem numAfter_false (v : V) : numAfter false v = false := by
  induction v using V.ind with
  | tagged m v ih =>
    simp only [numAfter, Bool.false_or]
    by_cases h : m.tag = some tags.NUMBER
    · simp [h]
    · simp [h, ih]
  | enum m v ih => exact ih
  | hint t v ih => exact ih
  | _ => rfl

theorem does_tag (t : Token) (m : Meta) (hu : Low.tok fmtCaps t = [.tag m]) (e n : Bool) : Does env [t] e n (name m) false n := by
  unfold name
  cases hm : m.label with
  | some l => exact does_flags t _ hu .ident l.text fun ω w o => by simp only [step, tag, hm]
  | none => exact does_flags t _ hu .atom (t! "()") fun ω w o => by simp only [step, tag, hm]

theorem does_recordBegin (t : Token) (m : Meta) (k : Option Nat) (hu : Low.tok fmtCaps t = [.recordBegin m k]) (e n : Bool) :
    Does env [t] e n (match m.label with
      | some l => lay .ident l.text ++ lay .ws (t! " ") ++ lay .punct (t! "{")
      | none => lay .punct (t! "{")) true false := by
  cases hm : m.label with
  | some l =>
    refine does_one t _ hu [(.ident, l.text), (.ws, t! " "), (.punct, t! "{")] (by simp [chars]) fun ω w o => ?_
    simp only [step, hm]
    have : puts w [(.ident, l.text), (.ws, t! " "), (.punct, t! "{")] o =
        (writeRecordType w l.text o).bind fun o => w .punct (t! "{") o := by
      simp only [puts, writeRecordType, Res.bind_assoc]
      congr 1; funext o; congr 1; funext o; cases w .punct (t! "{") o <;> rfl
    rw [this]
    exact agrees_put true false _ o
  | none =>
    exact does_flags t _ hu .punct (t! "{") fun ω w o => by simp only [step, hm]; rfl

theorem does_tupleBegin (m : Meta) (k : Option Nat) (e n : Bool) :
    Does env [.tupleBegin m k] e n (labelled m (lay .punct (t! "("))) true false := by
  unfold labelled
  cases hm : m.label with
  | some l =>
    refine does_one _ _ rfl [(.ident, l.text), (.punct, t! "(")] (by simp [chars]) fun ω w o => ?_
    simp only [step, hm, writeTupleType]
    have : puts w [(.ident, l.text), (.punct, t! "(")] o = (w .ident l.text o).bind fun o => w .punct (t! "(") o := by
      simp only [puts]; congr 1; funext o; cases w .punct (t! "(") o <;> rfl
    rw [this]
    exact agrees_put true false _ o
  | none =>
    exact does_flags _ _ rfl .punct (t! "(") fun ω w o => by simp only [step, hm, writeTupleType]; rfl

theorem does_value (v : V) (e n : Bool) :
    Does env (toks v) e n (layout env twice n v) (hollow e v) (numAfter n v) := by
  induction v using V.ind generalizing e n with
  | null => exact does_write _ _ rfl .atom _ fun ω w o => rfl
  | bool b => exact does_write _ _ rfl .atom _ fun ω w o => rfl
  | int t v => exact does_write _ (.int t v) (by cases t <;> rfl) .number _ fun ω w o => rfl
  | f32 b => exact does_write _ _ rfl .number _ fun ω w o => rfl
  | f64 b => exact does_write _ _ rfl .number _ fun ω w o => rfl
  | text h fs => exact does_text h fs twice e n
  | binary h fs =>
    have := ((does_flags (env := env) (.binaryBegin h) _ rfl (e := e) (n := n) .punct (t! "[") fun ω w o => rfl).cons
      (does_binFragments fs true)).append (does_write .binaryEnd _ rfl .punct (t! "]") fun ω w o => rfl)
    simpa [layout, toks, brackets, items_true, hollow, numAfter, List.append_assoc] using this
  | seq h xs ih =>
    have body : ∀ e, Does env (toksSeq xs) e false (items e (layoutSeq env twice xs)) (e && xs.isEmpty) false := by
      clear e n
      induction xs with
      | nil => intro e; simpa [toksSeq, layoutSeq, items] using Does.nil e false
      | cons x xs ih' =>
        intro e
        have hx := ih x (by simp) e false
        rw [numAfter_false] at hx
        have := (does_seqSep (env := env) .seqValueBegin _ rfl (e := e) (n := false) fun ω w o => rfl).cons
          (hx.append ((does_quiet (env := env) .seqValueEnd _ rfl (n := false) (e' := false) (n' := false) fun ω w o => rfl).cons
            (ih' (fun y hy => ih y (by simp [hy])) false)))
        simpa [toksSeq, layoutSeq, items, List.append_assoc] using this
    have := ((does_flags (env := env) (.seqBegin h) _ rfl (e := e) (n := n) .punct (t! "[") fun ω w o => rfl).cons
      (body true)).append (does_write .seqEnd _ rfl .punct (t! "]") fun ω w o => rfl)
    simpa [layout, toks, brackets, items_true, hollow, numAfter, List.append_assoc] using this
  | map h kvs ih =>
    have body : ∀ e, Does env (toksMap kvs) e false (itemsB e (layoutMap env twice kvs)) (e && kvs.isEmpty) false := by
      clear e n
      induction kvs with
      | nil => intro e; simpa [toksMap, layoutMap, itemsB] using Does.nil e false
      | cons kv r ih' =>
        intro e
        obtain ⟨k, v⟩ := kv
        have hk := (ih (k, v) (by simp)).1 e false
        have hv := (ih (k, v) (by simp)).2 (hollow e k) false
        simp only [numAfter_false] at hk hv
        have := (does_mapSep (env := env) (e := e) (n := false)).cons (hk.append (does_colon.cons
          ((does_quiet .mapValueBegin _ rfl fun ω w o => rfl).cons (hv.append
            ((does_quiet (env := env) .mapValueEnd _ rfl (n := false) (e' := false) (n' := false) fun ω w o => rfl).cons
            (ih' (fun y hy => ih y (by simp [hy])) false))))))
        simpa [toksMap, layoutMap, itemsB, entry, List.append_assoc] using this
    have he : (layoutMap env twice kvs).isEmpty = kvs.isEmpty := by cases kvs <;> rfl
    have := ((does_flags (env := env) (.mapBegin h) _ rfl (e := e) (n := n) .punct (t! "{") fun ω w o => rfl).cons
      (body true)).append (does_close .mapEnd _ rfl fun ω w o => rfl)
    simpa [layout, toks, braces_eq, he, hollow, numAfter, List.append_assoc] using this
  | tag m => exact does_tag _ m rfl e n
  | tagged m v ih =>
    have hv := ih false (n || decide (m.tag = some tags.NUMBER))
    cases hm : m.label with
    | some l =>
      have h1 : Does env [.taggedBegin m] e n (lay .ident l.text ++ lay .punct (t! "(")) false (n || decide (m.tag = some tags.NUMBER)) := by
        refine does_one _ _ rfl [(.ident, l.text), (.punct, t! "(")] (by simp [chars]) fun ω w o => ?_
        simp only [step, hm]
        have : puts w [(.ident, l.text), (.punct, t! "(")] o = (w .ident l.text o).bind fun o => w .punct (t! "(") o := by
          simp only [puts]; congr 1; funext o; cases w .punct (t! "(") o <;> rfl
        rw [this]
        exact agrees_put false (n || decide (m.tag = some tags.NUMBER)) _ o
      have h2 : ∀ e n, Does env [.taggedEnd m] e n (lay .punct (t! ")")) e (n && !decide (m.tag = some tags.NUMBER)) := fun e n =>
        does_flags _ _ rfl .punct _ fun ω w o => by simp only [step, hm]
      have := (h1.cons hv).append (h2 _ _)
      simpa [layout, toks, hm, parens, commas, hollow, numAfter, List.append_assoc] using this
    | none =>
      have h1 : Does env [.taggedBegin m] e n [] false (n || decide (m.tag = some tags.NUMBER)) :=
        does_quiet _ _ rfl fun ω w o => by simp only [step, hm]
      have h2 : ∀ e n, Does env [.taggedEnd m] e n [] e (n && !decide (m.tag = some tags.NUMBER)) := fun e n =>
        does_quiet _ _ rfl fun ω w o => by simp only [step, hm]
      have := (h1.cons hv).append (h2 _ _)
      simpa [layout, toks, hm, hollow, numAfter] using this
  | enum m v ih =>
    have hv := ih true n
    have h2 : ∀ e n, Does env [.enumEnd m] e n (if e then name m else []) false n := by
      intro e n
      cases e with
      | true =>
        obtain ⟨L, g1, g2⟩ := does_tag (env := env) (.tag m) m rfl true n
        refine does_one _ _ rfl L g1 fun ω w o => ?_
        have := g2 ω w o
        simp only [run_cons, call, show Low.tok fmtCaps (.tag m) = [.tag m] from rfl] at this
        simp only [step] at this ⊢
        simp only [if_true]
        cases ht : tag w m ⟨true, n, o⟩ <;> rw [ht] at this <;> exact this
      | false => exact does_quiet _ _ rfl fun ω w o => rfl
    have := ((does_quiet (env := env) (.enumBegin m) _ rfl (e := e) (n := n) fun ω w o => rfl).cons hv).append (h2 _ _)
    simpa [layout, toks, twice, hollow, numAfter] using this
  | record m h fs ih =>
    have body : ∀ e, Does env (toksRec fs) e false (itemsB e (layoutRec env twice fs)) (e && fs.isEmpty) false := by
      clear e n
      induction fs with
      | nil => intro e; simpa [toksRec, layoutRec, itemsB] using Does.nil e false
      | cons f r ih' =>
        intro e
        obtain ⟨t, l, v⟩ := f
        have hv := ih (t, l, v) (by simp) e false
        simp only [numAfter_false] at hv
        have := (does_field (env := env) (.recordValueBegin t l) t l rfl (e := e) (n := false)).cons (hv.append
            ((does_quiet (env := env) (.recordValueEnd t l) _ rfl (n := false) (e' := false) (n' := false) fun ω w o => rfl).cons
            (ih' (fun y hy => ih y (by simp [hy])) false)))
        simpa [toksRec, layoutRec, itemsB, entry, List.append_assoc] using this
    have he : (layoutRec env twice fs).isEmpty = fs.isEmpty := by cases fs <;> rfl
    have := ((does_recordBegin (env := env) (.recordBegin m h) m h rfl e n).cons
      (body true)).append (does_close (.recordEnd m) _ rfl fun ω w o => rfl)
    cases hm : m.label <;>
      simpa [layout, toks, recordOut, hm, braces_eq, he, hollow, numAfter, List.append_assoc] using this
  | tuple m h fs ih =>
    have body : ∀ e, Does env (toksTup fs) e false (items e (layoutTup env twice fs)) (e && fs.isEmpty) false := by
      clear e n
      induction fs with
      | nil => intro e; simpa [toksTup, layoutTup, items] using Does.nil e false
      | cons f r ih' =>
        intro e
        obtain ⟨t, i, v⟩ := f
        have hv := ih (t, i, v) (by simp) e false
        simp only [numAfter_false] at hv
        have := (does_seqSep (env := env) (.tupleValueBegin t i) _ rfl (e := e) (n := false) fun ω w o => rfl).cons (hv.append
            ((does_quiet (env := env) (.tupleValueEnd t i) _ rfl (n := false) (e' := false) (n' := false) fun ω w o => rfl).cons
            (ih' (fun y hy => ih y (by simp [hy])) false)))
        simpa [toksTup, layoutTup, items, List.append_assoc] using this
    have := ((does_tupleBegin (env := env) m h e n).cons
      (body true)).append (does_write (.tupleEnd m) _ rfl .punct (t! ")") fun ω w o => rfl)
    cases hm : m.label <;>
      simpa [layout, toks, labelled, parens, hm, items_true, hollow, numAfter, List.append_assoc] using this
  | recordTuple m h fs ih =>
    have body : ∀ e, Does env (toksRT fs) e false (itemsB e (layoutRT env twice fs)) (e && fs.isEmpty) false := by
      clear e n
      induction fs with
      | nil => intro e; simpa [toksRT, layoutRT, itemsB] using Does.nil e false
      | cons f r ih' =>
        intro e
        obtain ⟨t, l, i, v⟩ := f
        have hv := ih (t, l, i, v) (by simp) e false
        simp only [numAfter_false] at hv
        have := (does_field (env := env) (.recordTupleValueBegin t l i) t l rfl (e := e) (n := false)).cons (hv.append
            ((does_quiet (env := env) (.recordTupleValueEnd t l i) (.recordValueEnd t l) rfl (n := false) (e' := false) (n' := false) fun ω w o => rfl).cons
            (ih' (fun y hy => ih y (by simp [hy])) false)))
        simpa [toksRT, layoutRT, itemsB, entry, List.append_assoc] using this
    have he : (layoutRT env twice fs).isEmpty = fs.isEmpty := by cases fs <;> rfl
    have := ((does_recordBegin (env := env) (.recordTupleBegin m h) m h rfl e n).cons
      (body true)).append (does_close (.recordTupleEnd m) (.recordEnd m) rfl fun ω w o => rfl)
    cases hm : m.label <;>
      simpa [layout, toks, recordOut, hm, braces_eq, he, hollow, numAfter, List.append_assoc] using this
  | hint t v ih =>
    obtain ⟨L, h1, h2⟩ := ih e n
    refine ⟨L, by simpa [layout] using h1, fun ω w o => ?_⟩
    simpa [toks, call, Low.tok, Low.tagHint, fmtCaps, hollow, numAfter] using h2 ω w o

end Sval.Fmt
