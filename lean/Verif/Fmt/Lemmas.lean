import Verif.Fmt.Run
import Verif.Core.Merge
import Verif.Core.LowerDen

set_option autoImplicit false

/-!
# Fragmentation, escaping and failures of writers
-/

namespace Sval.Fmt

variable {env : Env}

/-! ## Fragmentation -/

theorem hollow_merge (v : V) (e : Bool) : hollow e (merge v) = hollow e v := by
  induction v using V.ind generalizing e with
  | binary n fs => simp [merge, hollow, fragsBytes, Frag.content]
  | seq n xs ih => simp only [merge, hollow]; cases xs <;> rfl
  | map n xs ih => simp only [merge, hollow]; cases xs <;> rfl
  | record m n xs ih => simp only [merge, hollow]; cases xs <;> rfl
  | tuple m n xs ih => simp only [merge, hollow]; cases xs <;> rfl
  | recordTuple m n xs ih => simp only [merge, hollow]; cases xs <;> rfl
  | tagged m v ih => exact ih false
  | hint t v ih => exact ih e
  | _ => rfl

theorem layout_merge (v : V) (n : Bool) : layout env twice n (merge v) = layout env twice n v := by
  induction v using V.ind generalizing n with
  | text h fs => simp [merge, layout, fragsText, Frag.content]
  | binary h fs => simp [merge, layout, fragsBytes, Frag.content]
  | seq m xs ih =>
    simp only [merge, layout]; congr 1
    induction xs with
    | nil => rfl
    | cons x xs ih' => simp only [mergeSeq, layoutSeq, ih x (by simp), ih' (fun y hy => ih y (by simp [hy]))]
  | map m kvs ih =>
    simp only [merge, layout]; congr 1
    induction kvs with
    | nil => rfl
    | cons kv r ih' =>
      obtain ⟨k, v⟩ := kv
      simp only [mergeMap, layoutMap, (ih (k, v) (by simp)).1, (ih (k, v) (by simp)).2, ih' (fun y hy => ih y (by simp [hy]))]
  | record m n fs ih =>
    simp only [merge, layout]; congr 1
    induction fs with
    | nil => rfl
    | cons f r ih' =>
      obtain ⟨t, l, v⟩ := f
      simp only [mergeRec, layoutRec, ih (t, l, v) (by simp), ih' (fun y hy => ih y (by simp [hy]))]
  | tuple m n fs ih =>
    simp only [merge, layout]; congr 2
    induction fs with
    | nil => rfl
    | cons f r ih' =>
      obtain ⟨t, l, v⟩ := f
      simp only [mergeTup, layoutTup, ih (t, l, v) (by simp), ih' (fun y hy => ih y (by simp [hy]))]
  | recordTuple m n fs ih =>
    simp only [merge, layout]; congr 1
    induction fs with
    | nil => rfl
    | cons f r ih' =>
      obtain ⟨t, l, i, v⟩ := f
      simp only [mergeRT, layoutRT, ih (t, l, i, v) (by simp), ih' (fun y hy => ih y (by simp [hy]))]
  | tagged m v ih => simp only [merge, layout, ih]
  | enum m v ih => simp only [merge, layout, ih, twice, hollow_merge]
  | hint t v ih => simp only [merge, layout, ih]
  | _ => rfl

/-! ## Reading escaped text back -/

/-- The value of a lower case hexadecimal digit. -/
def hexVal (c : Char) : Option Nat :=
  if '0'.toNat ≤ c.toNat ∧ c.toNat ≤ '9'.toNat then some (c.toNat - '0'.toNat)
  else if 'a'.toNat ≤ c.toNat ∧ c.toNat ≤ 'f'.toNat then some (c.toNat - 'a'.toNat + 10)
  else none

/-- Where a reader of a string literal is. -/
inductive Mode where
  | plain
  | slash
  | brace
  | hex (n : Nat)

/-- Put a character in front of what was read. -/
def push (c : Char) : Option (Text × Text) → Option (Text × Text)
  | some (t, r) => some (c :: t, r)
  | none => none

/-- Read a Rust string literal after its opening quote: the text it stands for, and what follows the closing
quote. -/
def readLit : Mode → Text → Option (Text × Text)
  | _, [] => none
  | .plain, c :: r =>
    if c = '"' then some ([], r) else if c = '\\' then readLit .slash r else push c (readLit .plain r)
  | .slash, c :: r =>
    if c = '0' then push '\x00' (readLit .plain r)
    else if c = 't' then push '\t' (readLit .plain r)
    else if c = 'r' then push '\r' (readLit .plain r)
    else if c = 'n' then push '\n' (readLit .plain r)
    else if c = '\\' ∨ c = '"' ∨ c = '\'' then push c (readLit .plain r)
    else if c = 'u' then readLit .brace r
    else none
  | .brace, c :: r => if c = '{' then readLit (.hex 0) r else none
  | .hex n, c :: r =>
    if c = '}' then push (Char.ofNat n) (readLit .plain r)
    else match hexVal c with
      | some d => readLit (.hex (n * 16 + d)) r
      | none => none

theorem hexVal_digit (i : Nat) (h : i < 16) : hexVal (hexDigit i) = some i ∧ hexDigit i ≠ '}' := by
  revert i; decide

theorem readHex (m n : Nat) (r : Text) : readLit (.hex m) (natHex n ++ '}' :: r) =
    push (Char.ofNat (m * 16 ^ (natHex n).length + n)) (readLit .plain r) := by
  have one : ∀ m i r, i < 16 → readLit (.hex m) (hexDigit i :: r) = readLit (.hex (m * 16 + i)) r := by
    intro m i r h
    simp only [readLit, (hexVal_digit i h).1, (hexVal_digit i h).2, if_false]
  induction n using natHex.induct generalizing m r with
  | case1 n h =>
    rw [natHex, if_pos h]
    rw [List.cons_append, one m n _ h]
    simp [readLit]
  | case2 n h ih =>
    rw [natHex, if_neg h]
    rw [List.append_assoc]
    have key : ∀ (k : Nat) (m : Nat) (r : Text) (c : Char) (i : Nat), i < 16 → c = hexDigit i →
        readLit (.hex m) (natHex k ++ c :: r) = readLit (.hex ((m * 16 ^ (natHex k).length + k) * 16 + i)) r := by
      intro k
      induction k using natHex.induct with
      | case1 k hk =>
        intro m r c i hi hc
        rw [natHex, if_pos hk, List.cons_append, one m k _ hk, List.nil_append, hc, one _ i r hi]
        simp
      | case2 k hk ihk =>
        intro m r c i hi hc
        rw [natHex, if_neg hk, List.append_assoc, List.cons_append, List.nil_append,
          ihk m (c :: r) (hexDigit (k % 16)) (k % 16) (by omega) rfl, hc, one _ i r hi]
        congr 2
        rw [List.length_append, List.length_singleton, Nat.pow_succ]
        have : m * (16 ^ (natHex (k / 16)).length * 16) = m * 16 ^ (natHex (k / 16)).length * 16 := by rw [Nat.mul_assoc]
        omega
    rw [List.cons_append, List.nil_append, key (n / 16) m ('}' :: r) _ (n % 16) (by omega) rfl]
    simp only [readLit, if_true]
    congr 2
    rw [List.length_append, List.length_singleton, Nat.pow_succ]
    have : m * (16 ^ (natHex (n / 16)).length * 16) = m * 16 ^ (natHex (n / 16)).length * 16 := by rw [Nat.mul_assoc]
    omega

theorem readLit_char (c : Char) (r : Text) : readLit .plain (escapeDebug env c ++ r) = push c (readLit .plain r) := by
  have uni : readLit .plain (escapeUnicode c ++ r) = push c (readLit .plain r) := by
    simp only [escapeUnicode, List.cons_append, List.append_assoc, List.nil_append]
    have : readLit .plain ('\\' :: 'u' :: '{' :: (natHex c.toNat ++ '}' :: r)) =
      readLit (.hex 0) (natHex c.toNat ++ '}' :: r) := by simp [readLit]
    rw [this, readHex]
    simp [Char.ofNat_toNat]
  unfold escapeDebug
  split
  · rename_i h; subst h; rfl
  · split
    · rename_i h; subst h; rfl
    · split
      · rename_i h; subst h; rfl
      · split
        · rename_i h; subst h; rfl
        · split
          · rename_i h
            rcases h with h | h | h <;> subst h <;> rfl
          · rename_i h
            simp only [not_or] at h
            split
            · exact uni
            · split
              · simp [readLit, h.1, h.2.1]
              · exact uni

theorem readLit_escape (t r : Text) : readLit .plain (escape env t ++ '"' :: r) = some (t, r) := by
  induction t with
  | nil => simp [escape, readLit]
  | cons c t ih =>
    have : escape env (c :: t) = escapeDebug env c ++ escape env t := rfl
    rw [this, List.append_assoc, readLit_char, ih]
    rfl

/-! ## What a call keeps -/

section
variable {ω : Type} {w : Writer ω}

/-- What holds of the output after success, given that it held before. -/
def Keeps (P : ω → Prop) (f : ω → Res Unit ω) : Prop := ∀ o, P o → ∀ o', f o = .ok o' → P o'

variable {P : ω → Prop}

theorem Keeps.bind {f g : ω → Res Unit ω} (hf : Keeps P f) (hg : Keeps P g) : Keeps P fun o => (f o).bind g := by
  intro o h o' ho
  cases hfo : f o with
  | ok o1 => simp only [hfo, Res.bind_ok] at ho; exact hg o1 (hf o h o1 hfo) o' ho
  | err e o1 => simp [hfo] at ho
  | panic => simp [hfo] at ho

theorem Keeps.ok : Keeps P fun o => .ok o := fun o h o' ho => by cases ho; exact h

theorem Keeps.ite {b : Prop} [Decidable b] {f g : ω → Res Unit ω} (hf : Keeps P f) (hg : Keeps P g) :
    Keeps P fun o => if b then f o else g o := by
  split
  · exact hf
  · exact hg

theorem Keeps.puts (hw : ∀ k t, Keeps P (w k t)) (L : List (Kind × Text)) : Keeps P (puts w L) := by
  induction L with
  | nil => exact Keeps.ok
  | cons x L ih => exact (hw x.1 x.2).bind ih

/-- The same of a state. -/
def KeepsS (P : ω → Prop) (r : Res Unit (St ω)) : Prop := ∀ s', r = .ok s' → P s'.out

theorem keepsS_put {f : ω → Res Unit ω} (hf : Keeps P f) (s : St ω) (h : P s.out) : KeepsS P (put f s) := by
  intro s' hs
  simp only [put] at hs
  cases hfo : f s.out with
  | ok o => rw [hfo] at hs; cases hs; exact hf s.out h o hfo
  | err e o => rw [hfo] at hs; cases hs
  | panic => rw [hfo] at hs; cases hs

theorem keepsS_ok (s : St ω) (h : P s.out) : KeepsS P (.ok s) := fun s' hs => by cases hs; exact h

theorem keeps_bytes (hw : ∀ k t, Keeps P (w k t)) (b : Bytes) (s : St ω) (h : P s.out) : KeepsS P (binaryBytes w b s) := by
  induction b generalizing s with
  | nil => exact keepsS_ok s h
  | cons b bs ih =>
    intro s' hs
    simp only [binaryBytes] at hs
    cases h1 : put (writeSeqValueBegin w s.empty) s with
    | err e s1 => simp [h1] at hs
    | panic => simp [h1] at hs
    | ok s1 =>
      simp only [h1, Res.bind_ok] at hs
      have p1 : P s1.out := keepsS_put (f := writeSeqValueBegin w s.empty)
        (Keeps.ite Keeps.ok ((hw _ _).bind (hw _ _))) s h s1 h1
      cases h2 : put (w .number (intDec b.toNat)) s1 with
      | err e s2 => simp [h2] at hs
      | panic => simp [h2] at hs
      | ok s2 =>
        simp only [h2, Res.bind_ok] at hs
        exact ih { s2 with empty := false } (keepsS_put (hw _ _) s1 p1 s2 h2) s' hs

theorem keeps_tag (hw : ∀ k t, Keeps P (w k t)) (m : Meta) (s : St ω) (h : P s.out) : KeepsS P (tag w m s) := by
  simp only [tag]
  split
  · exact keepsS_put (hw _ _) { s with empty := false } h
  · exact keepsS_put (hw _ _) { s with empty := false } h

theorem keeps_text (hw : ∀ k t, Keeps P (w k t)) (t : Text) : Keeps P (writeText w env t) := by
  have : writeText w env t = puts w (pieces env [] t) := by funext o; exact escapeLoop_puts w [] t o
  rw [this]
  exact Keeps.puts hw _

theorem keeps_step (hw : ∀ k t, Keeps P (w k t)) (t : Token) (s : St ω) (h : P s.out) : KeepsS P (step w env t s) := by
  have seq : ∀ b, Keeps P (writeSeqValueBegin w b) := fun b => Keeps.ite Keeps.ok ((hw _ _).bind (hw _ _))
  have first : ∀ b : Bool, Keeps P fun o => if b then Res.ok o else w .punct (t! ",") o := fun b => Keeps.ite Keeps.ok (hw _ _)
  have mend : ∀ b, Keeps P (writeMapEnd w b) := fun b => (Keeps.ite Keeps.ok (hw _ _)).bind (hw _ _)
  cases t with
  | null => exact keepsS_put (hw _ _) s h
  | bool b => exact keepsS_put (hw _ _) s h
  | int t v => exact keepsS_put (hw _ _) s h
  | f32 b => exact keepsS_put (hw _ _) s h
  | f64 b => exact keepsS_put (hw _ _) s h
  | textBegin n => simp only [step]; split; exact keepsS_ok s h; exact keepsS_put (hw _ _) s h
  | textFragmentComputed t => simp only [step]; split; exact keepsS_put (hw _ _) s h; exact keepsS_put (keeps_text hw t) s h
  | textEnd => simp only [step]; split; exact keepsS_ok s h; exact keepsS_put (hw _ _) s h
  | binaryBegin n => exact keepsS_put (hw _ _) { s with number := false, empty := true } h
  | binaryFragmentComputed b => exact keeps_bytes hw b s h
  | binaryEnd => exact keepsS_put (hw _ _) s h
  | mapBegin n => exact keepsS_put (hw _ _) { s with number := false, empty := true } h
  | mapKeyBegin => exact keepsS_put (f := writeMapKeyBegin w s.empty) ((first _).bind (hw _ _)) s h
  | mapKeyEnd => exact keepsS_put (f := writeMapValueBegin w) ((hw _ _).bind (hw _ _)) s h
  | mapValueBegin => exact keepsS_ok s h
  | mapValueEnd => exact keepsS_ok { s with empty := false } h
  | mapEnd => exact keepsS_put (mend _) s h
  | seqBegin n => exact keepsS_put (hw _ _) { s with number := false, empty := true } h
  | seqValueBegin => exact keepsS_put (seq _) s h
  | seqValueEnd => exact keepsS_ok { s with empty := false } h
  | seqEnd => exact keepsS_put (hw _ _) s h
  | enumBegin m => exact keepsS_ok { s with empty := true } h
  | enumEnd m => simp only [step]; split; exact keeps_tag hw m s h; exact keepsS_ok s h
  | taggedBegin m =>
    simp only [step]; split
    · exact keepsS_put ((hw _ _).bind (hw _ _)) ⟨false, s.number || decide (m.tag = some tags.NUMBER), s.out⟩ h
    · exact keepsS_ok ⟨false, s.number || decide (m.tag = some tags.NUMBER), s.out⟩ h
  | taggedEnd m =>
    simp only [step]; split
    · exact keepsS_put (hw _ _) { s with number := s.number && !decide (m.tag = some tags.NUMBER) } h
    · exact keepsS_ok { s with number := s.number && !decide (m.tag = some tags.NUMBER) } h
  | tag m => exact keeps_tag hw m s h
  | recordBegin m n =>
    simp only [step]
    refine keepsS_put (f := fun o => _) (Keeps.bind (f := fun o => match m.label with
        | some l => writeRecordType w l.text o
        | none => .ok o) ?_ (hw _ _)) ⟨true, false, s.out⟩ h
    cases m.label with
    | some l => exact (hw _ _).bind (hw _ _)
    | none => exact Keeps.ok
  | recordValueBegin t l =>
    exact keepsS_put (f := writeRecordValueBegin w l.text s.empty)
      ((first _).bind ((hw _ _).bind ((hw _ _).bind ((hw _ _).bind (hw _ _))))) s h
  | recordValueEnd t l => exact keepsS_ok { s with empty := false } h
  | recordEnd m => exact keepsS_put (mend _) s h
  | tupleBegin m n =>
    simp only [step]
    refine keepsS_put (f := fun o => _) (Keeps.bind (f := writeTupleType w m.label) ?_ (hw _ _)) ⟨true, false, s.out⟩ h
    unfold writeTupleType
    cases m.label with
    | some l => exact hw _ _
    | none => exact Keeps.ok
  | tupleValueBegin t i => exact keepsS_put (seq _) s h
  | tupleValueEnd t i => exact keepsS_ok { s with empty := false } h
  | tupleEnd m => exact keepsS_put (hw _ _) s h
  | _ => intro s' hs; cases hs

theorem keeps_call (hw : ∀ k t, Keeps P (w k t)) (t : Token) (s : St ω) (h : P s.out) : KeepsS P (call w env t s) := by
  unfold call
  generalize Low.tok fmtCaps t = ts
  induction ts generalizing s with
  | nil => exact keepsS_ok s h
  | cons t ts ih =>
    intro s' hs
    rw [run_cons] at hs
    cases h1 : step w env t s with
    | ok s1 => rw [h1] at hs; exact ih s1 (keeps_step hw t s h s1 h1) s' hs
    | err e s1 => rw [h1] at hs; cases hs
    | panic => rw [h1] at hs; cases hs

/-- Code that uses `?` and reports success has seen nothing but success. -/
theorem keeps_exec_of {f : Token → St ω → Res Unit (St ω)} (hf : ∀ t s, P s.out → KeepsS P (f t s)) (p : Prog) (hp : p.Propagates) (W : Wrapper) (s : St ω) (h : P s.out)
    (s' : St ω × Bool) (hs : exec (guarded f) p W (s, false) = (s', true)) : P s'.1.out := by
  suffices H : ∀ (p : Prog), p.Propagates → ∀ W s, P s.out → ∀ r, exec (guarded f) p W (s, false) = r →
      r.2 = true → P r.1.1.out ∧ r.1.2 = false from (H p hp W s h _ hs rfl).1
  intro p hp
  induction p with
  | ret ok => intro W s h r hr _; subst hr; exact ⟨h, rfl⟩
  | call t k ih =>
    intro W s h r hr hb
    obtain ⟨hk, hk'⟩ := hp
    simp only [exec, guarded, Bool.false_eq_true, if_false] at hr
    cases hc : f (W.tok t) s with
    | ok s1 => rw [hc] at hr; exact ih true hk' W s1 (hf _ s h s1 hc) r hr hb
    | err e s1 => rw [hc] at hr; simp only [hk, exec] at hr; subst hr; simp at hb
    | panic => rw [hc] at hr; simp only [hk, exec] at hr; subst hr; simp at hb
  | value v k ihv ih =>
    intro W s h r hr hb
    obtain ⟨hv, hk, hk'⟩ := hp
    simp only [exec] at hr
    have := ihv hv W.valueTarget s h _ rfl
    generalize exec (guarded f) v W.valueTarget (s, false) = q at this hr
    obtain ⟨⟨s1, pn⟩, b⟩ := q
    cases b with
    | true => have := this rfl; simp only at this; rw [this.2] at hr; exact ih true hk' W s1 this.1 r hr hb
    | false => simp only [hk, exec] at hr; subst hr; simp at hb
  | valueComputed v k ihv ih =>
    intro W s h r hr hb
    obtain ⟨hv, hk, hk'⟩ := hp
    simp only [exec] at hr
    have := ihv hv W.computedTarget s h _ rfl
    generalize exec (guarded f) v W.computedTarget (s, false) = q at this hr
    obtain ⟨⟨s1, pn⟩, b⟩ := q
    cases b with
    | true => have := this rfl; simp only at this; rw [this.2] at hr; exact ih true hk' W s1 this.1 r hr hb
    | false => simp only [hk, exec] at hr; subst hr; simp at hb

theorem keeps_exec (hw : ∀ k t, Keeps P (w k t)) (p : Prog) (hp : p.Propagates) (W : Wrapper) (s : St ω) (h : P s.out)
    (s' : St ω × Bool) (hs : exec (guarded (call w env)) p W (s, false) = (s', true)) : P s'.1.out :=
  keeps_exec_of (keeps_call hw) p hp W s h s' hs

end

/-! ## Writing to a string -/

theorem puts_str (L : List (Kind × Text)) (o : Text) : puts strWriter L o = .ok (o ++ (chars L).text) := by
  induction L generalizing o with
  | nil => simp [puts, chars, Out.text]
  | cons x L ih =>
    obtain ⟨k, t⟩ := x
    simp only [puts, strWriter, Res.bind_ok]
    rw [ih]
    simp [chars, Out.text, lay, List.append_assoc, Function.comp_def]

/-- A write that cannot fail. -/
def Sure {ω : Type} (f : ω → Res Unit ω) : Prop := ∀ o, ∃ o', f o = .ok o'

section
variable {ω : Type} {w : Writer ω}

theorem Sure.bind {f g : ω → Res Unit ω} (hf : Sure f) (hg : Sure g) : Sure fun o => (f o).bind g := by
  intro o
  obtain ⟨o1, h1⟩ := hf o
  simp only [h1, Res.bind_ok]
  exact hg o1

theorem Sure.ok : Sure fun o : ω => .ok o := fun o => ⟨o, rfl⟩

theorem Sure.ite {b : Prop} [Decidable b] {f g : ω → Res Unit ω} (hf : Sure f) (hg : Sure g) :
    Sure fun o => if b then f o else g o := by
  split
  · exact hf
  · exact hg

theorem sure_puts (hw : ∀ k t, Sure (w k t)) (L : List (Kind × Text)) : Sure (puts w L) := by
  induction L with
  | nil => exact Sure.ok
  | cons x L ih => exact (hw x.1 x.2).bind ih

theorem sure_put {f : ω → Res Unit ω} (hf : Sure f) (s : St ω) : ∃ s', put f s = .ok s' := by
  obtain ⟨o, h⟩ := hf s.out
  exact ⟨_, by simp only [put, h]; rfl⟩

theorem sure_bytes (hw : ∀ k t, Sure (w k t)) (b : Bytes) (s : St ω) : ∃ s', binaryBytes w b s = .ok s' := by
  induction b generalizing s with
  | nil => exact ⟨s, rfl⟩
  | cons b bs ih =>
    obtain ⟨s1, h1⟩ := sure_put (f := writeSeqValueBegin w s.empty) (Sure.ite Sure.ok ((hw _ _).bind (hw _ _))) s
    obtain ⟨s2, h2⟩ := sure_put (hw .number (intDec b.toNat)) s1
    simp only [binaryBytes, h1, h2, Res.bind_ok]
    exact ih _

theorem sure_tag (hw : ∀ k t, Sure (w k t)) (m : Meta) (s : St ω) : ∃ s', tag w m s = .ok s' := by
  simp only [tag]
  split
  · exact sure_put (hw _ _) _
  · exact sure_put (hw _ _) _

/-- The calls that reach the implemented methods. -/
theorem sure_step (hw : ∀ k t, Sure (w k t)) (t : Token) (hn : fmtCaps.native t = true) (s : St ω) :
    ∃ s', step w env t s = .ok s' := by
  have seq : ∀ b, Sure (writeSeqValueBegin w b) := fun b => Sure.ite Sure.ok ((hw _ _).bind (hw _ _))
  have first : ∀ b : Bool, Sure fun o => if b then Res.ok o else w .punct (t! ",") o := fun b => Sure.ite Sure.ok (hw _ _)
  have mend : ∀ b, Sure (writeMapEnd w b) := fun b => (Sure.ite Sure.ok (hw _ _)).bind (hw _ _)
  have txt : ∀ t, Sure (writeText w env t) := fun t => by
    have : writeText w env t = puts w (pieces env [] t) := by funext o; exact escapeLoop_puts w [] t o
    rw [this]
    exact sure_puts hw _
  cases t with
  | null => exact sure_put (hw _ _) s
  | bool b => exact sure_put (hw _ _) s
  | int t v => exact sure_put (hw _ _) s
  | f32 b => exact sure_put (hw _ _) s
  | f64 b => exact sure_put (hw _ _) s
  | textBegin n => simp only [step]; split; exact ⟨_, rfl⟩; exact sure_put (hw _ _) s
  | textFragmentComputed t => simp only [step]; split; exact sure_put (hw _ _) s; exact sure_put (txt t) s
  | textEnd => simp only [step]; split; exact ⟨_, rfl⟩; exact sure_put (hw _ _) s
  | binaryBegin n => exact sure_put (hw _ _) _
  | binaryFragmentComputed b => exact sure_bytes hw b s
  | binaryEnd => exact sure_put (hw _ _) s
  | mapBegin n => exact sure_put (hw _ _) _
  | mapKeyBegin => exact sure_put (f := writeMapKeyBegin w s.empty) ((first _).bind (hw _ _)) s
  | mapKeyEnd => exact sure_put (f := writeMapValueBegin w) ((hw _ _).bind (hw _ _)) s
  | mapValueBegin => exact ⟨_, rfl⟩
  | mapValueEnd => exact ⟨_, rfl⟩
  | mapEnd => exact sure_put (mend _) s
  | seqBegin n => exact sure_put (hw _ _) _
  | seqValueBegin => exact sure_put (seq _) s
  | seqValueEnd => exact ⟨_, rfl⟩
  | seqEnd => exact sure_put (hw _ _) s
  | enumBegin m => exact ⟨_, rfl⟩
  | enumEnd m => simp only [step]; split; exact sure_tag hw m s; exact ⟨_, rfl⟩
  | taggedBegin m => simp only [step]; split; exact sure_put ((hw _ _).bind (hw _ _)) _; exact ⟨_, rfl⟩
  | taggedEnd m => simp only [step]; split; exact sure_put (hw _ _) _; exact ⟨_, rfl⟩
  | tag m => exact sure_tag hw m s
  | recordBegin m n =>
    simp only [step]
    refine sure_put (f := fun o => _) (Sure.bind (f := fun o => match m.label with
        | some l => writeRecordType w l.text o
        | none => .ok o) ?_ (hw _ _)) _
    cases m.label with
    | some l => exact (hw _ _).bind (hw _ _)
    | none => exact Sure.ok
  | recordValueBegin t l =>
    exact sure_put (f := writeRecordValueBegin w l.text s.empty)
      ((first _).bind ((hw _ _).bind ((hw _ _).bind ((hw _ _).bind (hw _ _))))) s
  | recordValueEnd t l => exact ⟨_, rfl⟩
  | recordEnd m => exact sure_put (mend _) s
  | tupleBegin m n =>
    simp only [step]
    refine sure_put (f := fun o => _) (Sure.bind (f := writeTupleType w m.label) ?_ (hw _ _)) _
    unfold writeTupleType
    cases m.label with
    | some l => exact hw _ _
    | none => exact Sure.ok
  | tupleValueBegin t i => exact sure_put (seq _) s
  | tupleValueEnd t i => exact ⟨_, rfl⟩
  | tupleEnd m => exact sure_put (hw _ _) s
  | _ => cases hn

theorem sure_call (hw : ∀ k t, Sure (w k t)) (t : Token) (s : St ω) : ∃ s', call w env t s = .ok s' := by
  have hn : ∀ u ∈ Low.tok fmtCaps t, fmtCaps.native u = true := by
    have := native_lower fmtCaps [t]
    simpa [lower] using this
  unfold call
  revert hn
  generalize Low.tok fmtCaps t = ts
  intro hn
  induction ts generalizing s with
  | nil => exact ⟨s, rfl⟩
  | cons t ts ih =>
    obtain ⟨s1, h1⟩ := sure_step (env := env) hw t (hn t (by simp)) s
    rw [run_cons, h1]
    exact ih s1 (fun u hu => hn u (by simp [hu]))

end
end Sval.Fmt
