import Verif.Core.Received
import Verif.Fmt.Cost
import Verif.Json.Chars

set_option autoImplicit false

/-!
# Which characters `sval_fmt` writes

Printable ASCII, characters of text that `char::escape_debug` leaves as they are, labels, and text that is tagged as a number.
-/

namespace Sval.Fmt

open Json (hard printable hard_lit)

/-- What holds of a state afterwards, unless there is a panic. -/
def After {σ : Type} (J : σ → Prop) : Res Unit σ → Prop
  | .ok s => J s
  | .err _ s => J s
  | .panic => True

theorem After.bind {σ : Type} {J : σ → Prop} {r : Res Unit σ} {f : σ → Res Unit σ} (h : After J r) (hf : ∀ s, J s → After J (f s)) :
    After J (r.bind f) := by
  cases r with
  | ok s => exact hf s h
  | err e s => exact h
  | panic => trivial

/-- The text of a call that is printed as it is: the label. -/
def label : Token → Text
  | .enumEnd m | .taggedBegin m | .tag m | .recordBegin m _ | .tupleBegin m _ | .recordTupleBegin m _ => (m.label.map (·.text)).getD []
  | .recordValueBegin _ l | .recordTupleValueBegin _ l _ => l.text
  | _ => []

/-- The text of a call that is escaped, unless it is that of a number. -/
def fragment : Token → Text
  | .textFragment t | .textFragmentComputed t => t
  | _ => []

/-- Is this the start of something tagged as a number? -/
def isNumber : Token → Bool
  | .taggedBegin m => m.tag = some tags.NUMBER
  | _ => false

/-- A call that has good characters: as they are in labels, escaped or, if there may be numbers, as they are in text. -/
structure TokenOk (env : Env) (P : Char → Prop) (raw : Bool) (t : Token) : Prop where
  label : hard P (label t)
  soft : ∀ c ∈ fragment t, escapeDebug env c = [c] → P c
  hard : raw = true → hard P (fragment t)
  number : raw = false → isNumber t = false

theorem TokenOk.plain {env : Env} {P : Char → Prop} {raw : Bool} {t : Token} (h1 : Fmt.label t = []) (h2 : fragment t = [])
    (h3 : isNumber t = false) : TokenOk env P raw t :=
  ⟨by rw [h1]; exact fun _ h => (by cases h), by rw [h2]; exact fun _ h => (by cases h),
    by rw [h2]; exact fun _ _ h => (by cases h), fun _ => h3⟩

theorem hexDigit_printable (n : Nat) (h : n < 16) : printable (hexDigit n) = true := by
  have : ∀ n < 16, printable (hexDigit n) = true := by decide +kernel
  exact this n h

theorem natHex_printable (n : Nat) : (natHex n).all printable = true := by
  induction n using Nat.strongRecOn with
  | _ n ih =>
    rw [natHex]
    split
    · rename_i h
      simp [hexDigit_printable n h]
    · rename_i h
      rw [List.all_append, ih (n / 16) (by omega)]
      simp [hexDigit_printable (n % 16) (by omega)]

theorem escapeUnicode_printable (c : Char) : (escapeUnicode c).all printable = true := by
  have h1 : ∀ d ∈ ['\\', 'u', '{', '}'], printable d = true := by decide +kernel
  simp only [escapeUnicode, List.all_cons, List.all_append, List.all_nil, natHex_printable, Bool.and_true,
    h1 '\\' (by simp), h1 'u' (by simp), h1 '{' (by simp), h1 '}' (by simp)]

/-- A character is escaped by printable ASCII, or left as it is. -/
theorem escapeDebug_cases (env : Env) (c : Char) : (escapeDebug env c).all printable = true ∧ 1 < (escapeDebug env c).length ∨
    escapeDebug env c = [c] ∧ env.printable c = true ∧ env.extended c = false := by
  have two : ∀ d : Char, printable d = true → (['\\', d] : Text).all printable = true ∧ 1 < (['\\', d] : Text).length := by
    intro d hd
    have : printable '\\' = true := by decide
    simp [hd, this]
  have uni : (escapeUnicode c).all printable = true ∧ 1 < (escapeUnicode c).length :=
    ⟨escapeUnicode_printable c, by simp [escapeUnicode]⟩
  rw [escapeDebug]
  split
  · exact .inl (two _ (by decide))
  · split
    · exact .inl (two _ (by decide))
    · split
      · exact .inl (two _ (by decide))
      · split
        · exact .inl (two _ (by decide))
        · split
          · rename_i h
            rcases h with rfl | rfl | rfl <;> exact .inl (two _ (by decide))
          · split
            · exact .inl uni
            · rename_i he
              split
              · rename_i hp
                exact .inr ⟨rfl, hp, by simpa using he⟩
              · exact .inl uni

section
variable {ω : Type} {J : ω → Prop} {P : Char → Prop} {raw : Bool} {w : Writer ω}
variable (hP : ∀ c, printable c = true → P c) (hw : ∀ k t o, J o → hard P t → After J (w k t o))

/-- Good characters so far, and no number unless there may be. -/
def Fine (J : ω → Prop) (raw : Bool) (s : St ω) : Prop := J s.out ∧ (raw = false → s.number = false)

omit hP hw in
theorem put_fine {f : ω → Res Unit ω} {s : St ω} (hs : Fine J raw s) (hf : After J (f s.out)) : After (Fine J raw) (put f s) := by
  rw [put]
  cases e : f s.out with
  | ok o => rw [e] at hf; exact ⟨hf, hs.2⟩
  | err x o => rw [e] at hf; exact ⟨hf, hs.2⟩
  | panic => trivial

include hw

theorem writeChars_fine {cs : Text} (h : hard P cs) (o : ω) (ho : J o) : After J (writeChars w cs o) := by
  induction cs generalizing o with
  | nil => exact ho
  | cons c cs ih =>
    rw [writeChars]
    refine (hw _ [c] o ho fun d hd => ?_).bind fun o ho => ih (fun d hd => h d (by simp [hd])) o ho
    rw [List.mem_singleton] at hd
    exact hd ▸ h c (by simp)

theorem flush_fine {p : Text} (h : hard P p) (o : ω) (ho : J o) : After J (flush w p o) := by
  rw [flush]
  split
  · exact ho
  · exact hw _ p o ho h

include hP

theorem escapeLoop_fine (env : Env) {t p : Text} (hp : hard P p) (ht : ∀ c ∈ t, escapeDebug env c = [c] → P c) (o : ω) (ho : J o) :
    After J (escapeLoop w env p t o) := by
  induction t generalizing p o with
  | nil => exact flush_fine hw hp o ho
  | cons c t ih =>
    have htl : ∀ d ∈ t, escapeDebug env d = [d] → P d := fun d hd => ht d (by simp [hd])
    rw [escapeLoop]
    rcases escapeDebug_cases env c with ⟨h1, h2⟩ | ⟨h1, _, _⟩
    · rw [if_pos h2]
      exact (flush_fine hw hp o ho).bind fun o ho => (writeChars_fine hw (hard_lit hP h1) o ho).bind fun o ho =>
        ih (fun _ hd => by cases hd) htl o ho
    · rw [if_neg (by rw [h1]; simp)]
      refine ih (hp.append fun d hd => ?_) htl o ho
      rw [List.mem_singleton] at hd
      exact hd ▸ ht c (by simp) h1

theorem lit_fine (k : Kind) {t : Text} (h : t.all printable = true) (o : ω) (ho : J o) : After J (w k t o) := hw k t o ho (hard_lit hP h)

theorem comma_fine (b : Bool) (o : ω) (ho : J o) : After J (if b then .ok o else w .punct (t! ",") o) := by
  cases b
  · exact lit_fine hP hw _ rfl o ho
  · exact ho

theorem writeSeqValueBegin_fine (b : Bool) (o : ω) (ho : J o) : After J (writeSeqValueBegin w b o) := by
  cases b
  · exact (lit_fine hP hw _ rfl o ho).bind fun o ho => lit_fine hP hw _ rfl o ho
  · exact ho

theorem writeMapEnd_fine (b : Bool) (o : ω) (ho : J o) : After J (writeMapEnd w b o) := by
  cases b
  · exact (lit_fine hP hw _ rfl o ho).bind fun o ho => lit_fine hP hw _ rfl o ho
  · exact lit_fine hP hw _ rfl o ho

theorem binaryBytes_fine (b : Bytes) (s : St ω) (hs : Fine J raw s) : After (Fine J raw) (binaryBytes w b s) := by
  induction b generalizing s with
  | nil => exact hs
  | cons x b ih =>
    rw [binaryBytes]
    exact (put_fine hs (writeSeqValueBegin_fine hP hw _ _ hs.1)).bind fun s hs =>
      (put_fine hs (lit_fine hP hw _ (Json.intDec_printable _) _ hs.1)).bind fun s hs => ih _ hs

theorem tag_fine {m : Meta} (h : hard P ((m.label.map (·.text)).getD [])) (s : St ω) (hs : Fine J raw s) :
    After (Fine J raw) (tag w m s) := by
  have hs' : Fine J raw { s with empty := false } := hs
  simp only [tag]
  split
  · rename_i l hl
    rw [hl] at h
    exact put_fine hs' (hw _ _ _ hs.1 h)
  · exact put_fine hs' (lit_fine hP hw _ rfl _ hs.1)

theorem step_fine {env : Env} (h32 : ∀ b, hard P (env.f32 b)) (h64 : ∀ b, hard P (env.f64 b)) {t : Token}
    (ht : TokenOk env P raw t) (s : St ω) (hs : Fine J raw s) : After (Fine J raw) (step w env t s) := by
  have lit : ∀ (k : Kind) (t : Text), t.all printable = true → ∀ o, J o → After J (w k t o) := fun k t h o ho => lit_fine hP hw k h o ho
  have reset : ∀ e, Fine J raw { s with number := false, empty := e } := fun e => ⟨hs.1, fun _ => rfl⟩
  have lab := ht.label
  cases t with
  | null => exact put_fine hs (lit _ _ rfl _ hs.1)
  | bool b => cases b <;> exact put_fine hs (lit _ _ rfl _ hs.1)
  | int t v => exact put_fine hs (lit _ _ (Json.intDec_printable v) _ hs.1)
  | f32 b => exact put_fine hs (hw _ _ _ hs.1 (h32 b))
  | f64 b => exact put_fine hs (hw _ _ _ hs.1 (h64 b))
  | textBegin n =>
    simp only [step]
    split
    · exact hs
    · exact put_fine hs (lit _ _ rfl _ hs.1)
  | textFragmentComputed t =>
    simp only [step]
    split
    · rename_i hn
      refine put_fine hs (hw _ _ _ hs.1 (ht.hard ?_))
      cases hr : raw with
      | true => rfl
      | false => rw [hs.2 hr] at hn; cases hn
    · exact put_fine hs (escapeLoop_fine hP hw env (fun _ h => by cases h) ht.soft _ hs.1)
  | textEnd =>
    simp only [step]
    split
    · exact hs
    · exact put_fine hs (lit _ _ rfl _ hs.1)
  | binaryBegin n => exact put_fine (reset _) (lit _ _ rfl _ hs.1)
  | binaryFragmentComputed b => exact binaryBytes_fine hP hw b s hs
  | binaryEnd => exact put_fine hs (lit _ _ rfl _ hs.1)
  | mapBegin n => exact put_fine (reset _) (lit _ _ rfl _ hs.1)
  | mapKeyBegin => exact put_fine hs ((comma_fine hP hw _ _ hs.1).bind fun o ho => lit _ _ rfl o ho)
  | mapKeyEnd => exact put_fine hs ((lit _ _ rfl _ hs.1).bind fun o ho => lit _ _ rfl o ho)
  | mapValueBegin => exact hs
  | mapValueEnd => exact hs
  | mapEnd => exact put_fine hs (writeMapEnd_fine hP hw _ _ hs.1)
  | seqBegin n => exact put_fine (reset _) (lit _ _ rfl _ hs.1)
  | seqValueBegin => exact put_fine hs (writeSeqValueBegin_fine hP hw _ _ hs.1)
  | seqValueEnd => exact hs
  | seqEnd => exact put_fine hs (lit _ _ rfl _ hs.1)
  | enumBegin m => exact hs
  | enumEnd m =>
    simp only [step]
    split
    · exact tag_fine hP hw lab s hs
    · exact hs
  | taggedBegin m =>
    have hs' : Fine J raw { s with empty := false, number := s.number || decide (m.tag = some tags.NUMBER) } := by
      refine ⟨hs.1, fun hr => ?_⟩
      have := ht.number hr
      simp only [isNumber] at this
      simp only [hs.2 hr, this, Bool.or_false]
    simp only [step]
    cases hl : m.label with
    | some l =>
      simp only [Fmt.label, hl, Option.map, Option.getD] at lab
      exact put_fine hs' ((hw _ _ _ hs.1 lab).bind fun o ho => lit _ _ rfl o ho)
    | none => exact hs'
  | taggedEnd m =>
    have hs' : Fine J raw { s with number := s.number && !decide (m.tag = some tags.NUMBER) } := by
      refine ⟨hs.1, fun hr => ?_⟩
      simp only [hs.2 hr, Bool.false_and]
    simp only [step]
    split
    · exact put_fine hs' (lit _ _ rfl _ hs.1)
    · exact hs'
  | tag m => exact tag_fine hP hw lab s hs
  | recordBegin m n =>
    simp only [step]
    refine put_fine (reset _) (After.bind ?_ fun o ho => lit _ _ rfl o ho)
    cases hl : m.label with
    | some l =>
      simp only [Fmt.label, hl, Option.map, Option.getD] at lab
      exact (hw _ _ _ hs.1 lab).bind fun o ho => lit _ _ rfl o ho
    | none => exact hs.1
  | recordValueBegin t l =>
    exact put_fine hs ((comma_fine hP hw _ _ hs.1).bind fun o ho => (lit _ _ rfl o ho).bind fun o ho => (hw _ _ o ho lab).bind fun o ho =>
      (lit _ _ rfl o ho).bind fun o ho => lit _ _ rfl o ho)
  | recordValueEnd t l => exact hs
  | recordEnd m => exact put_fine hs (writeMapEnd_fine hP hw _ _ hs.1)
  | tupleBegin m n =>
    simp only [step]
    refine put_fine (reset _) (After.bind ?_ fun o ho => lit _ _ rfl o ho)
    cases hl : m.label with
    | some l =>
      simp only [Fmt.label, hl, Option.map, Option.getD] at lab
      exact hw _ _ _ hs.1 lab
    | none => exact hs.1
  | tupleValueBegin t i => exact put_fine hs (writeSeqValueBegin_fine hP hw _ _ hs.1)
  | tupleValueEnd t i => exact hs
  | tupleEnd m => exact put_fine hs (lit _ _ rfl _ hs.1)
  | _ => trivial

theorem call_fine {env : Env} (h32 : ∀ b, hard P (env.f32 b)) (h64 : ∀ b, hard P (env.f64 b)) {t : Token}
    (ht : TokenOk env P raw t) (s : St ω) (hs : Fine J raw s) : After (Fine J raw) (call w env t s) := by
  have single : ∀ t', TokenOk env P raw t' → After (Fine J raw) (run (step w env) [t'] s) := by
    intro t' ht
    rw [run_cons]
    exact (step_fine hP hw h32 h64 ht s hs).bind fun s hs => hs
  rw [call]
  cases t with
  | int ty v => cases ty <;> exact single _ (.plain rfl rfl rfl)
  | tagHint t => exact hs
  | textFragment t => exact single _ ⟨ht.1, ht.2, ht.3, ht.4⟩
  | binaryFragment t => exact single _ (.plain rfl rfl rfl)
  | recordTupleBegin m n => exact single _ ⟨ht.1, ht.2, ht.3, ht.4⟩
  | recordTupleEnd m => exact single _ ⟨ht.1, ht.2, ht.3, ht.4⟩
  | recordTupleValueBegin m l i => exact single _ ⟨ht.1, ht.2, ht.3, ht.4⟩
  | recordTupleValueEnd m l i => exact single _ ⟨ht.1, ht.2, ht.3, ht.4⟩
  | _ => exact single _ ht

/-- Any code and any writer: what is written has good characters only if the calls received have. -/
theorem toWrite_fine {env : Env} (h32 : ∀ b, hard P (env.f32 b)) (h64 : ∀ b, hard P (env.f64 b)) (p : Prog) {o o' : ω} {ok : Bool}
    (ho : J o) (h : ∀ t ∈ received (guarded (call w env)) p .base (St.new o, false), TokenOk env P raw t)
    (hr : toWrite w env p o = .done ok o') : J o' := by
  have key : Fine J raw (exec (guarded (call w env)) p .base (St.new o, false)).1.1 := by
    rw [exec_received]
    generalize received (guarded (call w env)) p .base (St.new o, false) = ts at h
    suffices ∀ (ts : List Token) (x : St ω × Bool), (∀ t ∈ ts, TokenOk env P raw t) → Fine J raw x.1 →
        Fine J raw (ts.foldl (fun s t => (guarded (call w env) t s).1) x).1 from this ts _ h ⟨ho, fun _ => rfl⟩
    intro ts
    induction ts with
    | nil => intro x _ hx; exact hx
    | cons t ts ih =>
      intro x ht hx
      rw [List.foldl_cons]
      refine ih _ (fun u hu => ht u (by simp [hu])) ?_
      have := call_fine hP hw h32 h64 (ht t (by simp)) x.1 hx
      simp only [guarded]
      split
      · exact hx
      · cases e : call w env t x.1 with
        | ok s' => rw [e] at this; exact this
        | err y s' => rw [e] at this; exact this
        | panic => exact hx
  simp only [toWrite, drive] at hr
  split at hr
  · rename_i h2
    split at h2
    · cases h2
    · cases h2
      cases hr
      exact key.1
  · cases hr

end
end Sval.Fmt
