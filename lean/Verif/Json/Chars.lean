import Verif.Core.Received
import Verif.Json.Cost
import Verif.Json.Inv
import Verif.Json.Spec

set_option autoImplicit false

/-!
# Which characters `sval_json` writes

Printable ASCII, characters of text that need no escaping, and, where text is copied, whatever it has.
-/

namespace Sval.Json

/-- Printable ASCII. -/
def printable (c : Char) : Bool := 32 ≤ c.toNat && c.toNat < 127

variable (P : Char → Prop)

/-- All characters of a text. -/
def hard (t : Text) : Prop := ∀ c ∈ t, P c

/-- All characters of a text but those that are escaped. -/
def soft (t : Text) : Prop := ∀ c ∈ t, escapeOf c = 0 → P c

variable {P}

theorem hard.append {a b : Text} (h : hard P a) (h' : hard P b) : hard P (a ++ b) := fun c hc =>
  (List.mem_append.1 hc).elim (h c) (h' c)

theorem hard.soft {t : Text} (h : hard P t) : soft P t := fun c hc _ => h c hc

theorem hard_lit (hP : ∀ c, printable c = true → P c) {t : Text} (h : t.all printable = true) : hard P t := fun c hc =>
  hP c (List.all_eq_true.1 h c hc)

theorem escapePieces_printable (c : Char) (h : escapeOf c ≠ 0) : (escapePieces c).flatten.all printable = true := by
  have hc : c.toNat < 128 := by
    simp only [escapeOf] at h
    split at h
    · assumption
    · exact absurd rfl h
  have : ∀ n < 128, (escapePieces (Char.ofNat n)).flatten.all printable = true := by decide +kernel
  have := this c.toNat hc
  rwa [ofNat_toNat] at this

theorem escape_hard (hP : ∀ c, printable c = true → P c) {t : Text} (h : soft P t) : hard P (escape t) := by
  intro c hc
  rw [escape, List.mem_flatMap] at hc
  obtain ⟨d, hd, hc⟩ := hc
  rw [escapeChar] at hc
  split at hc
  · rename_i he
    rw [List.mem_singleton] at hc
    exact hc ▸ h d hd he
  · rename_i he
    exact hard_lit hP (escapePieces_printable d he) c hc

theorem digits_printable {t : Text} (h : t.all isDigit = true) : t.all printable = true := by
  rw [List.all_eq_true] at h ⊢
  intro c hc
  have := h c hc
  simp only [isDigit, printable, Bool.and_eq_true, decide_eq_true_eq] at this ⊢
  have h1 : 48 ≤ c.toNat := this.1
  have h2 : c.toNat ≤ 57 := this.2
  omega

theorem intDec_printable (v : Int) : (intDec v).all printable = true := by
  have h := digits_printable (natDec_digits v.natAbs)
  rw [intDec]
  split
  · rw [List.all_cons, h]; rfl
  · exact h

variable (P) in
/-- What holds of the formatter: good output, and no handler of text if there are no special tags. -/
def Good (raw : Bool) (s : St Text) : Prop := hard P s.out ∧ (raw = false → s.handler = none)

variable (P) in
/-- A text handled as the handler says. -/
def fragOk (raw : Bool) (t : Text) : Prop := soft P t ∧ (raw = true → hard P t)

variable (P) in
/-- A label that may be written by itself. -/
def metaOk (raw : Bool) (m : Meta) : Prop := ∀ l, m.label = some l → fragOk P raw l.text

variable (P) in
/-- A label of an entry. -/
def nameOk (l : Label) : Prop := soft P l.text ∧ (l.tag = some tags.VALUE_IDENT → hard P l.text)

variable (P) in
/-- The text in a call. -/
def tokenOk (raw : Bool) : Token → Prop
  | .textFragment t | .textFragmentComputed t => fragOk P raw t
  | .taggedBegin m => metaOk P raw m ∧ (raw = false → isSpecialTag m.tag = false)
  | .enumBegin m | .enumEnd m | .taggedEnd m | .tag m | .recordBegin m _ | .recordEnd m | .tupleBegin m _ | .tupleEnd m
  | .recordTupleBegin m _ | .recordTupleEnd m => metaOk P raw m
  | .recordValueBegin _ l | .recordTupleValueBegin _ l _ => nameOk P l
  | _ => True

variable {raw : Bool} (hP : ∀ c, printable c = true → P c)

/-- Such a state is kept. -/
def Stays (P : Char → Prop) (raw : Bool) (f : St Text → Res Unit (St Text)) : Prop := ∀ s, Good P raw s → Out (Good P raw) (f s)

theorem Stays.bind {f g : St Text → Res Unit (St Text)} (hf : Stays P raw f) (hg : Stays P raw g) :
    Stays P raw (fun s => (f s).bind g) := by
  intro s hs
  have h1 := hf s hs
  show Out _ ((f s).bind g)
  cases h : f s with
  | ok s' => rw [h] at h1; exact hg s' h1
  | err e s' => rw [h] at h1; exact h1
  | panic => trivial

theorem Stays.pre {f : St Text → Res Unit (St Text)} {u : St Text → St Text} (hu : ∀ s, Good P raw s → Good P raw (u s))
    (hf : Stays P raw f) : Stays P raw (fun s => f (u s)) := fun s hs => hf (u s) (hu s hs)

theorem Stays.ite {f g : St Text → Res Unit (St Text)} (p : St Text → Prop) [DecidablePred p] (hf : Stays P raw f) (hg : Stays P raw g) :
    Stays P raw (fun s => if p s then f s else g s) := by
  intro s hs
  by_cases h : p s
  · simp only [if_pos h]; exact hf s hs
  · simp only [if_neg h]; exact hg s hs

theorem Stays.upd {u : St Text → St Text} (hu : ∀ s, Good P raw s → Good P raw (u s)) : Stays P raw (fun s => .ok (u s)) :=
  fun s hs => hu s hs

theorem Stays.skip : Stays P raw (fun s => .ok s) := fun _ hs => hs

theorem Stays.write {t : Text} (h : hard P t) : Stays P raw (wr (strWriter t)) := fun _ hs => ⟨hs.1.append h, hs.2⟩

include hP

theorem Stays.lit {t : Text} (h : t.all printable = true) : Stays P raw (wr (strWriter t)) := .write (hard_lit hP h)

theorem Stays.escape {t : Text} (h : soft P t) : Stays P raw (wr (escapeStr strWriter t)) := by
  intro s hs
  simp only [wr, escapeStr_str]
  exact ⟨hs.1.append (escape_hard hP h), hs.2⟩

omit hP in
theorem stays_scalar {t : Text} (h : hard P t) : Stays P raw (scalar strWriter t) :=
  .pre (u := fun s => { s with empty := false }) (fun _ hs => hs) (.write h)

theorem stays_textBegin : Stays P raw (textBegin strWriter) :=
  .ite (fun s : St Text => s.quoted = true) (.pre (u := fun s => { s with empty := false }) (fun _ hs => hs) (.lit hP rfl))
    (.upd fun _ hs => hs)

theorem stays_textEnd : Stays P raw (textEnd strWriter) := .ite (fun s : St Text => s.quoted = true) (.lit hP rfl) .skip

theorem stays_mapBegin : Stays P raw (mapBegin strWriter) :=
  .ite (fun s : St Text => (!s.quoted) = true) (fun _ hs => hs)
    (.pre (u := fun s => { s with empty := true }) (fun _ hs => hs) (.lit hP rfl))

theorem stays_mapKeyBegin : Stays P raw (mapKeyBegin strWriter) :=
  .pre (u := fun s => { s with quoted := false, tagged := false }) (fun _ hs => hs)
    (.ite (fun s : St Text => (!s.empty) = true) (.lit hP rfl) (.lit hP rfl))

theorem stays_mapKeyEnd : Stays P raw (mapKeyEnd strWriter) := .bind (.lit hP rfl) (.upd fun _ hs => hs)

theorem stays_mapEnd : Stays P raw (mapEnd strWriter) := .pre (u := fun s => { s with empty := false }) (fun _ hs => hs) (.lit hP rfl)

theorem stays_seqBegin : Stays P raw (seqBegin strWriter) :=
  .ite (fun s : St Text => (!s.quoted) = true) (fun _ hs => hs)
    (.pre (u := fun s => { s with empty := true }) (fun _ hs => hs) (.lit hP rfl))

theorem stays_seqValueBegin : Stays P raw (seqValueBegin strWriter) :=
  .pre (u := fun s => { s with tagged := false }) (f := fun s => if (!s.empty) = true then wr (strWriter [',']) s else .ok s)
    (fun _ hs => hs) (.ite (fun s : St Text => (!s.empty) = true) (.lit hP rfl) .skip)

theorem stays_seqEnd : Stays P raw (seqEnd strWriter) := .pre (u := fun s => { s with empty := false }) (fun _ hs => hs) (.lit hP rfl)

/-- What the number handler writes. -/
theorem numLoop_hard (v : Text) (r : NumRun Text) (h : hard P r.out) : Out (fun r => hard P r.out) (numLoop strWriter v r) := by
  induction v generalizing r with
  | nil => exact h
  | cons c v ih =>
    have w1 : ∀ (t : Text) (r : NumRun Text), NumRun.write strWriter t r = .ok { r with out := r.out ++ t } := fun _ _ => rfl
    have m1 : hard P (r.out ++ ['-']) := h.append (hard_lit hP rfl)
    rw [numLoop]
    split
    · exact ih _ h
    · split
      · split
        · rw [w1]; exact ih _ m1
        · exact ih _ h
      · split
        · split
          · split
            · simp only [w1, Res.bind]; exact ih _ (m1.append (hard_lit hP rfl))
            · simp only [w1, Res.bind]; exact ih _ (h.append (hard_lit hP rfl))
          · exact ih _ h
        · split
          · exact ih _ h
          · split
            · exact ih _ h
            · split
              · rw [w1]; exact h.append (hard_lit hP rfl)
              · exact ih _ h

theorem numFragment_hard {v : Text} (hv : hard P v) (r : NumSt × Text) (h : hard P r.2) :
    Out (fun r => hard P r.2) (numFragment strWriter v r) := by
  obtain ⟨n, o⟩ := r
  rw [numFragment]
  cases n.nan with
  | true => exact h
  | false =>
    have := numLoop_hard hP v { st := n, out := o } h
    simp only [Bool.false_eq_true, if_false]
    cases e : numLoop strWriter v { st := n, out := o } with
    | panic => trivial
    | err x r => rw [e] at this; exact this
    | ok r =>
      rw [e] at this
      cases e2 : sliceBytes v r.start r.stop with
      | none => simp only [e2]; trivial
      | some t =>
        simp only [e2]
        refine hard.append this fun c hc => hv c ?_
        rw [sliceBytes] at e2
        split at e2
        · cases hd : dropBytes v r.start with
          | none => rw [hd] at e2; cases e2
          | some u =>
            rw [hd] at e2
            obtain ⟨p, rfl, _⟩ := dropBytes_some v _ u hd
            obtain ⟨q, rfl, _⟩ := takeBytes_some u _ t e2
            simp [hc]
        · cases e2

theorem stays_textFragment {v : Text} (h : fragOk P raw v) : Stays P raw (textFragment strWriter v) := by
  intro s hs
  rw [textFragment]
  cases hh : s.handler with
  | none => exact Stays.escape hP h.1 s hs
  | some k =>
    have hr : raw = true := by
      cases raw with
      | true => rfl
      | false => have := hs.2 rfl; rw [hh] at this; cases this
    subst hr
    cases k with
    | native => exact Stays.write (h.2 rfl) s hs
    | number n =>
      have := numFragment_hard hP (h.2 rfl) (n, s.out) hs.1
      simp only
      cases e : numFragment strWriter v (n, s.out) with
      | panic => trivial
      | ok r => rw [e] at this; exact ⟨this, fun e => by cases e⟩
      | err x r => rw [e] at this; exact ⟨this, fun e => by cases e⟩

theorem stays_tagBegin {m : Meta} (h : ∀ l, m.label = some l → soft P l.text) : Stays P raw (tagBegin strWriter m) := by
  have h : Stays P raw (fun s : St Text => match m.label with
      | some l => tagMapBeginLabel strWriter l.text s
      | none =>
        match ixI64 m.index with
        | some i => tagMapBeginIndex strWriter i s
        | none => .ok s) := by
    cases hl : m.label with
    | some l =>
      exact .bind (stays_mapBegin hP) (.bind (stays_mapKeyBegin hP) (.bind (.escape hP (h l hl)) (stays_mapKeyEnd hP)))
    | none =>
      cases ixI64 m.index with
      | some i =>
        exact .bind (stays_mapBegin hP) (.bind (stays_mapKeyBegin hP)
          (.bind (stays_scalar (hard_lit hP (intDec_printable i))) (stays_mapKeyEnd hP)))
      | none => exact .skip
  exact .ite (fun s : St Text => s.tagged = true) (.pre (u := fun s => { s with tagged := false }) (fun _ hs => hs) h) .skip

theorem stays_tagStep {m : Meta} (h : metaOk P raw m) : Stays P raw (tagStep strWriter m) := by
  have hn : Stays P raw (scalar strWriter (t! "null")) := stays_scalar (hard_lit hP rfl)
  have h : Stays P raw (fun s : St Text => match m.label with
      | some l => (textBegin strWriter s).bind fun s => (textFragment strWriter l.text s).bind fun s => textEnd strWriter s
      | none =>
        match ixI64 m.index with
        | some i => scalar strWriter (intDec i) s
        | none => scalar strWriter (t! "null") s) := by
    cases hl : m.label with
    | some l => exact .bind (stays_textBegin hP) (.bind (stays_textFragment hP (h l hl)) (stays_textEnd hP))
    | none =>
      cases ixI64 m.index with
      | some i => exact stays_scalar (hard_lit hP (intDec_printable i))
      | none => exact hn
  exact .pre (u := fun s => { s with tagged := false, empty := false }) (fun _ hs => hs)
    (.ite (fun _ : St Text => m.tag = some tags.RUST_OPTION_NONE) hn h)

theorem stays_taggedBegin {m : Meta} (h : metaOk P raw m) (hs : raw = false → isSpecialTag m.tag = false) :
    Stays P raw (taggedBegin strWriter m) := by
  unfold taggedBegin
  refine .pre (u := fun s : St Text => if m.tag = some tags.JSON_TEXT then { s with handler := some .native }
    else if m.tag = some tags.JSON_VALUE then { s with quoted := false, handler := some .native }
    else if m.tag = some tags.NUMBER then
      { s with quoted := false, handler := if s.handler.isNone then some (.number {}) else s.handler }
    else if m.tag = some tags.JSON_NUMBER then { s with quoted := false, handler := some .native }
    else s) (fun s hg => ?_) (.bind (stays_tagBegin hP fun l hl => (h l hl).1) (.upd (u := fun s => { s with empty := true }) fun _ hs => hs))
  have hx : ∀ t, m.tag = some t → isSpecialTag (some t) = true → raw = true := by
    intro t ht hsp
    cases raw with
    | true => rfl
    | false => rw [ht, hsp] at hs; exact absurd (hs rfl) (by simp)
  show Good P raw (if _ then _ else _)
  split
  · rename_i e; have := hx _ e rfl; subst this; exact ⟨hg.1, fun e => by cases e⟩
  · split
    · rename_i e; have := hx _ e rfl; subst this; exact ⟨hg.1, fun e => by cases e⟩
    · split
      · rename_i e; have := hx _ e rfl; subst this; exact ⟨hg.1, fun e => by cases e⟩
      · split
        · rename_i e; have := hx _ e rfl; subst this; exact ⟨hg.1, fun e => by cases e⟩
        · exact hg

theorem stays_taggedEnd {m : Meta} (h : metaOk P raw m) : Stays P raw (taggedEnd strWriter m) := by
  refine .bind ?_ (.bind (.ite (fun s : St Text => s.empty = true) (stays_tagStep hP h) .skip) (.upd fun _ hs => hs))
  refine .ite (fun _ => m.tag = some tags.JSON_TEXT) (.upd fun _ hs => ⟨hs.1, fun _ => rfl⟩)
    (.ite (fun _ => m.tag = some tags.JSON_VALUE) (.upd fun _ hs => ⟨hs.1, fun _ => rfl⟩)
    (.ite (fun _ => m.tag = some tags.NUMBER) ?_
      (.ite (fun _ => m.tag = some tags.JSON_NUMBER) (.upd fun _ hs => ⟨hs.1, fun _ => rfl⟩) .skip)))
  intro s hs
  show Out (Good P raw) (match s.handler with
     | some (.number n) => wr (numEnd strWriter n) { s with quoted := true, handler := none }
     | _ => .ok { s with quoted := true, handler := none })
  split
  · rename_i n _
    unfold numEnd
    cases n.atStart
    · exact ⟨hs.1, fun _ => rfl⟩
    · exact ⟨hs.1.append (hard_lit hP rfl), fun _ => rfl⟩
  · exact ⟨hs.1, fun _ => rfl⟩

theorem stays_recordValueBegin {l : Label} (h : nameOk P l) : Stays P raw (recordValueBegin strWriter l) := by
  refine .pre (u := fun s => { s with tagged := false }) (fun _ hs => hs)
    (.bind (.ite (fun s : St Text => (!s.empty) = true) (.lit hP rfl) (.lit hP rfl)) (.bind ?_ (.lit hP rfl)))
  by_cases e : l.tag = some tags.VALUE_IDENT
  · simp only [if_pos e]; exact .write (h.2 e)
  · simp only [if_neg e]; exact .escape hP h.1

variable {env : Env} (h32 : ∀ b, f32Finite b = true → hard P (env.f32 b)) (h64 : ∀ b, f64Finite b = true → hard P (env.f64 b))
include h32 h64

theorem stays_step {t : Token} (h : tokenOk P raw t) : Stays P raw (step strWriter env t) := by
  have lit : ∀ {t : Text}, t.all printable = true → Stays P raw (scalar strWriter t) := fun e => stays_scalar (hard_lit hP e)
  have hm : ∀ {m : Meta}, metaOk P raw m → Stays P raw (tagBegin strWriter m) := fun h => stays_tagBegin hP fun l hl => (h l hl).1
  have fail : Stays P raw (fun s => .err () s) := fun _ hs => hs
  cases t with
  | null => exact lit rfl
  | bool b => exact lit (by cases b <;> rfl)
  | int t v => exact lit (intDec_printable v)
  | f32 b =>
    refine stays_scalar ?_
    split
    · exact h32 b ‹_›
    · exact hard_lit hP rfl
  | f64 b =>
    refine stays_scalar ?_
    split
    · exact h64 b ‹_›
    · exact hard_lit hP rfl
  | textBegin n => exact stays_textBegin hP
  | textFragmentComputed v => exact stays_textFragment hP h
  | textEnd => exact stays_textEnd hP
  | mapBegin n => exact stays_mapBegin hP
  | mapKeyBegin => exact stays_mapKeyBegin hP
  | mapKeyEnd => exact stays_mapKeyEnd hP
  | mapEnd => exact stays_mapEnd hP
  | seqBegin n => exact stays_seqBegin hP
  | seqValueBegin | tupleValueBegin _ _ => exact stays_seqValueBegin hP
  | seqEnd => exact stays_seqEnd hP
  | enumBegin m => exact .bind (hm h) (.upd fun _ hs => hs)
  | enumEnd m =>
    exact .bind (.ite (fun s : St Text => s.empty = true) (stays_tagStep hP h) .skip)
      (.ite (fun s : St Text => s.tagged = true) (stays_mapEnd hP) (.upd fun _ hs => hs))
  | taggedBegin m => exact stays_taggedBegin hP h.1 h.2
  | taggedEnd m => exact stays_taggedEnd hP h
  | tag m => exact stays_tagStep hP h
  | recordBegin m n => exact .bind (hm h) (stays_mapBegin hP)
  | recordValueBegin t l => exact stays_recordValueBegin hP h
  | recordEnd m => exact .bind (stays_mapEnd hP) (.upd fun _ hs => hs)
  | tupleBegin m n => exact .bind (hm h) (stays_seqBegin hP)
  | tupleEnd m => exact .bind (stays_seqEnd hP) (.upd fun _ hs => hs)
  | mapValueBegin | mapValueEnd | seqValueEnd | recordValueEnd _ _ | tupleValueEnd _ _ => exact .skip
  | _ => exact fail

theorem stays_call {t : Token} (h : tokenOk P raw t) : Stays P raw (call strWriter env t) := by
  have many : ∀ ts : List Token, (∀ u ∈ ts, tokenOk P raw u) → Stays P raw (run (step strWriter env) ts) := by
    intro ts
    induction ts with
    | nil => intro _; exact .skip
    | cons u ts ih =>
      intro hu
      have := Stays.bind (stays_step hP h32 h64 (hu u (by simp))) (ih fun v hv => hu v (by simp [hv]))
      intro s hs
      rw [run_cons]
      exact this s hs
  refine many _ ?_
  have hb : ∀ b : Bytes, ∀ u ∈ b.flatMap (fun x => [.seqValueBegin, .int .u8 x.toNat, .seqValueEnd]), tokenOk P raw u := by
    intro b u hu
    simp only [List.mem_flatMap, List.mem_cons, List.not_mem_nil, or_false] at hu
    obtain ⟨_, _, rfl | rfl | rfl⟩ := hu <;> exact trivial
  have single : ∀ t', tokenOk P raw t' → ∀ u ∈ [t'], tokenOk P raw u := by
    intro t' ht u hu
    rw [List.mem_singleton] at hu
    exact hu ▸ ht
  cases t with
  | int ty v => cases ty <;> exact single _ h
  | binaryFragment b => exact hb b
  | binaryFragmentComputed b => exact hb b
  | tagHint t => intro u hu; simp [Low.tok, Low.tagHint, jsonCaps] at hu
  | _ => exact single _ h

/-- Any code: what is written has good characters only if the calls received have. -/
theorem toFmt_hard (p : Prog) {o : Text} (ho : hard P o)
    (h : ∀ t ∈ received (stepP strWriter env) p .base ({ out := o }, false), tokenOk P raw t) : hard P (toFmt strWriter env p o).2 := by
  have h2 : (toFmt strWriter env p o).2 = (exec (stepP strWriter env) p .base ({ out := o }, false)).1.1.out := by
    simp only [toFmt]
    split
    · rfl
    · split <;> rfl
  rw [h2, exec_received]
  generalize received (stepP strWriter env) p .base ({ out := o }, false) = ts at h
  suffices ∀ (ts : List Token) (x : St Text × Bool), (∀ t ∈ ts, tokenOk P raw t) → Good P raw x.1 →
      Good P raw (ts.foldl (fun s t => (stepP strWriter env t s).1) x).1 from (this ts _ h ⟨ho, fun _ => rfl⟩).1
  intro ts
  induction ts with
  | nil => intro x _ hx; exact hx
  | cons t ts ih =>
    intro x ht hx
    rw [List.foldl_cons]
    refine ih _ (fun u hu => ht u (by simp [hu])) ?_
    have := stays_call hP h32 h64 (ht t (by simp)) x.1 hx
    simp only [stepP]
    split
    · exact hx
    · cases e : call strWriter env t x.1 with
      | ok s' => rw [e] at this; exact this
      | err y s' => rw [e] at this; exact this
      | panic => exact hx

end Sval.Json
