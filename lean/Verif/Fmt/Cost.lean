import Verif.Core.Carried
import Verif.Fmt.Lemmas
import Verif.Json.Bytes

set_option autoImplicit false

/-!
# How much `sval_fmt` writes

At most six bytes for each byte of data in a call, and five more for the call, whatever the calls.
-/

namespace Sval.Fmt

open Json (utf8Len_cons utf8Len_append)

theorem hexDigit_len (i : Nat) : (hexDigit i).utf8Size = 1 := by
  by_cases h : i < 16
  · have : ∀ i < 16, (hexDigit i).utf8Size = 1 := by decide
    exact this i h
  · have : hexDigit i = 'x' := by
      have hl : (t! "0123456789abcdef")[i]? = none := List.getElem?_eq_none (Nat.le_of_not_lt h)
      rw [hexDigit, List.getD, hl]
      rfl
    rw [this]
    rfl

theorem natHex_len (k n : Nat) (h : n < 16 ^ (k + 1)) : utf8Len (natHex n) ≤ k + 1 := by
  induction k generalizing n with
  | zero =>
    rw [natHex, if_pos (by simpa using h), utf8Len_cons, hexDigit_len]
    exact Nat.le_refl _
  | succ k ih =>
    rw [natHex]
    split
    · rw [utf8Len_cons, hexDigit_len]
      simp [utf8Len]
    · rw [utf8Len_append, utf8Len_cons, hexDigit_len]
      have := ih (n / 16) (by rw [Nat.div_lt_iff_lt_mul (by decide)]; rwa [Nat.pow_succ] at h)
      simp [utf8Len] at *
      omega

theorem escapeUnicode_len (c : Char) : utf8Len (escapeUnicode c) ≤ 6 * c.utf8Size := by
  have e : utf8Len (escapeUnicode c) = 4 + utf8Len (natHex c.toNat) := by
    simp only [escapeUnicode, utf8Len_cons, utf8Len_append]
    simp [utf8Len, Char.utf8Size]
    omega
  have h1 := natHex_len 1 c.toNat
  have h2 := natHex_len 2 c.toNat
  have h3 := natHex_len 3 c.toNat
  have h5 := natHex_len 5 c.toNat
  have hmax : c.toNat < 0x110000 := by
    rcases c.valid with h | h
    · have : c.toNat < 0xd800 := h
      omega
    · exact h.2
  rw [e, Char.utf8Size]
  have hn : c.toNat = c.val.toNat := rfl
  split
  · rename_i h
    have h : c.toNat ≤ 127 := h
    have := h1 (by omega)
    omega
  · split
    · rename_i h
      have h : c.toNat ≤ 0x7ff := h
      have := h2 (by omega)
      omega
    · split
      · rename_i h
        have h : c.toNat ≤ 0xffff := h
        have := h3 (by omega)
        omega
      · have := h5 (by omega)
        omega

theorem escapeDebug_len (env : Env) (c : Char) : utf8Len (escapeDebug env c) ≤ 6 * c.utf8Size := by
  have hp := c.utf8Size_pos
  have two : ∀ d : Char, utf8Len ['\\', d] = 1 + d.utf8Size := fun d => by simp [utf8Len]; rfl
  rw [escapeDebug]
  split
  · rw [two]; exact Nat.le_trans (by decide) (Nat.mul_le_mul_left 6 hp)
  · split
    · rw [two]; exact Nat.le_trans (by decide) (Nat.mul_le_mul_left 6 hp)
    · split
      · rw [two]; exact Nat.le_trans (by decide) (Nat.mul_le_mul_left 6 hp)
      · split
        · rw [two]; exact Nat.le_trans (by decide) (Nat.mul_le_mul_left 6 hp)
        · split
          · rw [two]; omega
          · split
            · exact escapeUnicode_len c
            · split
              · simp [utf8Len]; omega
              · exact escapeUnicode_len c

section
variable {ω : Type} {ν : ω → Nat} {w : Writer ω} (hw : ∀ k t o, Grows ν (utf8Len t) (w k t o) o)

/-- The measure of the output, in states of the writer. -/
def out (ν : ω → Nat) (s : St ω) : Nat := ν s.out

omit hw in
theorem put_grows {n : Nat} {f : ω → Res Unit ω} {s s' : St ω} (hs : s'.out = s.out) (hf : Grows ν n (f s.out) s.out) :
    Grows (out ν) n (put f s') s := by
  rw [put, hs]
  cases e : f s.out with
  | panic => trivial
  | ok o => rw [e] at hf; exact hf
  | err x o => rw [e] at hf; exact hf

omit hw in
theorem keep {n : Nat} {s s' : St ω} (h : s'.out = s.out) : Grows (out ν) n (.ok s' : Res Unit (St ω)) s := by
  show ν s'.out ≤ ν s.out + n
  rw [h]
  exact Nat.le_add_right _ _

omit hw in
theorem same {n : Nat} (o : ω) : Grows ν n (.ok o : Res Unit ω) o := Nat.le_add_right _ _

include hw

theorem writeChars_grows (cs : List Char) (o : ω) : Grows ν (utf8Len cs) (writeChars w cs o) o := by
  induction cs generalizing o with
  | nil => exact same o
  | cons c cs ih =>
    rw [writeChars, utf8Len_cons]
    exact Grows.bind ((hw _ [c] o).mono (by simp [utf8Len])) ih

theorem flush_grows (p : Text) (o : ω) : Grows ν (utf8Len p) (flush w p o) o := by
  rw [flush]
  split
  · exact same o
  · exact hw _ p o

theorem escapeLoop_grows (env : Env) (t p : Text) (o : ω) :
    Grows ν (utf8Len p + 6 * utf8Len t) (escapeLoop w env p t o) o := by
  induction t generalizing p o with
  | nil => exact flush_grows hw p o
  | cons c t ih =>
    rw [escapeLoop, utf8Len_cons]
    have := escapeDebug_len env c
    split
    · refine Grows.mono (n := utf8Len p + (6 * c.utf8Size + (0 + 6 * utf8Len t))) ?_ (by omega)
      exact (flush_grows hw p o).bind fun o => ((writeChars_grows hw _ o).mono this).bind fun o => ih [] o
    · refine (ih (p ++ [c]) o).mono ?_
      have h1 : utf8Len [c] = c.utf8Size := by simp [utf8Len]
      rw [utf8Len_append, h1]
      omega

theorem writeText_grows (env : Env) (t : Text) (o : ω) : Grows ν (6 * utf8Len t) (writeText w env t o) o :=
  (escapeLoop_grows hw env t [] o).mono (by simp [utf8Len])

theorem first_grows (b : Bool) (o : ω) : Grows ν 1 (if b then .ok o else w .punct (t! ",") o) o := by
  split
  · exact same o
  · exact hw _ _ o

theorem writeSeqValueBegin_grows (b : Bool) (o : ω) : Grows ν 2 (writeSeqValueBegin w b o) o := by
  rw [writeSeqValueBegin]
  split
  · exact same o
  · exact (hw _ (t! ",") o).bind fun o => hw _ (t! " ") o

theorem writeMapEnd_grows (b : Bool) (o : ω) : Grows ν 2 (writeMapEnd w b o) o := by
  rw [writeMapEnd]
  refine Grows.bind (n := 1) (m := 1) ?_ fun o => hw _ (t! "}") o
  split
  · exact same o
  · exact hw _ _ o

theorem binaryBytes_grows (b : Bytes) (s : St ω) : Grows (out ν) (5 * b.length) (binaryBytes w b s) s := by
  induction b generalizing s with
  | nil => exact keep rfl
  | cons x b ih =>
    have hx : utf8Len (intDec x.toNat) ≤ 3 := by
      have : ∀ n < 256, utf8Len (intDec (n : Nat)) ≤ 3 := by decide +kernel
      exact this _ x.toNat_lt
    rw [binaryBytes, List.length_cons]
    exact Grows.mono (n := 2 + (3 + 5 * b.length))
      ((put_grows rfl (writeSeqValueBegin_grows hw _ _)).bind fun s =>
        (put_grows rfl ((hw _ _ _).mono hx)).bind fun s => (ih _).same rfl) (by omega)

theorem tag_grows (m : Meta) (s : St ω) : Grows (out ν) (6 * m.bytes + 5) (tag w m s) s := by
  simp only [tag]
  split
  · rename_i l hl
    refine put_grows rfl ((hw _ _ _).mono ?_)
    simp [Meta.bytes, hl]
    omega
  · exact put_grows rfl ((hw _ _ _).mono (show 2 ≤ _ by omega))

/-- What a call costs. -/
def cost (env : Env) (t : Token) : Nat := 6 * t.bytes env.f32 env.f64 + 5

theorem step_grows (env : Env) (t : Token) (hn : fmtCaps.native t = true) (s : St ω) :
    Grows (out ν) (cost env t) (step w env t s) s := by
  have lbl : ∀ {m : Meta} {l : Label}, m.label = some l → utf8Len l.text ≤ m.bytes := by
    intro m l hl
    simp [Meta.bytes, hl]
  cases t with
  | null => exact put_grows rfl ((hw _ _ _).mono (show 2 ≤ 5 by omega))
  | bool b =>
    refine put_grows rfl ((hw _ _ _).mono ?_)
    cases b
    · exact (show 5 ≤ 5 by omega)
    · exact (show 4 ≤ 5 by omega)
  | int t v => exact put_grows rfl ((hw _ _ _).mono (show _ ≤ 6 * utf8Len (intDec v) + 5 by omega))
  | f32 b => exact put_grows rfl ((hw _ _ _).mono (show _ ≤ 6 * utf8Len (env.f32 b) + 5 by omega))
  | f64 b => exact put_grows rfl ((hw _ _ _).mono (show _ ≤ 6 * utf8Len (env.f64 b) + 5 by omega))
  | textBegin n =>
    simp only [step]
    split
    · exact keep rfl
    · exact put_grows rfl ((hw _ _ _).mono (show 1 ≤ 5 by omega))
  | textFragmentComputed t =>
    simp only [step]
    split
    · exact put_grows rfl ((hw _ _ _).mono (show _ ≤ 6 * utf8Len t + 5 by omega))
    · exact put_grows rfl ((writeText_grows hw env t _).mono (show _ ≤ 6 * utf8Len t + 5 by omega))
  | textEnd =>
    simp only [step]
    split
    · exact keep rfl
    · exact put_grows rfl ((hw _ _ _).mono (show 1 ≤ 5 by omega))
  | binaryBegin n => exact put_grows rfl ((hw _ _ _).mono (show 1 ≤ 5 by omega))
  | binaryFragmentComputed b => exact (binaryBytes_grows hw b s).mono (show _ ≤ 6 * b.length + 5 by omega)
  | binaryEnd => exact put_grows rfl ((hw _ _ _).mono (show 1 ≤ 5 by omega))
  | mapBegin n => exact put_grows rfl ((hw _ _ _).mono (show 1 ≤ 5 by omega))
  | mapKeyBegin =>
    exact put_grows (f := writeMapKeyBegin w s.empty) rfl
      (Grows.mono (n := 1 + 1) ((first_grows hw _ _).bind fun o => hw _ (t! " ") o) (show 2 ≤ 5 by omega))
  | mapKeyEnd =>
    exact put_grows (f := writeMapValueBegin w) rfl
      (Grows.mono (n := 1 + 1) ((hw _ (t! ":") _).bind fun o => hw _ (t! " ") o) (show 2 ≤ 5 by omega))
  | mapValueBegin => exact keep rfl
  | mapValueEnd => exact keep rfl
  | mapEnd => exact put_grows rfl ((writeMapEnd_grows hw _ _).mono (show 2 ≤ 5 by omega))
  | seqBegin n => exact put_grows rfl ((hw _ _ _).mono (show 1 ≤ 5 by omega))
  | seqValueBegin => exact put_grows rfl ((writeSeqValueBegin_grows hw _ _).mono (show 2 ≤ 5 by omega))
  | seqValueEnd => exact keep rfl
  | seqEnd => exact put_grows rfl ((hw _ _ _).mono (show 1 ≤ 5 by omega))
  | enumBegin m => exact keep rfl
  | enumEnd m =>
    simp only [step]
    split
    · exact tag_grows hw m s
    · exact keep rfl
  | taggedBegin m =>
    simp only [step]
    split
    · rename_i l hl
      have := lbl hl
      exact put_grows rfl (Grows.mono (n := utf8Len l.text + 1) ((hw _ _ _).bind fun o => hw _ (t! "(") o)
        (show _ ≤ 6 * m.bytes + 5 by omega))
    · exact keep rfl
  | taggedEnd m =>
    simp only [step]
    split
    · exact put_grows rfl ((hw _ _ _).mono (show 1 ≤ 6 * m.bytes + 5 by omega))
    · exact keep rfl
  | tag m => exact tag_grows hw m s
  | recordBegin m n =>
    simp only [step]
    refine put_grows rfl (Grows.mono (n := (m.bytes + 1) + 1) (Grows.bind ?_ fun o => hw _ (t! "{") o)
      (show _ ≤ 6 * m.bytes + 5 by omega))
    split
    · rename_i l hl
      have := lbl hl
      exact Grows.mono (n := utf8Len l.text + 1) ((hw _ _ _).bind fun o => hw _ (t! " ") o) (by omega)
    · exact same _
  | recordValueBegin t l =>
    exact put_grows (f := writeRecordValueBegin w l.text s.empty) rfl
      (Grows.mono (n := 1 + (1 + (utf8Len l.text + (1 + 1))))
        ((first_grows hw _ _).bind fun o => (hw _ (t! " ") o).bind fun o => (hw _ _ o).bind fun o =>
          (hw _ (t! ":") o).bind fun o => hw _ (t! " ") o) (show _ ≤ 6 * utf8Len l.text + 5 by omega))
  | recordValueEnd t l => exact keep rfl
  | recordEnd m => exact put_grows rfl ((writeMapEnd_grows hw _ _).mono (show 2 ≤ 6 * m.bytes + 5 by omega))
  | tupleBegin m n =>
    simp only [step]
    refine put_grows rfl (Grows.mono (n := m.bytes + 1) (Grows.bind ?_ fun o => hw _ (t! "(") o)
      (show _ ≤ 6 * m.bytes + 5 by omega))
    simp only [writeTupleType]
    split
    · rename_i l hl
      exact (hw _ _ _).mono (lbl hl)
    · exact same _
  | tupleValueBegin t i => exact put_grows rfl ((writeSeqValueBegin_grows hw _ _).mono (show 2 ≤ 5 by omega))
  | tupleValueEnd t i => exact keep rfl
  | tupleEnd m => exact put_grows rfl ((hw _ _ _).mono (show 1 ≤ 6 * m.bytes + 5 by omega))
  | _ => cases hn

theorem call_grows (env : Env) (t : Token) (s : St ω) : Grows (out ν) (cost env t) (call w env t s) s := by
  have single : ∀ t', fmtCaps.native t' = true → cost env t' ≤ cost env t → Grows (out ν) (cost env t) (run (step w env) [t'] s) s := by
    intro t' hn ht
    rw [run_cons]
    exact Grows.mono (n := cost env t' + 0) ((step_grows hw env t' hn s).bind fun s => grows_ok rfl) ht
  rw [call]
  cases t with
  | int ty v => cases ty <;> exact single _ rfl (Nat.le_refl _)
  | tagHint t => exact keep rfl
  | recordTupleBegin m n => exact single _ rfl (Nat.le_refl _)
  | recordTupleEnd m => exact single _ rfl (Nat.le_refl _)
  | recordTupleValueBegin m l i => exact single _ rfl (Nat.le_refl _)
  | recordTupleValueEnd m l i => exact single _ rfl (Nat.le_refl _)
  | _ => exact single _ rfl (Nat.le_refl _)

theorem toWrite_grows (env : Env) (p : Prog) (o o' : ω) (ok : Bool) (h : toWrite w env p o = .done ok o') :
    ν o' ≤ ν o + ((received (guarded (call w env)) p .base (St.new o, false)).map (cost env)).sum := by
  have := grows_exec (μ := out ν) (call w env) (cost env) (call_grows hw env) p .base (St.new o)
  simp only [toWrite, drive] at h
  split at h
  · rename_i h2
    split at h2
    · cases h2
    · cases h2
      cases h
      exact this
  · cases h

end
end Sval.Fmt
