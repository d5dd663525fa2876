import Verif.Reader.Bytes
import Verif.Json.Number
import Verif.Fmt.Model

set_option autoImplicit false

/-!
# Numbers in text and escaped text, over bytes

The loops of `json/src/to_fmt.rs` (`NumberTextHandler::text_fragment`) and `fmt/src/token_write.rs`
(`write_escape_debug`) as they stand, over bytes and with positions in bytes. `Verif/Json/Model.lean` and
`Verif/Fmt/Model.lean` have them over characters.
-/

namespace Sval.Json
open Reader.Bytes (is is_ascii is_high isDigit_ascii isDigit_high utf8_cons)

section
variable {ω : Type} (w : Writer ω)

/-- `for b in v.as_bytes()` of `NumberTextHandler::text_fragment`, `json/src/to_fmt.rs:590-647`. -/
def numLoopB : Bytes → NumRun ω → Res Unit (NumRun ω)
  | [], r => .ok r
  | b :: bs, r =>
    if is b '0' = true ∧ r.st.atStart = true then numLoopB bs { r with start := r.start + 1, stop := r.stop + 1 }
    else if Reader.Bytes.isDigit b then
      (if r.st.atStart && r.st.neg then r.write w ['-'] else .ok r).bind fun r =>
      numLoopB bs { r with st := { r.st with atStart := false }, stop := r.stop + 1 }
    else if is b '.' then
      (if r.st.atStart then
        (if r.st.neg then r.write w ['-'] else .ok r).bind fun r => r.write w ['0']
       else .ok r).bind fun r =>
      numLoopB bs { r with st := { r.st with atStart := false }, stop := r.stop + 1 }
    else if is b '-' = true ∧ r.st.atStart = true then
      numLoopB bs { r with st := { r.st with neg := true }, start := r.start + 1, stop := r.stop + 1 }
    else if is b '+' = true ∧ r.st.atStart = true then
      numLoopB bs { r with start := r.start + 1, stop := r.stop + 1 }
    else if is b 's' || is b 'n' || is b 'i' || is b 'S' || is b 'N' || is b 'I' then
      (NumRun.write w (t! "null") { r with st := { r.st with nan := true, atStart := false } }).bind fun r =>
      .ok { r with start := 0, stop := 0 }
    else numLoopB bs { r with stop := r.stop + 1 }

theorem numLoopB_high (bs rest : Bytes) (r : NumRun ω) (h : ∀ b ∈ bs, 128 ≤ b.toNat) :
    numLoopB w (bs ++ rest) r = numLoopB w rest { r with stop := r.stop + bs.length } := by
  induction bs generalizing r with
  | nil => rfl
  | cons b bs ih =>
    have hb := h b (by simp)
    have hi (d : Char) (hd : d.toNat < 128) := is_high b d hb hd
    rw [List.cons_append, numLoopB, isDigit_high b hb, hi '0' (by decide), hi '.' (by decide), hi '-' (by decide), hi '+' (by decide),
      hi 's' (by decide), hi 'n' (by decide), hi 'i' (by decide), hi 'S' (by decide), hi 'N' (by decide), hi 'I' (by decide)]
    simp only [Bool.false_eq_true, false_and, if_false, Bool.or_self]
    rw [ih _ fun b hb => h b (by simp [hb]), List.length_cons]
    simp only [Nat.add_assoc, Nat.add_comm 1]

theorem numLoopB_utf8 (v : Text) (r : NumRun ω) : numLoopB w (utf8 v) r = numLoop w v r := by
  induction v generalizing r with
  | nil => rfl
  | cons c v ih =>
    rw [utf8_cons]
    by_cases hc : c.toNat < 128
    · have hi (d : Char) := is_ascii c d hc
      have hs : c.utf8Size = 1 := by
        rw [← String.length_utf8EncodeChar, utf8_ascii c hc]; rfl
      rw [utf8_ascii c hc, List.singleton_append, numLoopB, numLoop, isDigit_ascii c hc, hs]
      simp only [hi, ih, beq_iff_eq, Bool.or_eq_true, List.mem_cons, List.not_mem_nil, or_false, or_assoc]
    · have hne (d : Char) (hd : d.toNat < 128) : ¬ c = d := by rintro rfl; exact hc hd
      have hd : Sval.isDigit c = false := by rw [Sval.isDigit, Bool.and_eq_false_iff]; right; simp; omega
      rw [numLoopB_high w _ _ _ (utf8_high c hc), numLoop, ih, String.length_utf8EncodeChar]
      simp [hne '0' (by decide), hd, hne '.' (by decide), hne '-' (by decide), hne '+' (by decide), hne 's' (by decide),
        hne 'n' (by decide), hne 'i' (by decide), hne 'S' (by decide), hne 'N' (by decide), hne 'I' (by decide)]

end

/-! ## Slices -/

theorem utf8Len_eq (t : Text) : (utf8 t).length = utf8Len t := by
  induction t with
  | nil => rfl
  | cons c t ih =>
    rw [utf8_cons, List.length_append, ih, String.length_utf8EncodeChar]; simp [utf8Len]

theorem utf8Len_cons (c : Char) (t : Text) : utf8Len (c :: t) = c.utf8Size + utf8Len t := by simp [utf8Len]

theorem dropBytes_some (v : Text) (n : Nat) (t : Text) (h : dropBytes v n = some t) : ∃ p, v = p ++ t ∧ utf8Len p = n := by
  induction v generalizing n with
  | nil =>
    cases n with
    | zero => exact ⟨[], by simpa [dropBytes] using h, rfl⟩
    | succ n => simp [dropBytes] at h
  | cons c v ih =>
    cases n with
    | zero => exact ⟨[], by simpa [dropBytes] using h, rfl⟩
    | succ n =>
      rw [dropBytes] at h
      split at h
      · rename_i hs
        obtain ⟨p, rfl, hp⟩ := ih _ h
        exact ⟨c :: p, rfl, by rw [utf8Len_cons, hp]; omega⟩
      · cases h

theorem takeBytes_some (v : Text) (n : Nat) (t : Text) (h : takeBytes v n = some t) : ∃ q, v = t ++ q ∧ utf8Len t = n := by
  induction v generalizing n t with
  | nil =>
    cases n with
    | zero => obtain rfl : [] = t := by simpa [takeBytes] using h
              exact ⟨[], rfl, rfl⟩
    | succ n => simp [takeBytes] at h
  | cons c v ih =>
    cases n with
    | zero => obtain rfl : [] = t := by simpa [takeBytes] using h
              exact ⟨_, rfl, rfl⟩
    | succ n =>
      rw [takeBytes] at h
      split at h
      · rename_i hs
        cases hr : takeBytes v (n + 1 - c.utf8Size) with
        | none => rw [hr] at h; cases h
        | some t' =>
          rw [hr] at h
          obtain rfl : c :: t' = t := Option.some.inj h
          obtain ⟨q, rfl, hq⟩ := ih _ _ hr
          exact ⟨q, rfl, by rw [utf8Len_cons, hq]; omega⟩
      · cases h

theorem takeBytes_append (a b : Text) : takeBytes (a ++ b) (utf8Len a) = some a := by
  induction a with
  | nil => cases b <;> rfl
  | cons c a ih =>
    have hp : 0 < c.utf8Size := c.utf8Size_pos
    rw [utf8Len_cons]
    obtain ⟨n, hn⟩ : ∃ n, c.utf8Size + utf8Len a = n + 1 := ⟨c.utf8Size + utf8Len a - 1, by omega⟩
    rw [hn, List.cons_append, takeBytes, if_pos (by omega), ← hn, Nat.add_sub_cancel_left, ih]; rfl

theorem sliceBytes_append (a b c : Text) : sliceBytes (a ++ b ++ c) (utf8Len a) (utf8Len a + utf8Len b) = some b := by
  rw [sliceBytes, if_pos (by omega), List.append_assoc, dropBytes_append, Option.bind_some, Nat.add_sub_cancel_left, takeBytes_append]

end Sval.Json

namespace Sval.Fmt

section
variable {ω : Type} (w : Writer ω) (env : Env)

/-- `write_str` of `write_escape_debug`, `fmt/src/token_write.rs:339-370`: `start` is `from`, `i` the position of the
first of the characters left. -/
def escapeAt (input : Text) (start i : Nat) : Text → ω → Res Unit ω
  | [], o =>
    match Json.dropBytes input start with
    | some f => flush w f o
    | none => .panic
  | c :: cs, o =>
    if (escapeDebug env c).length > 1 then
      match Json.sliceBytes input start i with
      | some f =>
        (flush w f o).bind fun o =>
        (writeChars w (escapeDebug env c) o).bind fun o =>
        escapeAt input (i + c.utf8Size) (i + c.utf8Size) cs o
      | none => .panic
    else escapeAt input start (i + c.utf8Size) cs o

theorem escapeAt_eq (a p r : Text) (o : ω) :
    escapeAt w env (a ++ p ++ r) (utf8Len a) (utf8Len a + utf8Len p) r o = escapeLoop w env p r o := by
  induction r generalizing a p o with
  | nil => rw [escapeAt, escapeLoop, List.append_nil, Json.dropBytes_append]
  | cons c r ih =>
    have h1 : Json.sliceBytes (a ++ p ++ c :: r) (utf8Len a) (utf8Len a + utf8Len p) = some p := Json.sliceBytes_append a p _
    have h2 (o : ω) := ih (a ++ p ++ [c]) [] o
    have h3 (o : ω) := ih a (p ++ [c]) o
    have hc : utf8Len [c] = c.utf8Size := by simp [utf8Len]
    simp only [Json.utf8Len_append, Json.utf8Len_nil, hc, List.append_nil, Nat.add_zero, List.append_assoc, List.singleton_append] at h2 h3
    rw [escapeAt, escapeLoop, h1]
    simp only [List.append_assoc, Nat.add_assoc, h2, h3]

end

end Sval.Fmt
