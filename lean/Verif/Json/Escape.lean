import Verif.Json.GrammarLemmas
import Verif.Json.Model

set_option autoImplicit false

/-!
# Escaping: what `escape_str` writes

`escape` is the result of `escapeStr` on a `String`; `pieces` are the separate writes. The second half
models the loop as it stands in the source, over bytes, and shows that it makes the same writes.
-/

namespace Sval.Json

/-- The writes of the `match escape`. -/
def escapePieces (c : Char) : List Text :=
  let e := escapeOf c
  if e = BB then [t! "\\b"]
  else if e = TT then [t! "\\t"]
  else if e = NN then [t! "\\n"]
  else if e = FF then [t! "\\f"]
  else if e = RR then [t! "\\r"]
  else if e = QU then [t! "\\\""]
  else if e = BS then [t! "\\\\"]
  else [t! "\\u00", [hexDigit (c.toNat >>> 4)], [hexDigit (c.toNat &&& 0xF)]]

/-- What `escape_str` writes for one character: `json/src/to_fmt.rs:670-709`. -/
def escapeChar (c : Char) : Text := if escapeOf c = 0 then [c] else (escapePieces c).flatten

/-- What `escape_str` writes to a `String`. -/
def escape (v : Text) : Text := v.flatMap escapeChar

@[simp] theorem escape_nil : escape [] = [] := rfl
theorem escape_cons (c : Char) (v : Text) : escape (c :: v) = escapeChar c ++ escape v := rfl
theorem escape_append (a b : Text) : escape (a ++ b) = escape a ++ escape b := by simp [escape]

/-- A table entry is zero or one of the eight the `match` knows. -/
theorem escapeOf_cases (c : Char) : escapeOf c = 0 ∨ escapeOf c = BB ∨ escapeOf c = TT ∨ escapeOf c = NN ∨
    escapeOf c = FF ∨ escapeOf c = RR ∨ escapeOf c = QU ∨ escapeOf c = BS ∨ escapeOf c = U := by
  unfold escapeOf
  split
  · rename_i h
    have : ∀ n < 128, ESCAPE.getD n 0 = 0 ∨ ESCAPE.getD n 0 = BB ∨ ESCAPE.getD n 0 = TT ∨
        ESCAPE.getD n 0 = NN ∨ ESCAPE.getD n 0 = FF ∨ ESCAPE.getD n 0 = RR ∨ ESCAPE.getD n 0 = QU ∨
        ESCAPE.getD n 0 = BS ∨ ESCAPE.getD n 0 = U := by decide +kernel
    exact this _ h
  · exact .inl rfl

/-- Writes one after the other. -/
def writes {ω : Type} (w : Writer ω) : List Text → ω → Res Unit ω
  | [], o => .ok o
  | t :: ts, o => (w t o).bind (writes w ts)

theorem writes_append {ω : Type} (w : Writer ω) (a b : List Text) (o : ω) :
    writes w (a ++ b) o = (writes w a o).bind (writes w b) := by
  induction a generalizing o with
  | nil => rfl
  | cons t a ih =>
    simp only [List.cons_append, writes]
    cases w t o with
    | ok o' => exact ih o'
    | err e o' => rfl
    | panic => rfl

theorem writes_str (ts : List Text) (o : Text) : writes strWriter ts o = .ok (o ++ ts.flatten) := by
  induction ts generalizing o with
  | nil => simp [writes]
  | cons t ts ih => simp [writes, strWriter, ih]

theorem escapeOne_writes {ω : Type} (w : Writer ω) (c : Char) (h : escapeOf c ≠ 0) (o : ω) :
    escapeOne w (escapeOf c) c.toNat o = writes w (escapePieces c) o := by
  have bind_ok : ∀ r : Res Unit ω, r.bind (fun o => .ok o) = r := by intro r; cases r <;> rfl
  unfold escapeOne escapePieces
  simp only
  rcases escapeOf_cases c with e | e | e | e | e | e | e | e | e
  · exact absurd e h
  all_goals
    rw [e]
    first
      | exact (bind_ok _).symm
      | skip
  simp only [show ¬ U = BB by decide, show ¬ U = TT by decide, show ¬ U = NN by decide,
    show ¬ U = FF by decide, show ¬ U = RR by decide, show ¬ U = QU by decide, show ¬ U = BS by decide,
    if_false, if_true, writes]
  congr 1; funext o; congr 1; funext o; exact (bind_ok _).symm

/-- The writes of the loop, `p` being `value[start..i]`. -/
def pieces : Text → Text → List Text
  | p, [] => if p ≠ [] then [p] else []
  | p, c :: cs => if escapeOf c = 0 then pieces (p ++ [c]) cs
      else (if p ≠ [] then [p] else []) ++ escapePieces c ++ pieces [] cs

theorem escapeLoop_writes {ω : Type} (w : Writer ω) (v p : Text) (o : ω) :
    escapeLoop w p v o = writes w (pieces p v) o := by
  have bind_ok : ∀ r : Res Unit ω, r.bind (fun o => .ok o) = r := by intro r; cases r <;> rfl
  have hp : ∀ (p : Text) (o : ω), (if p ≠ [] then w p o else .ok o) = writes w (if p ≠ [] then [p] else []) o := by
    intro p o; split
    · exact (bind_ok _).symm
    · rfl
  induction v generalizing p o with
  | nil => simp only [escapeLoop, pieces]; exact hp p o
  | cons c v ih =>
    simp only [escapeLoop, pieces]
    split
    · exact ih _ _
    · rename_i h
      rw [hp, writes_append, writes_append]
      cases writes w (if p ≠ [] then [p] else []) o with
      | ok o =>
        simp only [Res.bind, escapeOne_writes w c h]
        cases writes w (escapePieces c) o with
        | ok o => exact ih _ _
        | err e o => rfl
        | panic => rfl
      | err e o => rfl
      | panic => rfl

theorem pieces_flatten (v p : Text) : (pieces p v).flatten = p ++ escape v := by
  induction v generalizing p with
  | nil => simp only [pieces]; split <;> simp_all
  | cons c v ih =>
    simp only [pieces, escape_cons, escapeChar]
    split
    · rw [ih]; simp
    · simp only [List.flatten_append, ih, List.nil_append, List.append_assoc]
      congr 1
      split <;> simp_all

theorem escapeStr_str (v o : Text) : escapeStr strWriter v o = .ok (o ++ escape v) := by
  rw [escapeStr, escapeLoop_writes, writes_str, pieces_flatten]; rfl

/-- One row of the table is right. -/
def rowOk (n : Nat) : Bool :=
  if ESCAPE.getD n 0 = 0 then rawOk (Char.ofNat n)
  else match escapeChar (Char.ofNat n) with
    | ['\\', e] => escOf e == some (Char.ofNat n)
    | ['\\', 'u', a, b, c, d] => hex4 a b c d == some n
    | _ => false

theorem rows_ok : ∀ n < 128, rowOk n = true := by decide +kernel

theorem ofNat_toNat (c : Char) : Char.ofNat c.toNat = c := Char.ofNat_toNat c

theorem escapeChar_lit (c : Char) {t s : Text} (h : StrLit t s) : StrLit (escapeChar c ++ t) (c :: s) := by
  by_cases hc : c.toNat < 128
  · have hr := rows_ok c.toNat hc
    unfold rowOk at hr
    rw [ofNat_toNat] at hr
    split at hr
    · rename_i h0
      have : escapeOf c = 0 := by simp only [escapeOf, hc, if_true, h0]
      simp only [escapeChar, this, if_true]
      exact .raw c hr h
    · split at hr
      · rename_i e he
        rw [he]; exact .esc e c (by simpa using hr) h
      · rename_i a b d e he
        rw [he]
        have := StrLit.uni a b d e c.toNat (by simpa using hr) (by omega) h
        rwa [ofNat_toNat] at this
      · cases hr
  · have : escapeOf c = 0 := by simp [escapeOf, hc]
    simp only [escapeChar, this, if_true]
    refine .raw c ?_ h
    have h1 : c ≠ '"' := by rintro rfl; simp at hc
    have h2 : c ≠ '\\' := by rintro rfl; simp at hc
    simp [rawOk, h1, h2]; omega

theorem escape_lit_append (v : Text) {t s : Text} (h : StrLit t s) : StrLit (escape v ++ t) (v ++ s) := by
  induction v with
  | nil => exact h
  | cons c v ih => rw [escape_cons, List.append_assoc]; exact escapeChar_lit c ih

theorem escape_lit (v : Text) : StrLit (escape v) v := by simpa using escape_lit_append v .nil

theorem StrLit.append {a b s r : Text} (h : StrLit a s) (h' : StrLit b r) : StrLit (a ++ b) (s ++ r) := by
  induction h with
  | nil => exact h'
  | raw c hc _ ih => exact .raw c hc ih
  | esc e c he _ ih => exact .esc e c he ih
  | uni a b c d n h1 h2 _ ih => exact .uni a b c d n h1 h2 ih
  | pair a b c d a' b' c' d' n n' h1 h2 h3 h4 _ ih => exact .pair a b c d a' b' c' d' n n' h1 h2 h3 h4 ih

/-- Text that needs no escaping. -/
theorem raw_lit (v : Text) (h : v.all rawOk = true) : StrLit v v := by
  induction v with
  | nil => exact .nil
  | cons c v ih =>
    rw [List.all_cons, Bool.and_eq_true] at h
    exact .raw c h.1 (ih h.2)

theorem escapeOf_raw (c : Char) (h : rawOk c = true) : escapeOf c = 0 := by
  by_cases hc : c.toNat < 128
  · have : ∀ n < 128, rawOk (Char.ofNat n) = true → ESCAPE.getD n 0 = 0 := by decide +kernel
    have h' := this c.toNat hc (by rwa [ofNat_toNat])
    simp only [escapeOf, hc, if_true, h']
  · simp [escapeOf, hc]

/-- Escaping leaves text that needs no escaping alone. -/
theorem escape_raw (v : Text) (h : v.all rawOk = true) : escape v = v := by
  induction v with
  | nil => rfl
  | cons c v ih =>
    rw [List.all_cons, Bool.and_eq_true] at h
    rw [escape_cons, ih h.2, escapeChar, escapeOf_raw c h.1]; rfl

/-! ## Over bytes -/

/-- `HEX_DIGITS[i]`, `json/src/to_fmt.rs:696`. -/
def hexByte (i : Nat) : UInt8 := (utf8 (t! "0123456789abcdef")).getD i 0

/-- The `match escape` by bytes, `json/src/to_fmt.rs:684-699`. -/
def escapePiecesB (e b : UInt8) : Option (List Bytes) :=
  if e = BB then some [[92, 98]]
  else if e = TT then some [[92, 116]]
  else if e = NN then some [[92, 110]]
  else if e = FF then some [[92, 102]]
  else if e = RR then some [[92, 114]]
  else if e = QU then some [[92, 34]]
  else if e = BS then some [[92, 92]]
  else if e = U then some [[92, 117, 48, 48], [hexByte (b.toNat >>> 4)], [hexByte (b.toNat &&& 0xF)]]
  else none

/-- `escape_str` over bytes, `json/src/to_fmt.rs:669-709`: the writes made; `none` is the
`unreachable!`. `p` is `bytes[start..i]`. -/
def piecesB : Bytes → Bytes → Option (List Bytes)
  | p, [] => some (if p ≠ [] then [p] else [])
  | p, b :: bs =>
    if ESCAPE.getD b.toNat 0 = 0 then piecesB (p ++ [b]) bs
    else (escapePiecesB (ESCAPE.getD b.toNat 0) b).bind fun e =>
      (piecesB [] bs).map fun r => (if p ≠ [] then [p] else []) ++ e ++ r

theorem utf8_append (a b : Text) : utf8 (a ++ b) = utf8 a ++ utf8 b := by simp [utf8]

theorem utf8_ascii (c : Char) (h : c.toNat < 128) : String.utf8EncodeChar c = [UInt8.ofNat c.toNat] := by
  have h1 : c.val ≤ 0x7f := by
    rw [UInt32.le_iff_toNat_le]; show c.toNat ≤ 127; omega
  rw [String.utf8EncodeChar]
  simp only [show c.val.toNat ≤ 127 from h1, if_true]; rfl

theorem utf8_high (c : Char) (h : ¬ c.toNat < 128) : ∀ b ∈ String.utf8EncodeChar c, 128 ≤ b.toNat := by
  have h1 : ¬ c.val.toNat ≤ 127 := by
    show ¬ c.toNat ≤ 127; omega
  have key : ∀ n : Nat, 128 ≤ n → n < 256 → 128 ≤ (UInt8.ofNat n).toNat := by
    intro n h h'
    rw [UInt8.toNat_ofNat']; omega
  intro b hb
  rw [String.utf8EncodeChar] at hb
  simp only [h1, if_false] at hb
  repeat' split at hb
  all_goals simp only [List.mem_cons, List.not_mem_nil, or_false] at hb
  · rcases hb with rfl | rfl <;> exact key _ (by omega) (by omega)
  · rcases hb with rfl | rfl | rfl <;> exact key _ (by omega) (by omega)
  · rcases hb with rfl | rfl | rfl | rfl <;> exact key _ (by omega) (by omega)

theorem utf8_eq_nil (p : Text) : utf8 p = [] ↔ p = [] := by
  cases p with
  | nil => simp [utf8]
  | cons c p => simp [utf8, String.utf8EncodeChar_ne_nil]

theorem piecesB_high (bs r q : Bytes) (h : ∀ b ∈ bs, 128 ≤ b.toNat) : piecesB q (bs ++ r) = piecesB (q ++ bs) r := by
  induction bs generalizing q with
  | nil => simp
  | cons b bs ih =>
    have ht : ∀ n, 128 ≤ n → n < 256 → ESCAPE.getD n 0 = 0 := by
      have : ∀ n < 256, 128 ≤ n → ESCAPE.getD n 0 = 0 := by decide +kernel
      exact fun n h h' => this n h' h
    rw [List.cons_append, piecesB, if_pos (ht _ (h b (by simp)) b.toNat_lt), ih _ fun b hb => h b (by simp [hb])]
    simp

theorem escapePiecesB_eq (c : Char) (hc : c.toNat < 128) (h : escapeOf c ≠ 0) :
    escapePiecesB (escapeOf c) (UInt8.ofNat c.toNat) = some ((escapePieces c).map utf8) := by
  have : ∀ n < 128, ESCAPE.getD n 0 ≠ 0 →
      escapePiecesB (escapeOf (Char.ofNat n)) (UInt8.ofNat n) = some ((escapePieces (Char.ofNat n)).map utf8) := by
    decide +kernel
  have h' := this c.toNat hc (by simpa [escapeOf, hc] using h)
  rwa [ofNat_toNat] at h'

/-- The loop over bytes makes the writes of the loop over characters. -/
theorem piecesB_utf8 (v p : Text) : piecesB (utf8 p) (utf8 v) = some ((pieces p v).map utf8) := by
  induction v generalizing p with
  | nil =>
    simp only [utf8, List.flatMap_nil, piecesB, pieces]
    have := utf8_eq_nil p
    unfold utf8 at this
    by_cases hp : p = [] <;> simp [hp, this, utf8]
  | cons c v ih =>
    have hu : utf8 (c :: v) = String.utf8EncodeChar c ++ utf8 v := rfl
    rw [hu, pieces]
    have hq : utf8 (p ++ [c]) = utf8 p ++ String.utf8EncodeChar c := by simp [utf8]
    by_cases hc : c.toNat < 128
    · rw [utf8_ascii c hc] at hq ⊢
      have ht : (UInt8.ofNat c.toNat).toNat = c.toNat := by rw [UInt8.toNat_ofNat']; omega
      have he : escapeOf c = ESCAPE.getD c.toNat 0 := by simp [escapeOf, hc]
      rw [List.cons_append, List.nil_append, piecesB, ht, ← he]
      split
      · rw [← hq]; exact ih _
      · rename_i h
        have := ih []
        rw [show utf8 [] = [] from rfl] at this
        rw [escapePiecesB_eq c hc h, this]
        simp only [Option.bind_some, Option.map_some, List.map_append, Option.some.injEq]
        congr 2
        by_cases hp : p = []
        · simp [hp, utf8]
        · simp [hp, utf8_eq_nil]
    · have : escapeOf c = 0 := by simp [escapeOf, hc]
      rw [piecesB_high _ _ _ (utf8_high c hc), if_pos this, ← hq]
      exact ih _

end Sval.Json
