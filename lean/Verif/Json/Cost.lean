import Verif.Core.Carried
import Verif.Json.Escape
import Verif.Json.Bytes
import Verif.Json.Run

set_option autoImplicit false

/-!
# How much `sval_json` writes

At most six bytes for each byte of data in a call, and nine more for the call, whatever the calls.
-/

namespace Sval.Json

/-- No character is escaped with more than six bytes for each of its own. -/
theorem escapeChar_len (c : Char) : utf8Len (escapeChar c) ≤ 6 * c.utf8Size := by
  have hp := c.utf8Size_pos
  rw [escapeChar]
  split
  · simp [utf8Len]; omega
  · rename_i h
    have hc : c.toNat < 128 := by
      simp only [escapeOf] at h
      split at h
      · assumption
      · exact absurd rfl h
    have : ∀ n < 128, utf8Len (escapePieces (Char.ofNat n)).flatten ≤ 6 := by decide +kernel
    have := this c.toNat hc
    rw [ofNat_toNat] at this
    omega

theorem escape_len (v : Text) : utf8Len (escape v) ≤ 6 * utf8Len v := by
  induction v with
  | nil => exact Nat.le_refl _
  | cons c v ih =>
    rw [escape_cons, utf8Len_append, utf8Len_cons]
    have := escapeChar_len c
    omega

theorem sliceBytes_len {v t : Text} {a b : Nat} (h : sliceBytes v a b = some t) : utf8Len t ≤ utf8Len v := by
  rw [sliceBytes] at h
  split at h
  · cases hd : dropBytes v a with
    | none => rw [hd] at h; cases h
    | some u =>
      rw [hd] at h
      obtain ⟨p, rfl, _⟩ := dropBytes_some v a u hd
      obtain ⟨q, rfl, _⟩ := takeBytes_some u _ t h
      simp only [utf8Len_append]
      omega
  · cases h

section
variable {ω : Type} {ν : ω → Nat} {w : Writer ω} (hw : ∀ t o, Grows ν (utf8Len t) (w t o) o)

/-- The measure of the output, in states of the formatter. -/
def out (ν : ω → Nat) (s : St ω) : Nat := ν s.out

omit hw in
theorem wr_grows {n : Nat} {f : ω → Res Unit ω} {s : St ω} (hf : Grows ν n (f s.out) s.out) : Grows (out ν) n (wr f s) s := by
  rw [wr]
  cases e : f s.out with
  | panic => trivial
  | ok o => rw [e] at hf; exact hf
  | err x o => rw [e] at hf; exact hf

omit hw in
theorem keep {n : Nat} {s s' : St ω} (h : s'.out = s.out) : Grows (out ν) n (.ok s' : Res Unit (St ω)) s := by
  show ν s'.out ≤ ν s.out + n
  rw [h]
  exact Nat.le_add_right _ _

include hw

theorem writes_grows (ts : List Text) (o : ω) : Grows ν (utf8Len ts.flatten) (writes w ts o) o := by
  induction ts generalizing o with
  | nil => exact grows_ok rfl
  | cons t ts ih =>
    rw [writes, List.flatten_cons, utf8Len_append]
    exact (hw t o).bind ih

theorem escapeStr_grows (v : Text) (o : ω) : Grows ν (6 * utf8Len v) (escapeStr w v o) o := by
  rw [escapeStr, escapeLoop_writes]
  refine (writes_grows hw _ o).mono ?_
  rw [pieces_flatten]
  exact escape_len v

theorem w_grows (t : Text) (s : St ω) : Grows (out ν) (utf8Len t) (wr (w t) s) s := wr_grows (hw t _)

theorem scalar_grows (t : Text) (s : St ω) : Grows (out ν) (utf8Len t) (scalar w t s) s :=
  (w_grows hw t { s with empty := false }).same rfl

theorem textBegin_grows (s : St ω) : Grows (out ν) 1 (textBegin w s) s := by
  rw [textBegin]
  split
  · exact (w_grows hw _ { s with empty := false }).same rfl
  · exact Nat.le_add_right (ν s.out) 1

theorem textEnd_grows (s : St ω) : Grows (out ν) 1 (textEnd w s) s := by
  rw [textEnd]
  split
  · exact w_grows hw _ s
  · exact (grows_ok rfl).mono (Nat.zero_le _)

theorem write_grows (t : Text) (r : NumRun ω) :
    match NumRun.write w t r with
    | .ok r' => r'.st = r.st ∧ ν r'.out ≤ ν r.out + utf8Len t
    | .err _ r' => ν r'.out ≤ ν r.out + utf8Len t
    | .panic => True := by
  have := hw t r.out
  rw [NumRun.write]
  cases e : w t r.out with
  | panic => trivial
  | ok o => rw [e] at this; exact ⟨rfl, this⟩
  | err x o => rw [e] at this; exact this

/-- What reading a number writes by itself: a sign and a zero at the start, and `null`. -/
theorem numLoop_grows (v : Text) (r : NumRun ω) :
    Grows (fun r : NumRun ω => ν r.out) ((if r.st.atStart then 2 else 0) + 4) (numLoop w v r) r := by
  induction v generalizing r with
  | nil => exact (grows_ok rfl).mono (Nat.zero_le _)
  | cons c v ih =>
    have one : ∀ t : Text, utf8Len t = 1 → ∀ r : NumRun ω, Grows (fun r : NumRun ω => ν r.out) 1 (NumRun.write w t r) r := by
      intro t ht r
      have := write_grows hw t r
      rw [ht] at this
      cases e : NumRun.write w t r with
      | panic => trivial
      | ok r' => rw [e] at this; exact this.2
      | err x r' => rw [e] at this; exact this
    have fin : ∀ q : NumRun ω, Grows (fun r : NumRun ω => ν r.out) 4
        (numLoop w v { q with st := { q.st with atStart := false }, stop := q.stop + 1 }) q := by
      intro q
      exact (ih _).same rfl
    have same : ∀ q : NumRun ω, q.st.atStart = r.st.atStart → q.out = r.out →
        Grows (fun r : NumRun ω => ν r.out) ((if r.st.atStart then 2 else 0) + 4) (numLoop w v q) r := by
      intro q h1 h2
      rw [← h1]
      exact (ih q).same (congrArg ν h2)
    have hk : r.st.atStart = true → (if r.st.atStart then 2 else 0) = 2 := fun h => by rw [h]; rfl
    generalize (if r.st.atStart then 2 else 0) = k at same hk ⊢
    rw [numLoop]
    split
    · exact same _ rfl rfl
    · split
      · split
        · rename_i h
          simp only [Bool.and_eq_true] at h
          have := hk h.1
          exact ((one ['-'] rfl r).bind fin).mono (by omega)
        · exact (fin r).mono (by omega)
      · split
        · split
          · rename_i h
            have := hk h
            have : Grows (fun r : NumRun ω => ν r.out) 2
                ((if r.st.neg then r.write w ['-'] else .ok r).bind fun r => r.write w ['0']) r := by
              split
              · exact (one ['-'] rfl r).bind fun r => one ['0'] rfl r
              · exact (one ['0'] rfl r).mono (by omega)
            exact (this.bind fin).mono (by omega)
          · exact (fin r).mono (by omega)
        · split
          · exact same _ rfl rfl
          · split
            · exact same _ rfl rfl
            · split
              · have := write_grows hw (t! "null") { r with st := { r.st with nan := true, atStart := false } }
                cases e : NumRun.write w (t! "null") { r with st := { r.st with nan := true, atStart := false } } with
                | panic => trivial
                | ok r' =>
                  rw [e] at this
                  exact Nat.le_trans this.2 (Nat.add_le_add_left (show 4 ≤ _ by omega) _)
                | err x r' =>
                  rw [e] at this
                  exact Nat.le_trans this (Nat.add_le_add_left (show 4 ≤ _ by omega) _)
              · exact same _ rfl rfl

theorem numFragment_grows (v : Text) (r : NumSt × ω) :
    Grows (fun r : NumSt × ω => ν r.2) (utf8Len v + 6) (numFragment w v r) r := by
  obtain ⟨n, o⟩ := r
  rw [numFragment]
  cases hn : n.nan with
  | true => exact (grows_ok rfl).mono (Nat.zero_le _)
  | false =>
    have hl := numLoop_grows hw v { st := n, out := o }
    have hl : Grows (fun r : NumRun ω => ν r.out) 6 (numLoop w v { st := n, out := o }) { st := n, out := o } :=
      hl.mono (by split <;> omega)
    simp only [Bool.false_eq_true, if_false]
    cases e : numLoop w v { st := n, out := o } with
    | panic => trivial
    | err x r' =>
      rw [e] at hl
      exact Nat.le_trans hl (Nat.add_le_add_left (by omega) _)
    | ok r' =>
      rw [e] at hl
      have hl : ν r'.out ≤ ν o + 6 := hl
      cases hs : sliceBytes v r'.start r'.stop with
      | none => simp only [hs]; trivial
      | some t =>
        have ht := sliceBytes_len hs
        have := hw t r'.out
        simp only [hs]
        cases e2 : w t r'.out with
        | panic => trivial
        | ok o' => rw [e2] at this; have this : ν o' ≤ ν r'.out + utf8Len t := this; show ν o' ≤ ν o + _; omega
        | err x o' => rw [e2] at this; have this : ν o' ≤ ν r'.out + utf8Len t := this; show ν o' ≤ ν o + _; omega

theorem textFragment_grows (v : Text) (s : St ω) : Grows (out ν) (6 * utf8Len v + 6) (textFragment w v s) s := by
  rw [textFragment]
  cases hs : s.handler with
  | none => exact (wr_grows (escapeStr_grows hw v _)).mono (by omega)
  | some k =>
    cases k with
    | native => exact (w_grows hw v s).mono (by omega)
    | number n =>
      have := (numFragment_grows hw v (n, s.out)).mono (show _ ≤ 6 * utf8Len v + 6 by omega)
      simp only
      cases e : numFragment w v (n, s.out) with
      | panic => trivial
      | ok r => rw [e] at this; exact this
      | err x r => rw [e] at this; exact this

theorem mapBegin_grows (s : St ω) : Grows (out ν) 1 (mapBegin w s) s := by
  rw [mapBegin]
  split
  · exact Nat.le_add_right (ν s.out) _
  · exact (w_grows hw _ { s with empty := true }).same rfl

theorem mapKeyBegin_grows (s : St ω) : Grows (out ν) 2 (mapKeyBegin w s) s := by
  simp only [mapKeyBegin]
  split
  · exact ((w_grows hw _ { s with quoted := false, tagged := false }).same rfl)
  · exact ((w_grows hw ['"'] { s with quoted := false, tagged := false }).same rfl).mono (by decide)

theorem mapKeyEnd_grows (s : St ω) : Grows (out ν) 2 (mapKeyEnd w s) s := Grows.bind (m := 0) (w_grows hw _ s) fun _ => keep rfl

theorem mapEnd_grows (s : St ω) : Grows (out ν) 1 (mapEnd w s) s := (w_grows hw _ { s with empty := false }).same rfl

theorem seqBegin_grows (s : St ω) : Grows (out ν) 1 (seqBegin w s) s := by
  rw [seqBegin]
  split
  · exact Nat.le_add_right (ν s.out) _
  · exact (w_grows hw _ { s with empty := true }).same rfl

theorem seqValueBegin_grows (s : St ω) : Grows (out ν) 1 (seqValueBegin w s) s := by
  simp only [seqValueBegin]
  split
  · exact (w_grows hw _ { s with tagged := false }).same rfl
  · exact keep rfl

theorem seqEnd_grows (s : St ω) : Grows (out ν) 1 (seqEnd w s) s := (w_grows hw _ { s with empty := false }).same rfl

omit hw in
theorem index_len {m : Meta} {i : Int} (h : ixI64 m.index = some i) : utf8Len (intDec i) ≤ m.bytes := by
  rw [ixI64_eq] at h
  cases hi : m.index with
  | none => rw [hi] at h; cases h
  | some j =>
    rw [hi] at h
    simp only [Option.bind_some] at h
    split at h
    · cases h; simp [Meta.bytes, hi]
    · cases h

omit hw in
theorem label_len {m : Meta} {l : Label} (h : m.label = some l) : utf8Len l.text ≤ m.bytes := by simp [Meta.bytes, h]

theorem tagBegin_grows (m : Meta) (s : St ω) : Grows (out ν) (6 * m.bytes + 5) (tagBegin w m s) s := by
  simp only [tagBegin]
  split
  · refine Grows.same (s' := { s with tagged := false }) ?_ rfl
    split
    · rename_i l hl
      have := label_len hl
      exact Grows.mono ((mapBegin_grows hw _).bind fun s => (mapKeyBegin_grows hw s).bind fun s =>
        (wr_grows (s := s) (escapeStr_grows hw l.text _)).bind fun s => mapKeyEnd_grows hw s) (by omega)
    · split
      · rename_i i hi
        have := index_len hi
        exact Grows.mono ((mapBegin_grows hw _).bind fun s => (mapKeyBegin_grows hw s).bind fun s =>
          (scalar_grows hw _ s).bind fun s => mapKeyEnd_grows hw s) (by omega)
      · exact (grows_ok rfl).mono (Nat.zero_le _)
  · exact (grows_ok rfl).mono (Nat.zero_le _)

omit hw in
theorem tagEnd_grows (m : Meta) (s : St ω) : Grows (out ν) 0 (tagEnd m s) s := grows_ok rfl

theorem tagStep_grows (m : Meta) (s : St ω) : Grows (out ν) (6 * m.bytes + 8) (tagStep w m s) s := by
  simp only [tagStep]
  refine Grows.same (s' := { s with tagged := false, empty := false }) ?_ rfl
  split
  · exact (scalar_grows hw _ _).mono (show 4 ≤ _ by omega)
  · split
    · rename_i l hl
      have := label_len hl
      exact Grows.mono ((textBegin_grows hw _).bind fun s => (textFragment_grows hw _ s).bind fun s => textEnd_grows hw s) (by omega)
    · split
      · rename_i i hi
        have := index_len hi
        exact (scalar_grows hw _ _).mono (by omega)
      · exact (scalar_grows hw _ _).mono (show 4 ≤ _ by omega)

theorem taggedBegin_grows (m : Meta) (s : St ω) : Grows (out ν) (6 * m.bytes + 5) (taggedBegin w m s) s := by
  simp only [taggedBegin]
  generalize hs1 : (if m.tag = some tags.JSON_TEXT then { s with handler := some .native }
    else if m.tag = some tags.JSON_VALUE then { s with quoted := false, handler := some .native }
    else if m.tag = some tags.NUMBER then
      { s with quoted := false, handler := if s.handler.isNone then some (.number {}) else s.handler }
    else if m.tag = some tags.JSON_NUMBER then { s with quoted := false, handler := some .native }
    else s : St ω) = s1
  have h1 : s1.out = s.out := by
    subst hs1
    split
    · rfl
    · split
      · rfl
      · split
        · rfl
        · split <;> rfl
  exact Grows.same (s' := s1) (Grows.bind (m := 0) (tagBegin_grows hw m s1) fun _ => keep rfl) (congrArg ν h1)

theorem tagStepIf_grows (m : Meta) (s : St ω) :
    Grows (out ν) (6 * m.bytes + 8) (if s.empty then tagStep w m s else .ok s) s := by
  split
  · exact tagStep_grows hw m s
  · exact (grows_ok rfl).mono (Nat.zero_le _)

theorem taggedEnd_grows (m : Meta) (s : St ω) : Grows (out ν) (6 * m.bytes + 9) (taggedEnd w m s) s := by
  simp only [taggedEnd]
  refine Grows.mono (n := 1 + ((6 * m.bytes + 8) + 0)) (Grows.bind ?_ fun s => (tagStepIf_grows hw m s).bind fun s => tagEnd_grows m s) (by omega)
  split
  · exact keep rfl
  · split
    · exact keep rfl
    · split
      · split
        · rename_i n _
          refine Grows.same (s' := { s with quoted := true, handler := none }) (wr_grows ?_) rfl
          rw [numEnd]
          split
          · exact hw ['0'] _
          · exact (grows_ok rfl).mono (Nat.zero_le _)
        · exact keep rfl
      · split
        · exact keep rfl
        · exact keep rfl

theorem recordValueBegin_grows (l : Label) (s : St ω) : Grows (out ν) (6 * utf8Len l.text + 4) (recordValueBegin w l s) s := by
  simp only [recordValueBegin]
  refine Grows.same (s' := { s with tagged := false }) ?_ rfl
  refine Grows.mono (n := 2 + (6 * utf8Len l.text + 2)) (Grows.bind ?_ fun s => Grows.bind ?_ fun s => w_grows hw _ s) (by omega)
  · split
    · exact w_grows hw _ _
    · exact (w_grows hw ['"'] _).mono (by decide)
  · split
    · exact (w_grows hw _ _).mono (by omega)
    · exact wr_grows (escapeStr_grows hw _ _)

/-- What a call costs. -/
def cost (env : Env) (t : Token) : Nat := 6 * t.bytes env.f32 env.f64 + 9

theorem step_grows (env : Env) (t : Token) (s : St ω) : Grows (out ν) (cost env t) (step w env t s) s := by
  have fail : ∀ n : Nat, Grows (out ν) n (.err () s : Res Unit (St ω)) s := fun n => Nat.le_add_right (ν s.out) _
  cases t with
  | null => exact (scalar_grows hw _ s).mono (show 4 ≤ 9 by omega)
  | bool b =>
    refine (scalar_grows hw _ s).mono ?_
    cases b
    · exact (show 5 ≤ 9 by omega)
    · exact (show 4 ≤ 9 by omega)
  | int t v => exact (scalar_grows hw _ s).mono (show _ ≤ 6 * utf8Len (intDec v) + 9 by omega)
  | f32 b =>
    refine (scalar_grows hw _ s).mono (show _ ≤ 6 * utf8Len (env.f32 b) + 9 from ?_)
    split
    · omega
    · exact Nat.le_trans (by decide) (Nat.le_add_left 9 _)
  | f64 b =>
    refine (scalar_grows hw _ s).mono (show _ ≤ 6 * utf8Len (env.f64 b) + 9 from ?_)
    split
    · omega
    · exact Nat.le_trans (by decide) (Nat.le_add_left 9 _)
  | textBegin n => exact (textBegin_grows hw s).mono (show 1 ≤ 9 by omega)
  | textFragmentComputed v => exact (textFragment_grows hw v s).mono (show _ ≤ 6 * utf8Len v + 9 by omega)
  | textEnd => exact (textEnd_grows hw s).mono (show 1 ≤ 9 by omega)
  | mapBegin n => exact (mapBegin_grows hw s).mono (show 1 ≤ 9 by omega)
  | mapKeyBegin => exact (mapKeyBegin_grows hw s).mono (show 2 ≤ 9 by omega)
  | mapKeyEnd => exact (mapKeyEnd_grows hw s).mono (show 2 ≤ 9 by omega)
  | mapEnd => exact (mapEnd_grows hw s).mono (show 1 ≤ 9 by omega)
  | seqBegin n => exact (seqBegin_grows hw s).mono (show 1 ≤ 9 by omega)
  | seqValueBegin => exact (seqValueBegin_grows hw s).mono (show 1 ≤ 9 by omega)
  | tupleValueBegin t i => exact (seqValueBegin_grows hw s).mono (show 1 ≤ 9 by omega)
  | seqEnd => exact (seqEnd_grows hw s).mono (show 1 ≤ 9 by omega)
  | enumBegin m =>
    exact Grows.mono (n := 6 * m.bytes + 5 + 0) ((tagBegin_grows hw m s).bind fun s => keep rfl) (show _ ≤ 6 * m.bytes + 9 by omega)
  | enumEnd m =>
    refine Grows.mono (n := 6 * m.bytes + 8 + 1) ((tagStepIf_grows hw m s).bind fun s => ?_) (show _ ≤ 6 * m.bytes + 9 by omega)
    split
    · exact mapEnd_grows hw s
    · exact (tagEnd_grows m s).mono (by omega)
  | taggedBegin m => exact (taggedBegin_grows hw m s).mono (show _ ≤ 6 * m.bytes + 9 by omega)
  | taggedEnd m => exact taggedEnd_grows hw m s
  | tag m => exact (tagStep_grows hw m s).mono (show _ ≤ 6 * m.bytes + 9 by omega)
  | recordBegin m n =>
    exact ((tagBegin_grows hw m s).bind fun s => mapBegin_grows hw s).mono (show _ ≤ 6 * m.bytes + 9 by omega)
  | recordValueBegin t l => exact (recordValueBegin_grows hw l s).mono (show _ ≤ 6 * utf8Len l.text + 9 by omega)
  | recordEnd m => exact ((mapEnd_grows hw s).bind fun s => tagEnd_grows m s).mono (show _ ≤ 6 * m.bytes + 9 by omega)
  | tupleBegin m n =>
    exact ((tagBegin_grows hw m s).bind fun s => seqBegin_grows hw s).mono (show _ ≤ 6 * m.bytes + 9 by omega)
  | tupleEnd m => exact ((seqEnd_grows hw s).bind fun s => tagEnd_grows m s).mono (show _ ≤ 6 * m.bytes + 9 by omega)
  | mapValueBegin | mapValueEnd | seqValueEnd | recordValueEnd _ _ | tupleValueEnd _ _ => exact keep rfl
  | _ => exact fail _

/-- The bytes of a call that the formatter takes apart. -/
theorem bytes_grows (env : Env) (b : Bytes) (s : St ω) :
    Grows (out ν) (4 * b.length) (run (step w env) (b.flatMap fun x => [.seqValueBegin, .int .u8 x.toNat, .seqValueEnd]) s) s := by
  induction b generalizing s with
  | nil => exact grows_ok rfl
  | cons x b ih =>
    have hx : utf8Len (intDec x.toNat) ≤ 3 := by
      have : ∀ n < 256, utf8Len (intDec (n : Nat)) ≤ 3 := by decide +kernel
      exact this _ x.toNat_lt
    rw [List.flatMap_cons]
    simp only [List.cons_append, List.nil_append, run_cons, List.length_cons]
    exact Grows.mono (n := 1 + (3 + (0 + 4 * b.length)))
      ((seqValueBegin_grows hw s).bind fun s => ((scalar_grows hw _ s).mono hx).bind fun s => Grows.bind (grows_ok rfl) fun s => ih s) (by omega)

theorem call_grows (env : Env) (t : Token) (s : St ω) : Grows (out ν) (cost env t) (call w env t s) s := by
  have single : ∀ t', cost env t' ≤ cost env t → Grows (out ν) (cost env t) (run (step w env) [t'] s) s := by
    intro t' ht
    rw [run_cons]
    exact Grows.mono (n := cost env t' + 0) ((step_grows hw env t' s).bind fun s => grows_ok rfl) ht
  rw [call]
  cases t with
  | int ty v => cases ty <;> exact single _ (Nat.le_refl _)
  | binaryFragment b =>
    exact (bytes_grows hw env b s).mono (show _ ≤ 6 * b.length + 9 by omega)
  | binaryFragmentComputed b =>
    exact (bytes_grows hw env b s).mono (show _ ≤ 6 * b.length + 9 by omega)
  | tagHint t => exact (grows_ok rfl).mono (Nat.zero_le _)
  | _ => exact single _ (Nat.le_refl _)

theorem toFmt_grows (env : Env) (p : Prog) (o : ω) :
    ν (toFmt w env p o).2 ≤ ν o + ((received (stepP w env) p .base ({ out := o }, false)).map (cost env)).sum := by
  have hg : stepP w env = guarded (call w env) := by
    funext t s
    simp only [stepP, guarded]
    split
    · rfl
    · cases call w env t s.1 <;> rfl
  have := grows_exec (call w env) (cost env) (call_grows hw env) p .base { out := o }
  rw [← hg] at this
  have h2 : (toFmt w env p o).2 = (exec (stepP w env) p .base ({ out := o }, false)).1.1.out := by
    simp only [toFmt]
    split
    · rfl
    · split <;> rfl
  rw [h2]
  exact this

end
end Sval.Json
