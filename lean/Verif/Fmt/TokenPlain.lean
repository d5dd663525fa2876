import Verif.Fmt.TokenRun

set_option autoImplicit false

/-!
# Writers that keep the provided methods
-/

namespace Sval.Fmt

/-- The methods other than `write_token` and those for numbers of a fixed type. -/
def Call.derived : Call → Bool
  | .token _ _ | .int _ _ | .f32 _ | .f64 _ => false
  | _ => true

/-- An implementation that writes whole tokens as `w` does. -/
structure Plain {ω : Type} (W : Impl ω) (env : Env) (w : Writer ω) : Prop where
  token : ∀ k t o, invoke W env (.token k t) o = w k t o
  int : ∀ t v o, invoke W env (.int t v) o = w .number (intDec v) o
  f32 : ∀ b o, invoke W env (.f32 b) o = w .number (env.f32 b) o
  f64 : ∀ b o, invoke W env (.f64 b) o = w .number (env.f64 b) o
  derived : ∀ c, c.derived = true → W.over c = none

section
variable {ω : Type} {W : Impl ω} {env : Env} {w : Writer ω} (h : Plain W env w)
include h

theorem Plain.body (c : Call) (hc : c.derived = true) (o : ω) :
    invoke W env c o = calls (invoke W env) (provided env c) o := by
  rw [invoke_eq, h.derived c hc]
  cases c <;> first | rfl | simp [Call.derived] at hc

theorem Plain.number (t : Text) : invoke W env (.number t) = w .number t := by
  funext o; rw [h.body _ rfl]; simp only [provided, calls_one, h.token]
theorem Plain.atom (t : Text) : invoke W env (.atom t) = w .atom t := by
  funext o; rw [h.body _ rfl]; simp only [provided, calls_one, h.token]
theorem Plain.ident (t : Text) : invoke W env (.ident t) = w .ident t := by
  funext o; rw [h.body _ rfl]; simp only [provided, calls_one, h.token]
theorem Plain.punct (t : Text) : invoke W env (.punct t) = w .punct t := by
  funext o; rw [h.body _ rfl]; simp only [provided, calls_one, h.token]
theorem Plain.ws (t : Text) : invoke W env (.ws t) = w .ws t := by
  funext o; rw [h.body _ rfl]; simp only [provided, calls_one, h.token]
theorem Plain.textQuote : invoke W env .textQuote = w .text (t! "\"") := by
  funext o; rw [h.body _ rfl]; simp only [provided, calls_one, h.token]
theorem Plain.type (t : Text) : invoke W env (.type t) = w .ident t := by
  funext o; rw [h.body _ rfl]; simp only [provided, calls_one, h.ident]
theorem Plain.field (t : Text) : invoke W env (.field t) = w .ident t := by
  funext o; rw [h.body _ rfl]; simp only [provided, calls_one, h.ident]
theorem Plain.null : invoke W env .null = w .atom (t! "()") := by
  funext o; rw [h.body _ rfl]; simp only [provided, calls_one, h.atom]
theorem Plain.bool (b : Bool) : invoke W env (.bool b) = w .atom (if b then t! "true" else t! "false") := by
  funext o; rw [h.body _ rfl]; simp only [provided, calls_one, h.atom]
theorem Plain.tupleType (t : Text) : invoke W env (.tupleType t) = w .ident t := by
  funext o; rw [h.body _ rfl]; simp only [provided, calls_one, h.type]
theorem Plain.mapBegin : invoke W env .mapBegin = w .punct (t! "{") := by
  funext o; rw [h.body _ rfl]; simp only [provided, calls_one, h.punct]
theorem Plain.recordBegin : invoke W env .recordBegin = w .punct (t! "{") := by
  funext o; rw [h.body _ rfl]; simp only [provided, calls_one, h.punct]
theorem Plain.seqBegin : invoke W env .seqBegin = w .punct (t! "[") := by
  funext o; rw [h.body _ rfl]; simp only [provided, calls_one, h.punct]
theorem Plain.tupleBegin : invoke W env .tupleBegin = w .punct (t! "(") := by
  funext o; rw [h.body _ rfl]; simp only [provided, calls_one, h.punct]
theorem Plain.seqEnd (b : Bool) : invoke W env (.seqEnd b) = w .punct (t! "]") := by
  funext o; rw [h.body _ rfl]; simp only [provided, calls_one, h.punct]
theorem Plain.tupleEnd (b : Bool) : invoke W env (.tupleEnd b) = w .punct (t! ")") := by
  funext o; rw [h.body _ rfl]; simp only [provided, calls_one, h.punct]

omit h in
theorem bind_ret {ω : Type} (r : Res Unit ω) : (r.bind fun o => .ok o) = r := by cases r <;> rfl

theorem Plain.mapKeyBegin (b : Bool) : invoke W env (.mapKeyBegin b) = writeMapKeyBegin w b := by
  funext o; rw [h.body _ rfl]
  cases b <;> simp [provided, calls, writeMapKeyBegin, h.punct, h.ws]
theorem Plain.mapValueBegin (b : Bool) : invoke W env (.mapValueBegin b) = writeMapValueBegin w := by
  funext o; rw [h.body _ rfl]
  simp [provided, calls, writeMapValueBegin, h.punct, h.ws]
theorem Plain.mapEnd (b : Bool) : invoke W env (.mapEnd b) = writeMapEnd w b := by
  funext o; rw [h.body _ rfl]
  cases b <;> simp [provided, calls, writeMapEnd, h.punct, h.ws]
theorem Plain.recordEnd (b : Bool) : invoke W env (.recordEnd b) = writeMapEnd w b := by
  funext o; rw [h.body _ rfl]
  cases b <;> simp [provided, calls, writeMapEnd, h.punct, h.ws]
theorem Plain.recordType (t : Text) : invoke W env (.recordType t) = writeRecordType w t := by
  funext o; rw [h.body _ rfl]
  simp [provided, calls, writeRecordType, h.type, h.ws]
theorem Plain.recordValueBegin (t : Text) (b : Bool) : invoke W env (.recordValueBegin t b) = writeRecordValueBegin w t b := by
  funext o; rw [h.body _ rfl]
  cases b <;> simp [provided, calls, writeRecordValueBegin, h.punct, h.ws, h.field]
theorem Plain.seqValueBegin (b : Bool) : invoke W env (.seqValueBegin b) = writeSeqValueBegin w b := by
  funext o; rw [h.body _ rfl]
  cases b <;> simp [provided, calls, writeSeqValueBegin, h.punct, h.ws]
theorem Plain.tupleValueBegin (b : Bool) : invoke W env (.tupleValueBegin b) = writeSeqValueBegin w b := by
  funext o; rw [h.body _ rfl]
  cases b <;> simp [provided, calls, writeSeqValueBegin, h.punct, h.ws]

theorem Plain.text (t : Text) : invoke W env (.text t) = writeText w env t := by
  have hf : ∀ p o, calls (invoke W env) (flushed p) o = flush w p o := by
    intro p o
    unfold flushed flush
    split
    · rfl
    · rw [calls_one, h.token]
  have hc : ∀ (cs : Text) o, calls (invoke W env) (cs.map fun c => .token .text [c]) o = writeChars w cs o := by
    intro cs
    induction cs with
    | nil => intro o; rfl
    | cons c cs ih => intro o; simp only [List.map_cons, calls, writeChars, h.token, ih]
  funext o
  rw [h.body _ rfl]
  simp only [provided, writeText]
  generalize ([] : Text) = p
  induction t generalizing p o with
  | nil => exact hf p o
  | cons c cs ih =>
    unfold escaped escapeLoop
    split
    · simp only [calls_append, hf, hc, Res.bind_assoc, ih]
    · exact ih o _

theorem Plain.bytes (b : Bytes) (s : St ω) : binaryCalls (invoke W env) b s = binaryBytes w b s := by
  induction b generalizing s with
  | nil => rfl
  | cons b bs ih =>
    have hi : invoke W env (.int .u8 b.toNat) = w .number (intDec b.toNat) := by funext o; exact h.int _ _ o
    simp only [binaryCalls, binaryBytes, h.seqValueBegin, ih, hi]

theorem Plain.step (t : Token) (s : St ω) : stepCall (invoke W env) t s = Fmt.step w env t s := by
  have hi : ∀ t v, invoke W env (.int t v) = w .number (intDec v) := fun t v => funext fun o => h.int t v o
  have h32 : ∀ b, invoke W env (.f32 b) = w .number (env.f32 b) := fun b => funext fun o => h.f32 b o
  have h64 : ∀ b, invoke W env (.f64 b) = w .number (env.f64 b) := fun b => funext fun o => h.f64 b o
  have ht : ∀ m, tagCall (invoke W env) m s = tag w m s := by
    intro m
    unfold tagCall tag
    cases m.label <;> simp only [h.type, h.null]
  have two : ∀ l, calls (invoke W env) [.tupleType l, .tupleBegin] = fun o => (w .ident l o).bind fun o => w .punct (t! "(") o := by
    intro l; funext o; simp only [calls, h.tupleType, h.tupleBegin, bind_ret]
  cases t with
  | binaryFragmentComputed b => exact h.bytes b s
  | taggedBegin m => cases hm : m.label <;> simp only [stepCall, Fmt.step, hm, two]
  | taggedEnd m => cases hm : m.label <;> simp only [stepCall, Fmt.step, hm, h.tupleEnd]
  | recordBegin m n =>
    cases hm : m.label with
    | none => simp only [stepCall, Fmt.step, hm, h.recordBegin, Res.bind_ok]
    | some l =>
      simp only [stepCall, Fmt.step, hm]
      congr 1
      funext o
      simp only [calls, h.recordType, h.recordBegin, bind_ret]
  | tupleBegin m n =>
    cases hm : m.label with
    | none => simp only [stepCall, Fmt.step, hm, h.tupleBegin, writeTupleType, Res.bind_ok]
    | some l => simp only [stepCall, Fmt.step, hm, two, writeTupleType]
  | _ =>
    simp only [stepCall, Fmt.step, hi, h32, h64, ht, h.null, h.bool, h.textQuote, h.number, h.text, h.seqBegin, h.seqEnd, h.mapBegin,
      h.mapKeyBegin, h.mapValueBegin, h.mapEnd, h.seqValueBegin, h.recordValueBegin, h.recordEnd, h.tupleValueBegin, h.tupleEnd]

/-- It behaves like the writer of `Fmt.Model`. -/
theorem Plain.toWrite (p : Prog) (o : ω) : toTokenWrite W env p o = Fmt.toWrite w env p o := by
  have : callW (invoke W env) = call w env := by
    funext t s
    simp only [callW, call]
    congr 1
    funext t s
    exact h.step t s
  simp only [toTokenWrite, streamTo, Fmt.toWrite, this]
  cases drive (call w env) p (St.new o) <;> rfl
end

/-! ## What the provided methods write -/

theorem spelled_escaped (env : Env) (p t : Text) :
    (escaped env p t).flatMap (spelled env) = p ++ escape env t := by
  have hf : ∀ p, (flushed p).flatMap (spelled env) = p := by
    intro p; unfold flushed; split
    · next h => simp [h]
    · simp [spelled]
  have hs : ∀ cs : Text, (cs.map fun c => Call.token .text [c]).flatMap (spelled env) = cs := by
    intro cs
    induction cs with
    | nil => rfl
    | cons c cs ih => simp only [List.map_cons, List.flatMap_cons, spelled, ih]; rfl
  induction t generalizing p with
  | nil => simp [escaped, hf, escape]
  | cons c cs ih =>
    unfold escaped
    split
    · simp only [List.flatMap_append, hf, hs, ih]
      simp [escape]
    · next hl =>
      rw [ih]
      simp [escape, escapeDebug_short c hl]

theorem spelled_provided (env : Env) (c : Call) (hc : ∀ k t, c ≠ .token k t) :
    (provided env c).flatMap (spelled env) = spelled env c := by
  cases c with
  | token k t => exact absurd rfl (hc k t)
  | text t => simpa [provided, spelled] using spelled_escaped env [] t
  | mapKeyBegin b => cases b <;> rfl
  | mapEnd b => cases b <;> rfl
  | recordEnd b => cases b <;> rfl
  | seqValueBegin b => cases b <;> rfl
  | tupleValueBegin b => cases b <;> rfl
  | recordValueBegin f b => cases b <;> simp [provided, spelled]
  | _ => simp [provided, spelled]

/-- If the overrides add to a view of the output what the provided bodies write, then so do all calls. -/
theorem spelled_invoke {ω : Type} (W : Impl ω) (env : Env) (view : ω → Text)
    (hs : ∀ t o o', W.str t o = .ok o' → view o' = view o ++ t)
    (ho : ∀ c f, W.over c = some f → ∀ o o', f o = .ok o' → view o' = view o ++ spelled env c)
    (c : Call) (o o' : ω) (h : invoke W env c o = .ok o') : view o' = view o ++ spelled env c := by
  unfold invoke at h
  generalize hn : 4 = n at h
  clear hn
  induction n generalizing c o o' with
  | zero => cases h
  | succ n ih =>
    have hl : ∀ L o o', calls (invokeN W env n) L o = .ok o' → view o' = view o ++ L.flatMap (spelled env) := by
      intro L
      induction L with
      | nil => intro o o' h; cases h; simp
      | cons c L ihL =>
        intro o o' h
        simp only [calls] at h
        cases h1 : invokeN W env n c o with
        | ok o1 => rw [h1] at h; rw [ihL o1 o' h, ih c o o1 h1]; simp
        | err e o1 => rw [h1] at h; cases h
        | panic => rw [h1] at h; cases h
    simp only [invokeN] at h
    cases hov : W.over c with
    | some f => rw [hov] at h; exact ho c f hov o o' h
    | none =>
      rw [hov] at h
      by_cases hc : ∃ k t, c = .token k t
      · obtain ⟨k, t, rfl⟩ := hc
        exact hs t o o' h
      · have hc' : ∀ k t, c ≠ .token k t := fun k t e => hc ⟨k, t, e⟩
        have h' : calls (invokeN W env n) (provided env c) o = .ok o' := by
          cases c <;> first | exact h | exact absurd rfl (hc' _ _)
        rw [hl _ o o' h', spelled_provided env c hc']

theorem spelled_calls {ω : Type} (W : Impl ω) (env : Env) (view : ω → Text)
    (hs : ∀ t o o', W.str t o = .ok o' → view o' = view o ++ t)
    (ho : ∀ c f, W.over c = some f → ∀ o o', f o = .ok o' → view o' = view o ++ spelled env c)
    (L : List Call) (o o' : ω) (h : calls (invoke W env) L o = .ok o') : view o' = view o ++ L.flatMap (spelled env) := by
  induction L generalizing o with
  | nil => cases h; simp
  | cons c L ih =>
    simp only [calls] at h
    cases h1 : invoke W env c o with
    | ok o1 => rw [h1] at h; rw [ih o1 h, spelled_invoke W env view hs ho c o o1 h1]; simp
    | err e o1 => rw [h1] at h; cases h
    | panic => rw [h1] at h; cases h

/-! ## What a call keeps -/

section
variable {ω : Type} {inv : Call → ω → Res Unit ω} {P : ω → Prop} (hi : ∀ c, Keeps P (inv c))
include hi

theorem keeps_calls (L : List Call) : Keeps P (calls inv L) := by
  induction L with
  | nil => exact Keeps.ok
  | cons c L ih => exact (hi c).bind ih

theorem keeps_binaryCalls (b : Bytes) (s : St ω) (h : P s.out) : KeepsS P (binaryCalls inv b s) := by
  induction b generalizing s with
  | nil => exact keepsS_ok s h
  | cons b bs ih =>
    intro s' hs
    simp only [binaryCalls] at hs
    cases h1 : put (inv (.seqValueBegin s.empty)) s with
    | err e s1 => simp [h1] at hs
    | panic => simp [h1] at hs
    | ok s1 =>
      simp only [h1, Res.bind_ok] at hs
      have p1 : P s1.out := keepsS_put (hi _) s h s1 h1
      cases h2 : put (inv (.int .u8 b.toNat)) s1 with
      | err e s2 => simp [h2] at hs
      | panic => simp [h2] at hs
      | ok s2 =>
        simp only [h2, Res.bind_ok] at hs
        exact ih { s2 with empty := false } (keepsS_put (hi _) s1 p1 s2 h2) s' hs

theorem keeps_stepCall (t : Token) (s : St ω) (h : P s.out) : KeepsS P (stepCall inv t s) := by
  have hput : ∀ c (s' : St ω), s'.out = s.out → KeepsS P (put (inv c) s') := fun c s' e => keepsS_put (hi c) s' (e ▸ h)
  have hputs : ∀ L (s' : St ω), s'.out = s.out → KeepsS P (put (calls inv L) s') := fun L s' e => keepsS_put (keeps_calls hi L) s' (e ▸ h)
  have hok : ∀ (s' : St ω), s'.out = s.out → KeepsS P (.ok s') := fun s' e => keepsS_ok s' (e ▸ h)
  have htag : ∀ m, KeepsS P (tagCall inv m s) := by
    intro m; unfold tagCall; dsimp only; split <;> exact hput _ _ rfl
  cases t with
  | binaryFragmentComputed b => exact keeps_binaryCalls hi b s h
  | _ =>
    simp only [stepCall]
    repeat' split
    all_goals first
      | exact hput _ _ rfl
      | exact hputs _ _ rfl
      | exact hok _ rfl
      | exact htag _
      | (intro s' hs; cases hs)

theorem keeps_callW (t : Token) (s : St ω) (h : P s.out) : KeepsS P (callW inv t s) := by
  unfold callW
  generalize Low.tok fmtCaps t = ts
  induction ts generalizing s with
  | nil => exact keepsS_ok s h
  | cons t ts ih =>
    intro s' hs
    rw [run_cons] at hs
    cases h1 : stepCall inv t s with
    | ok s1 => rw [h1] at hs; exact ih s1 (keeps_stepCall hi t s h s1 h1) s' hs
    | err e s1 => rw [h1] at hs; cases hs
    | panic => rw [h1] at hs; cases hs
end

/-! ## Leaves -/

theorem invoke_leaves {ω : Type} (W : Impl ω) (env : Env) (named : Bool) (hW : ∀ c, c.leaf named = false → W.over c = none)
    (c : Call) (o : ω) : invoke W env c o = calls (invoke W env) (leaves named env c) o := by
  have one : ∀ d : Call, invoke W env d o = calls (invoke W env) [d] o := fun d => (calls_one _ _ _).symm
  have body : ∀ d : Call, d.leaf named = false → ∀ o, invoke W env d o = calls (invoke W env) (provided env d) o := by
    intro d hd o
    rw [invoke_eq, hW d hd]
    cases d <;> first | rfl | simp [Call.leaf] at hd
  have hty : ∀ t, invoke W env (.type t) = invoke W env (if named then .type t else .ident t) := by
    intro t; funext o
    cases named with
    | true => rfl
    | false => rw [body _ rfl]; exact calls_one _ _ _
  have hfi : ∀ t, invoke W env (.field t) = invoke W env (if named then .field t else .ident t) := by
    intro t; funext o
    cases named with
    | true => rfl
    | false => rw [body _ rfl]; exact calls_one _ _ _
  cases c
  case type t => rw [hty]; exact one _
  case field t => rw [hfi]; exact one _
  case tupleType t => rw [body _ rfl]; simp only [provided, leaves, calls, hty]
  case recordType t => rw [body _ rfl]; simp only [provided, leaves, calls, hty]
  case recordValueBegin f b => rw [body _ rfl]; cases b <;> simp [provided, leaves, calls, hfi]
  case mapKeyBegin b => rw [body _ rfl]; cases b <;> rfl
  case mapEnd b => rw [body _ rfl]; cases b <;> rfl
  case recordEnd b => rw [body _ rfl]; cases b <;> rfl
  case seqValueBegin b => rw [body _ rfl]; cases b <;> rfl
  case tupleValueBegin b => rw [body _ rfl]; cases b <;> rfl
  all_goals first | exact one _ | (rw [body _ rfl]; rfl)

theorem calls_leaves {ω : Type} (W : Impl ω) (env : Env) (named : Bool) (hW : ∀ c, c.leaf named = false → W.over c = none)
    (L : List Call) (o : ω) : calls (invoke W env) L o = calls (invoke W env) (L.flatMap (leaves named env)) o := by
  induction L generalizing o with
  | nil => rfl
  | cons c L ih =>
    rw [List.flatMap_cons, calls_append]
    simp only [calls, invoke_leaves W env named hW c, ih]

end Sval.Fmt
