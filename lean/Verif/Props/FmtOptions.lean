import Verif.Fmt.Formatter
import Verif.Props.FmtToken

set_option autoImplicit false
set_option linter.unusedSectionVars false

/-!
# Properties of `ToFmt` with formatting options: C73, C74
-/

namespace Sval

open Fmt

/-! ## What the options ask for -/

/-- The sign of a number. -/
def signOf (opts : Opts) (v : Int) : Text :=
  if v < 0 then ['-'] else if opts.plus then ['+'] else []

/-- An integer, formatted with some options: sign and digits, and if they are too short, zeros between the two or
the fill character on one or on both sides. -/
def numeral (opts : Opts) (v : Int) : Text :=
  let sign := signOf opts v
  let digits := natDec v.natAbs
  let n := opts.width - (sign ++ digits).length
  if opts.zero then sign ++ List.replicate n '0' ++ digits
  else
    match opts.align with
    | some .left => sign ++ digits ++ List.replicate n opts.fill
    | some .center => List.replicate (n / 2) opts.fill ++ (sign ++ digits) ++ List.replicate (n - n / 2) opts.fill
    | some .right | none => List.replicate n opts.fill ++ (sign ++ digits)

/-- What a call writes to a formatter with some options: only numbers see them. -/
def spelledWith (opts : Opts) (fl : Floats) (env : Fmt.Env) : Call → Text
  | .int _ v => numeral opts v
  | .f32 b => (fl.f32 opts b).flatten
  | .f64 b => (fl.f64 opts b).flatten
  | c => spelled env c

/-! ## Lemmas -/

theorem puts'_onto (L : List Text) (o : Text) : puts' onto L o = .ok (o ++ L.flatten) := by
  induction L generalizing o with
  | nil => simp [puts']
  | cons t L ih => simp only [puts', onto, Res.bind_ok, List.flatten_cons]; rw [ih]; simp

theorem displayInt_text (opts : Opts) (v : Int) : (displayInt opts v).flatten = numeral opts v := by
  obtain ⟨fill, align, width, precision, plus, zero, alternate⟩ := opts
  have hz : decide (0 ≤ v) = !decide (v < 0) := by
    by_cases h : v < 0 <;> simp [h] <;> omega
  unfold displayInt padIntegral numeral signOf padding writePrefix
  rw [hz]
  by_cases hv : v < 0 <;> cases plus <;> cases alternate <;> cases zero <;> rcases align with _ | _ | _ | _ <;>
    simp only [hv, decide_true, decide_false, Bool.not_true, Bool.not_false, if_true, if_false, Bool.false_eq_true, reduceCtorEq,
      Option.getD_some, Option.getD_none, List.length_nil, Nat.add_zero] <;>
    split <;>
    simp [*] <;> omega

/-- A call for a number. -/
def numeric : Call → Bool
  | .int _ _ | .f32 _ | .f64 _ => true
  | _ => false

theorem provided_plain (env : Fmt.Env) (c : Call) (h : numeric c = false) : ∀ d ∈ provided env c, numeric d = false := by
  intro d hd
  cases c with
  | text t =>
    have := escaped_rank env [] t d hd
    cases d <;> first | rfl | simp [Call.rank] at this
  | int t v => cases h
  | f32 b => cases h
  | f64 b => cases h
  | _ =>
    simp only [provided] at hd
    try split at hd
    all_goals simp at hd
    all_goals try (rcases hd with hd | hd | hd | hd | hd)
    all_goals simp_all [numeric]

theorem spelledWith_plain (opts : Opts) (fl : Floats) (env : Fmt.Env) (c : Call) (h : numeric c = false) :
    spelledWith opts fl env c = spelled env c := by
  cases c <;> first | rfl | cases h

theorem flatMap_congr' {α β : Type} (L : List α) (f g : α → List β) (h : ∀ x ∈ L, f x = g x) : L.flatMap f = L.flatMap g := by
  induction L with
  | nil => rfl
  | cons x L ih =>
    rw [List.flatMap_cons, List.flatMap_cons, h x (by simp), ih fun y hy => h y (by simp [hy])]

theorem calls_onto (inv : Call → Text → Res Unit Text) (sp : Call → Text) (L : List Call)
    (h : ∀ c ∈ L, ∀ o, inv c o = .ok (o ++ sp c)) (o : Text) : calls inv L o = .ok (o ++ L.flatMap sp) := by
  induction L generalizing o with
  | nil => simp [calls]
  | cons c L ih =>
    simp only [calls, h c (by simp), Res.bind_ok]
    rw [ih fun d hd => h d (by simp [hd])]
    simp

theorem formatter_invoke (opts : Opts) (fl : Floats) (env : Fmt.Env) (c : Call) (o : Text) :
    invoke (formatter opts fl onto) env c o = .ok (o ++ spelledWith opts fl env c) := by
  have plain : ∀ n c, c.rank < n → numeric c = false → ∀ o,
      invoke (formatter opts fl onto) env c o = .ok (o ++ spelled env c) := by
    intro n
    induction n with
    | zero => intro c h; omega
    | succ n ih =>
      intro c hr hc o
      by_cases ht : ∃ k t, c = .token k t
      · obtain ⟨k, t, rfl⟩ := ht
        rw [invoke_eq]; rfl
      · have ht' : ∀ k t, c ≠ .token k t := fun k t e => ht ⟨k, t, e⟩
        have e : invoke (formatter opts fl onto) env c o = calls (invoke (formatter opts fl onto) env) (provided env c) o := by
          rw [invoke_eq]
          cases c <;> first | exact absurd rfl (ht' _ _) | rfl | cases hc
        rw [e, calls_onto _ (spelled env) (provided env c) (fun d hd o => ih d
          (by have := provided_rank env c d hd; omega) (provided_plain env c hc d hd) o), spelled_provided env c ht']
  by_cases hc : numeric c = false
  · rw [plain _ c (Nat.lt_succ_self _) hc, spelledWith_plain opts fl env c hc]
  · rw [invoke_eq]
    cases c with
    | int t v => exact (puts'_onto _ o).trans (by rw [displayInt_text]; rfl)
    | f32 b => exact puts'_onto _ o
    | f64 b => exact puts'_onto _ o
    | _ => exact absurd rfl hc

/-! ## C73 -/

/-- C73. Formatting any value with any options: the numbers in it, and the bytes of binaries, are formatted as the options
ask, and everything else is as without options. -/
theorem C73 (opts : Opts) (fl : Floats) (env : Fmt.Env) (v : V) :
    format opts fl env (valueOf v) = some ((made v).flatMap (spelledWith opts fl env)) := by
  unfold format displayWith toFmt
  rw [C60_byRef, C60_exact, calls_onto _ _ _ fun c _ o => formatter_invoke opts fl env c o]
  simp [Res.outcome]

/-- C73. An integer by itself. -/
theorem C73_alone (opts : Opts) (fl : Floats) (env : Fmt.Env) (t : IntTy) (v : Int) :
    format opts fl env (valueOf (.int t v)) = some (numeral opts v) := by
  rw [C73]
  simp [made, shape, spelledWith]

theorem signOf_digits (opts : Opts) (v : Int) (h : opts.plus = false) : signOf opts v ++ natDec v.natAbs = intDec v := by
  unfold signOf intDec
  by_cases hv : v < 0 <;> simp [hv, h]

/-- C73. The text of an integer is as long as asked for, or as sign and digits need. -/
theorem C73_width (opts : Opts) (v : Int) :
    (numeral opts v).length = max opts.width ((signOf opts v).length + (natDec v.natAbs).length) := by
  unfold numeral
  simp only []
  split
  · simp; omega
  · split <;> simp <;> omega

/-- C73. The integer can be read back: what is not padding is its sign and its digits, in this order, with zeros between
them only if asked for. -/
theorem C73_read (opts : Opts) (v : Int) : ∃ l z r : Nat,
    numeral opts v = List.replicate l opts.fill ++ (signOf opts v ++ List.replicate z '0' ++ natDec v.natAbs) ++ List.replicate r opts.fill ∧
      (z = 0 ∨ opts.zero = true ∧ l = 0 ∧ r = 0) := by
  unfold numeral
  simp only []
  split
  · exact ⟨0, _, 0, by simp; rfl, .inr ⟨by assumption, rfl, rfl⟩⟩
  · split
    · exact ⟨0, 0, _, by simp; rfl, .inl rfl⟩
    · exact ⟨_, 0, _, by simp; rfl, .inl rfl⟩
    · exact ⟨_, 0, 0, by simp; rfl, .inl rfl⟩
    · exact ⟨_, 0, 0, by simp; rfl, .inl rfl⟩

/-- C73. Whatever the writer below does, and whether it fails: each method that is not for a number does the same with
all options, and just what it does in `stream_to_write`. -/
theorem C73_plain {ω : Type} (opts : Opts) (fl : Floats) (str : Text → ω → Res Unit ω) (env : Fmt.Env) (c : Call)
    (h : numeric c = false) (o : ω) : invoke (formatter opts fl str) env c o = invoke (generic env str) env c o := by
  have plain : ∀ n c, c.rank < n → numeric c = false → ∀ o,
      invoke (formatter opts fl str) env c o = invoke (generic env str) env c o := by
    intro n
    induction n with
    | zero => intro c h; omega
    | succ n ih =>
      intro c hr hc o
      rw [invoke_eq, invoke_eq]
      cases c with
      | int t v => cases hc
      | f32 b => cases hc
      | f64 b => cases hc
      | token k t => rfl
      | _ =>
        exact calls_congr _ _ _ (fun d hd o => ih d (by have := provided_rank env _ d hd; omega)
          (provided_plain env _ hc d hd) o) o
  exact plain _ c (Nat.lt_succ_self _) h o

/-- A record with a number, a binary, a text and a number in text. -/
def sampleO : V :=
  .record (lab (t! "R")) none [(none, Label.new (t! "x"), .int .i32 (-7)), (none, Label.new (t! "y"), .binary none [.computed [1, 200]]),
    (none, Label.new (t! "z"), .text none [.computed (t! "ab")]),
    (none, Label.new (t! "n"), .tagged { tag := some tags.NUMBER } (.text none [.computed (t! "12")]))]

/-- Floats that all look the same. -/
def noFloats : Floats := ⟨fun _ _ => [t! "1"], fun _ _ => [t! "1"]⟩

example : format { width := 4, zero := true } noFloats someEnv (valueOf sampleO) =
      some (t! "R { x: -007, y: [0001, 0200], z: \"ab\", n: 12 }") ∧
    format { width := 6, fill := '*', align := some .center, plus := true } noFloats someEnv (valueOf sampleO) =
      some (t! "R { x: **-7**, y: [**+1**, *+200*], z: \"ab\", n: 12 }") := by
  decide +kernel

/-! ## C74 -/

theorem numeral_default (v : Int) : numeral {} v = intDec v := by
  have := signOf_digits {} v rfl
  simp only [numeral, Nat.zero_sub, List.replicate_zero, List.nil_append, Bool.false_eq_true, if_false]
  exact this

/-- The call of the stream that a call for a float comes from. -/
def floatTok : Call → Option Token
  | .f32 b => some (.f32 b)
  | .f64 b => some (.f64 b)
  | _ => none

/-- Every float in these calls is in those. -/
def From (L : List Call) (T : List Token) : Prop := ∀ c ∈ L, ∀ t, floatTok c = some t → t ∈ T

theorem From.nil {T : List Token} : From [] T := by intro c h; cases h
theorem From.skip {c : Call} {L : List Call} {T : List Token} (hc : floatTok c = none) (h : From L T) : From (c :: L) T := by
  intro d hd t ht
  rcases List.mem_cons.mp hd with rfl | hd
  · rw [hc] at ht; cases ht
  · exact h d hd t ht
theorem From.app {L L' : List Call} {T : List Token} (h : From L T) (h' : From L' T) : From (L ++ L') T := by
  intro d hd t ht
  rcases List.mem_append.mp hd with hd | hd
  · exact h d hd t ht
  · exact h' d hd t ht
theorem From.mono {L : List Call} {T T' : List Token} (h : From L T) (hT : ∀ t ∈ T, t ∈ T') : From L T' :=
  fun c hc t ht => hT t (h c hc t ht)
theorem From.none {L : List Call} {T : List Token} (h : ∀ c ∈ L, floatTok c = .none) : From L T := by
  intro c hc t ht; rw [h c hc] at ht; cases ht

theorem shapeBytes_none (b : Bytes) (first : Bool) : ∀ c ∈ shapeBytes first b, floatTok c = none := by
  induction b generalizing first with
  | nil => simp [shapeBytes]
  | cons b r ih =>
    intro c hc
    simp only [shapeBytes, List.mem_cons] at hc
    rcases hc with rfl | rfl | hc
    · rfl
    · rfl
    · exact ih false c hc

section
variable (again : Meta → V → List Call) (flag : Bool → V → Bool) (hag : ∀ m v, ∀ c ∈ again m v, floatTok c = none)
include hag

mutual
theorem from_value (num : Bool) : ∀ v, From (shape again flag num v) (toks v)
  | .null => by simp [shape, From, floatTok]
  | .bool b => by simp [shape, From, floatTok]
  | .int t v => by simp [shape, From, floatTok]
  | .f32 b => by simp [shape, From, floatTok, toks]
  | .f64 b => by simp [shape, From, floatTok, toks]
  | .text n fs => by
    apply From.none
    intro c hc
    simp only [shape] at hc
    split at hc
    · simp only [List.mem_map] at hc
      obtain ⟨f, _, rfl⟩ := hc
      rfl
    · simp only [List.cons_append, List.mem_cons, List.mem_append, List.mem_map, List.not_mem_nil, or_false] at hc
      rcases hc with rfl | ⟨f, _, rfl⟩ | rfl <;> rfl
  | .binary n fs => by
    apply From.none
    intro c hc
    simp only [shape, List.cons_append, List.mem_cons, List.mem_append, List.not_mem_nil, or_false] at hc
    rcases hc with rfl | hc | rfl
    · rfl
    · exact shapeBytes_none _ _ c hc
    · rfl
  | .seq n xs => by
    simp only [shape, toks, List.cons_append]
    exact .skip rfl (((from_seq true xs).mono (by simp +contextual)).app (.skip rfl .nil))
  | .map n kvs => by
    simp only [shape, toks, List.cons_append]
    exact .skip rfl (((from_map true kvs).mono (by simp +contextual)).app (.skip rfl .nil))
  | .tag m => by
    simp only [shape, nameCall]
    split <;> exact .skip rfl .nil
  | .tagged m v => by
    simp only [shape, toks]
    split
    · exact .skip rfl (.skip rfl (((from_value _ v).mono (by simp +contextual)).app (.skip rfl .nil)))
    · exact (from_value _ v).mono (by simp +contextual)
  | .enum m v => by
    simp only [shape, toks]
    exact ((from_value num v).mono (by simp +contextual)).app (.none (hag m v))
  | .record m n fs => by
    simp only [shape, toks, labelCalls, List.append_assoc, List.cons_append]
    refine .app (by split <;> first | exact .nil | exact .skip rfl .nil) (.skip rfl (.app ?_ (.skip rfl .nil)))
    exact (from_rec true fs).mono (by simp +contextual)
  | .tuple m n fs => by
    simp only [shape, toks, labelCalls, List.append_assoc, List.cons_append]
    refine .app (by split <;> first | exact .nil | exact .skip rfl .nil) (.skip rfl (.app ?_ (.skip rfl .nil)))
    exact (from_tup true fs).mono (by simp +contextual)
  | .recordTuple m n fs => by
    simp only [shape, toks, labelCalls, List.append_assoc, List.cons_append]
    refine .app (by split <;> first | exact .nil | exact .skip rfl .nil) (.skip rfl (.app ?_ (.skip rfl .nil)))
    exact (from_rt true fs).mono (by simp +contextual)
  | .hint t v => by
    simp only [shape, toks]
    exact (from_value num v).mono (by simp +contextual)
theorem from_seq (first : Bool) : ∀ xs, From (shapeSeq again flag first xs) (toksSeq xs)
  | [] => by simp [shapeSeq, From]
  | x :: xs => by
    simp only [shapeSeq, toksSeq, List.cons_append]
    exact .skip rfl (((from_value false x).mono (by simp +contextual)).app ((from_seq false xs).mono (by simp +contextual)))
theorem from_map (first : Bool) : ∀ kvs, From (shapeMap again flag first kvs) (toksMap kvs)
  | [] => by simp [shapeMap, From]
  | (k, v) :: r => by
    simp only [shapeMap, toksMap, List.append_assoc, List.cons_append]
    exact .skip rfl (((from_value false k).mono (by simp +contextual)).app (.skip rfl
      (((from_value false v).mono (by simp +contextual)).app ((from_map false r).mono (by simp +contextual)))))
theorem from_rec (first : Bool) : ∀ fs, From (shapeRec again flag first fs) (toksRec fs)
  | [] => by simp [shapeRec, From]
  | (_, _, v) :: r => by
    simp only [shapeRec, toksRec, List.cons_append]
    exact .skip rfl (((from_value false v).mono (by simp +contextual)).app ((from_rec false r).mono (by simp +contextual)))
theorem from_tup (first : Bool) : ∀ fs, From (shapeTup again flag first fs) (toksTup fs)
  | [] => by simp [shapeTup, From]
  | (_, _, v) :: r => by
    simp only [shapeTup, toksTup, List.cons_append]
    exact .skip rfl (((from_value false v).mono (by simp +contextual)).app ((from_tup false r).mono (by simp +contextual)))
theorem from_rt (first : Bool) : ∀ fs, From (shapeRT again flag first fs) (toksRT fs)
  | [] => by simp [shapeRT, From]
  | (_, _, _, v) :: r => by
    simp only [shapeRT, toksRT, List.cons_append]
    exact .skip rfl (((from_value false v).mono (by simp +contextual)).app ((from_rt false r).mono (by simp +contextual)))
end
end

theorem from_made (v : V) : From (made v) (toks v) := by
  refine from_value _ _ (fun m v c hc => ?_) false v
  unfold twiceCalls at hc
  split at hc
  · simp only [List.mem_cons, List.not_mem_nil, or_false] at hc
    subst hc
    unfold nameCall
    split <;> rfl
  · cases hc

/-- C74. `format!("{}", ToFmt::new(v))` is the layout of the value, with floats as `Display` writes them. -/
theorem C74_exact (fl : Floats) (env : Fmt.Env) (v : V) :
    format {} fl env (valueOf v) =
      Fmt.toString { env with f32 := fun b => (fl.f32 {} b).flatten, f64 := fun b => (fl.f64 {} b).flatten } (valueOf v) := by
  rw [C73, C26_exact, ← made_text]
  congr 1
  refine flatMap_congr' _ _ _ fun c _ => ?_
  cases c with
  | int t v => exact numeral_default v
  | _ => rfl

/-- C74, as far as it holds: `format!("{}", ToFmt::new(v))` and `stream_to_string(v)` are the same text if `Display` and `ryu`
write the floats in the value alike.

Missing: the other floats, for which it is false. `C74_exact` says what they give. -/
theorem C74_partial (fl : Floats) (env : Fmt.Env) (v : V)
    (h32 : ∀ b, .f32 b ∈ toks v → (fl.f32 {} b).flatten = env.f32 b)
    (h64 : ∀ b, .f64 b ∈ toks v → (fl.f64 {} b).flatten = env.f64 b) :
    format {} fl env (valueOf v) = Fmt.toString env (valueOf v) := by
  rw [C73, C26_exact, ← made_text]
  congr 1
  refine flatMap_congr' _ _ _ fun c hc => ?_
  cases c with
  | int t v => exact numeral_default v
  | f32 b => exact h32 b (from_made v _ hc _ rfl)
  | f64 b => exact h64 b (from_made v _ hc _ rfl)
  | _ => rfl

/-- C74: just when is it true of all values? -/
theorem C74_iff (fl : Floats) (env : Fmt.Env) :
    (∀ v, format {} fl env (valueOf v) = Fmt.toString env (valueOf v)) ↔
      (∀ b, (fl.f32 {} b).flatten = env.f32 b) ∧ (∀ b, (fl.f64 {} b).flatten = env.f64 b) := by
  constructor
  · intro h
    constructor
    · intro b
      have := h (.f32 b)
      rw [C73, C26_exact, ← made_text] at this
      simpa [made, shape, spelledWith, spelled] using this
    · intro b
      have := h (.f64 b)
      rw [C73, C26_exact, ← made_text] at this
      simpa [made, shape, spelledWith, spelled] using this
  · rintro ⟨h1, h2⟩ v
    exact C74_partial fl env v (fun b _ => h1 b) (fun b _ => h2 b)

/-- C74 is false: `1.0f64` is `1` for `Display`, and `1.0` for `ryu`. -/
theorem C74_fails (fl : Floats) (env : Fmt.Env) (hd : fl.f64 {} 0x3ff0000000000000 = [t! "1"])
    (hr : env.f64 0x3ff0000000000000 = t! "1.0") :
    format {} fl env (valueOf (seqV [.f64 0x3ff0000000000000, one])) = some (t! "[1, 1]") ∧
    Fmt.toString env (valueOf (seqV [.f64 0x3ff0000000000000, one])) = some (t! "[1.0, 1]") := by
  rw [C73, C26_exact, ← made_text]
  have h1 : intDec 1 = t! "1" := by decide
  have h2 : numeral {} 1 = t! "1" := by decide
  simp [made, shape, seqV, one, shapeSeq, spelledWith, spelled, hd, hr, h1, h2]

/-- `Display` and `ryu`, for the float of the example. -/
def displayed : Floats := ⟨fun _ _ => [t! "1"], fun _ _ => [t! "1"]⟩
def shortest : Fmt.Env := { someEnv with f32 := fun _ => t! "1", f64 := fun _ => t! "1.0" }

example : displayed.f64 {} 0x3ff0000000000000 = [t! "1"] ∧ shortest.f64 0x3ff0000000000000 = t! "1.0" := ⟨rfl, rfl⟩

example : (∀ b, .f32 b ∈ toks (seqV [.f32 0x3f800000, one]) → (displayed.f32 {} b).flatten = shortest.f32 b) ∧
    (∀ b, .f64 b ∈ toks (seqV [.f32 0x3f800000, one]) → (displayed.f64 {} b).flatten = shortest.f64 b) ∧
    format {} displayed shortest (valueOf (seqV [.f32 0x3f800000, one])) = some (t! "[1, 1]") := by
  refine ⟨fun b _ => rfl, fun b h => ?_, by decide +kernel⟩
  simp [seqV, one, toks, toksSeq] at h

end Sval
