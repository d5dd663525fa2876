import Verif.Fmt.Run

set_option autoImplicit false

/-!
# `sval_fmt` writing to a custom `TokenWrite`

`Fmt.Model` has a writer that overrides at most `write_token`. Here any of the methods of `TokenWrite`
may be overridden; a method that is not makes the calls of its provided body, which may again be overridden.
-/

namespace Sval.Fmt

/-- A call of a method of `TokenWrite`: `fmt/src/token_write.rs:15-330`. The generic methods
(`write_token`, `write_number`, `write_atom`) are given what their argument displays. -/
inductive Call where
  | token (k : Kind) (t : Text)
  | int (t : IntTy) (v : Int)
  | f32 (b : UInt32)
  | f64 (b : UInt64)
  | number (t : Text)
  | null
  | bool (b : Bool)
  | atom (t : Text)
  | type (t : Text)
  | field (t : Text)
  | ident (t : Text)
  | punct (t : Text)
  | ws (t : Text)
  | textQuote
  | text (t : Text)
  | mapBegin
  | mapKeyBegin (first : Bool)
  | mapValueBegin (first : Bool)
  | mapEnd (empty : Bool)
  | recordType (t : Text)
  | recordBegin
  | recordValueBegin (field : Text) (first : Bool)
  | recordEnd (empty : Bool)
  | seqBegin
  | seqValueBegin (first : Bool)
  | seqEnd (empty : Bool)
  | tupleType (t : Text)
  | tupleBegin
  | tupleValueBegin (first : Bool)
  | tupleEnd (empty : Bool)
deriving DecidableEq, Repr

/-- Make some calls, with `?` after each. -/
def calls {ω : Type} (inv : Call → ω → Res Unit ω) : List Call → ω → Res Unit ω
  | [], o => .ok o
  | c :: cs, o => (inv c o).bind fun o => calls inv cs o

/-- `if flush.len() > 0 { output(flush) }`: `fmt/src/token_write.rs:349-352,364-369` -/
def flushed (p : Text) : List Call := if p = [] then [] else [.token .text p]

/-- The calls of `write_escape_debug`: `fmt/src/token_write.rs:333-374`. `p` is `input[from..i]`. -/
def escaped (env : Env) : Text → Text → List Call
  | p, [] => flushed p
  | p, c :: cs =>
    if (escapeDebug env c).length > 1 then
      flushed p ++ ((escapeDebug env c).map fun c => .token .text [c]) ++ escaped env [] cs
    else escaped env (p ++ [c]) cs

/-- The calls of the provided body of each method: `fmt/src/token_write.rs:19-330`. `write_token` has none: it
writes to the `fmt::Write`. Numbers are displayed; for floats `env` is `Display for f32` and `f64`. -/
def provided (env : Env) : Call → List Call
  | .token _ _ => []
  | .int _ v => [.number (intDec v)]
  | .f32 b => [.number (env.f32 b)]
  | .f64 b => [.number (env.f64 b)]
  | .number t => [.token .number t]
  | .null => [.atom (t! "()")]
  | .bool b => [.atom (if b then t! "true" else t! "false")]
  | .atom t => [.token .atom t]
  | .type t => [.ident t]
  | .field t => [.ident t]
  | .ident t => [.token .ident t]
  | .punct t => [.token .punct t]
  | .ws t => [.token .ws t]
  | .textQuote => [.token .text (t! "\"")]
  | .text t => escaped env [] t
  | .mapBegin => [.punct (t! "{")]
  | .mapKeyBegin first => (if first then [] else [.punct (t! ",")]) ++ [.ws (t! " ")]
  | .mapValueBegin _ => [.punct (t! ":"), .ws (t! " ")]
  | .mapEnd empty => (if empty then [] else [.ws (t! " ")]) ++ [.punct (t! "}")]
  | .recordType t => [.type t, .ws (t! " ")]
  | .recordBegin => [.punct (t! "{")]
  | .recordValueBegin field first =>
    (if first then [] else [.punct (t! ",")]) ++ [.ws (t! " "), .field field, .punct (t! ":"), .ws (t! " ")]
  | .recordEnd empty => (if empty then [] else [.ws (t! " ")]) ++ [.punct (t! "}")]
  | .seqBegin => [.punct (t! "[")]
  | .seqValueBegin first => if first then [] else [.punct (t! ","), .ws (t! " ")]
  | .seqEnd _ => [.punct (t! "]")]
  | .tupleType t => [.type t]
  | .tupleBegin => [.punct (t! "(")]
  | .tupleValueBegin first => if first then [] else [.punct (t! ","), .ws (t! " ")]
  | .tupleEnd _ => [.punct (t! ")")]

/-- An implementation of `TokenWrite` and of the `fmt::Write` it extends: `fmt/src/token_write.rs:15`. -/
structure Impl (ω : Type) where
  /-- What an overridden method does; `none` for one that is not overridden. -/
  over : Call → Option (ω → Res Unit ω)
  /-- `Write::write_str` -/
  str : Text → ω → Res Unit ω

section
variable {ω : Type} (W : Impl ω) (env : Env)

/-- Call a method. The provided bodies call each other to a depth of four, so `invoke` has enough fuel: see
`invoke_eq`. -/
def invokeN : Nat → Call → ω → Res Unit ω
  | 0, _, _ => .panic
  | n + 1, c, o =>
    match W.over c with
    | some f => f o
    | none =>
      match c with
      | .token _ t => W.str t o
      | c => calls (invokeN n) (provided env c) o

/-- A call on a `TokenWrite`. Provided methods call others at most three deep: `fmt/src/token_write.rs:15-330`. -/
def invoke (c : Call) (o : ω) : Res Unit ω := invokeN W env 4 c o

end

/-- How far above `write_token` a method is. -/
def Call.rank : Call → Nat
  | .token _ _ => 0
  | .number _ | .atom _ | .ident _ | .punct _ | .ws _ | .textQuote | .text _ => 1
  | .recordType _ | .recordValueBegin _ _ | .tupleType _ => 3
  | _ => 2

theorem escaped_rank (env : Env) (p t : Text) : ∀ c ∈ escaped env p t, c.rank = 0 := by
  have hf : ∀ p, ∀ c ∈ flushed p, c.rank = 0 := by
    intro p c hc
    unfold flushed at hc
    split at hc <;> simp at hc
    subst hc; rfl
  induction t generalizing p with
  | nil => exact hf p
  | cons x t ih =>
    intro c hc
    unfold escaped at hc
    split at hc
    · simp only [List.mem_append, List.mem_map] at hc
      rcases hc with (hc | ⟨y, _, rfl⟩) | hc
      · exact hf p c hc
      · rfl
      · exact ih [] c hc
    · exact ih _ c hc

theorem provided_rank (env : Env) (c : Call) : ∀ d ∈ provided env c, d.rank < c.rank := by
  cases c
  case text t =>
    intro d hd
    rw [escaped_rank env [] t d hd]
    simp [Call.rank]
  all_goals
    intro d hd
    simp only [provided] at hd
    try split at hd
    all_goals simp at hd
    all_goals try (rcases hd with hd | hd | hd | hd | hd)
    all_goals simp_all [Call.rank]

theorem calls_congr {ω : Type} (f g : Call → ω → Res Unit ω) (L : List Call) (h : ∀ c ∈ L, ∀ o, f c o = g c o) (o : ω) :
    calls f L o = calls g L o := by
  induction L generalizing o with
  | nil => rfl
  | cons c L ih =>
    simp only [calls, h c (by simp)]
    congr 1
    funext o
    exact ih (fun d hd => h d (by simp [hd])) o

theorem calls_append {ω : Type} (f : Call → ω → Res Unit ω) (a b : List Call) (o : ω) :
    calls f (a ++ b) o = (calls f a o).bind fun o => calls f b o := by
  induction a generalizing o with
  | nil => rfl
  | cons x a ih => simp only [List.cons_append, calls, ih, Res.bind_assoc]

theorem calls_one {ω : Type} (f : Call → ω → Res Unit ω) (c : Call) (o : ω) : calls f [c] o = f c o := by
  simp only [calls]
  cases f c o <;> rfl

section
variable {ω : Type} (W : Impl ω) (env : Env)

theorem invokeN_enough (n : Nat) (c : Call) (h : c.rank < n) (m : Nat) (hm : c.rank < m) (o : ω) :
    invokeN W env n c o = invokeN W env m c o := by
  induction n generalizing c m o with
  | zero => omega
  | succ n ih =>
    cases m with
    | zero => omega
    | succ m =>
      simp only [invokeN]
      have hc : calls (invokeN W env n) (provided env c) o = calls (invokeN W env m) (provided env c) o :=
        calls_congr _ _ _ (fun d hd o => by
          have := provided_rank env c d hd
          exact ih d (by omega) m (by omega) o) o
      cases W.over c with
      | some f => rfl
      | none => cases c <;> first | rfl | exact hc

/-- A call runs the override if there is one, else the calls of the provided body. -/
theorem invoke_eq (c : Call) (o : ω) :
    invoke W env c o =
      match W.over c with
      | some f => f o
      | none =>
        match c with
        | .token _ t => W.str t o
        | c => calls (invoke W env) (provided env c) o := by
  unfold invoke
  rw [invokeN_enough W env 4 c (by cases c <;> simp [Call.rank]) 5 (by cases c <;> simp [Call.rank]) o]
  rfl

end

/-! ## The writer -/

section
variable {ω : Type} (inv : Call → ω → Res Unit ω)

/-- `seq_value_begin` … `seq_value_end` around each byte: `fmt/src/writer.rs:181-189`. -/
def binaryCalls : Bytes → St ω → Res Unit (St ω)
  | [], s => .ok s
  | b :: bs, s =>
    (put (inv (.seqValueBegin s.empty)) s).bind fun s =>
    (put (inv (.int .u8 b.toNat)) s).bind fun s =>
    binaryCalls bs { s with empty := false }

/-- `tag`: `fmt/src/writer.rs:408-425`. -/
def tagCall (m : Meta) (s : St ω) : Res Unit (St ω) :=
  let s := { s with empty := false }
  match m.label with
  | some l => put (inv (.type l.text)) s
  | none => put (inv .null) s

/-- `impl Stream for Writer`: `fmt/src/writer.rs:136-526`. -/
def stepCall : Token → St ω → Res Unit (St ω)
  | .null, s => put (inv .null) s
  | .bool b, s => put (inv (.bool b)) s
  | .int t v, s => put (inv (.int t v)) s
  | .f32 b, s => put (inv (.f32 b)) s
  | .f64 b, s => put (inv (.f64 b)) s
  | .textBegin _, s => if s.number then .ok s else put (inv .textQuote) s
  | .textFragmentComputed t, s =>
    if s.number then put (inv (.number t)) s else put (inv (.text t)) s
  | .textEnd, s => if s.number then .ok s else put (inv .textQuote) s
  | .binaryBegin _, s => put (inv .seqBegin) { s with number := false, empty := true }
  | .binaryFragmentComputed b, s => binaryCalls inv b s
  | .binaryEnd, s => put (inv (.seqEnd s.empty)) s
  | .mapBegin _, s => put (inv .mapBegin) { s with number := false, empty := true }
  | .mapKeyBegin, s => put (inv (.mapKeyBegin s.empty)) s
  | .mapKeyEnd, s => put (inv (.mapValueBegin s.empty)) s
  | .mapValueBegin, s => .ok s
  | .mapValueEnd, s => .ok { s with empty := false }
  | .mapEnd, s => put (inv (.mapEnd s.empty)) s
  | .seqBegin _, s => put (inv .seqBegin) { s with number := false, empty := true }
  | .seqValueBegin, s => put (inv (.seqValueBegin s.empty)) s
  | .seqValueEnd, s => .ok { s with empty := false }
  | .seqEnd, s => put (inv (.seqEnd s.empty)) s
  | .enumBegin _, s => .ok { s with empty := true }
  | .enumEnd m, s => if s.empty then tagCall inv m s else .ok s
  | .taggedBegin m, s =>
    let s := { s with empty := false, number := s.number || decide (m.tag = some tags.NUMBER) }
    match m.label with
    | some l => put (calls inv [.tupleType l.text, .tupleBegin]) s
    | none => .ok s
  | .taggedEnd m, s =>
    let s := { s with number := s.number && !decide (m.tag = some tags.NUMBER) }
    match m.label with
    | some _ => put (inv (.tupleEnd false)) s
    | none => .ok s
  | .tag m, s => tagCall inv m s
  | .recordBegin m _, s =>
    let s := { s with number := false, empty := true }
    match m.label with
    | some l => put (calls inv [.recordType l.text, .recordBegin]) s
    | none => put (inv .recordBegin) s
  | .recordValueBegin _ l, s => put (inv (.recordValueBegin l.text s.empty)) s
  | .recordValueEnd _ _, s => .ok { s with empty := false }
  | .recordEnd _, s => put (inv (.recordEnd s.empty)) s
  | .tupleBegin m _, s =>
    let s := { s with number := false, empty := true }
    match m.label with
    | some l => put (calls inv [.tupleType l.text, .tupleBegin]) s
    | none => put (inv .tupleBegin) s
  | .tupleValueBegin _ _, s => put (inv (.tupleValueBegin s.empty)) s
  | .tupleValueEnd _ _, s => .ok { s with empty := false }
  | .tupleEnd _, s => put (inv (.tupleEnd s.empty)) s
  | _, _ => .panic

/-- A call to the writer: the methods it does not override fall back on those it does. -/
def callW (t : Token) (s : St ω) : Res Unit (St ω) := run (stepCall inv) (Low.tok fmtCaps t) s

/-- `v.stream(&mut Writer::new(fmt))`: does it report success, and what is in the writer? -/
def streamTo (p : Prog) (o : ω) : Outcome ω :=
  match drive (callW inv) p (St.new o) with
  | .done ok s => .done ok s.out
  | .panicked => .panicked

end

/-- `stream_to_token_write`: `fmt/src/to_write.rs:23-25` -/
def toTokenWrite {ω : Type} (W : Impl ω) (env : Env) (p : Prog) (o : ω) : Outcome ω := streamTo (invoke W env) p o

/-- `GenericWriter<W>` for a `fmt::Write`: `fmt/src/writer.rs:60-124`. `env` is `ryu` for the floats. -/
def generic {ω : Type} (env : Env) (str : Text → ω → Res Unit ω) : Impl ω where
  str := str
  over
    | .int _ v => some (str (intDec v))
    | .f32 b => some (str (env.f32 b))
    | .f64 b => some (str (env.f64 b))
    | _ => none

/-- `impl TokenWrite for &mut W`: `fmt/src/token_write.rs:376-532`. -/
def byRef {ω : Type} (W : Impl ω) (env : Env) : Impl ω where
  str := W.str
  over
    | .token k t => some (invoke W env (.token k t))
    | .int t v => some (invoke W env (.int t v))
    | .f32 b => some (invoke W env (.f32 b))
    | .f64 b => some (invoke W env (.f64 b))
    | .number t => some (invoke W env (.number t))
    | .null => some (invoke W env .null)
    | .bool b => some (invoke W env (.bool b))
    | .atom t => some (invoke W env (.atom t))
    | .type t => some (invoke W env (.type t))
    | .field t => some (invoke W env (.field t))
    | .ident t => some (invoke W env (.ident t))
    | .punct t => some (invoke W env (.punct t))
    | .ws t => some (invoke W env (.ws t))
    | .textQuote => some (invoke W env .textQuote)
    | .text t => some (invoke W env (.text t))
    | .mapBegin => some (invoke W env .mapBegin)
    | .mapKeyBegin first => some (invoke W env (.mapKeyBegin first))
    | .mapValueBegin first => some (invoke W env (.mapValueBegin first))
    | .mapEnd empty => some (invoke W env (.mapEnd empty))
    | .recordType t => some (invoke W env (.recordType t))
    | .recordBegin => some (invoke W env .recordBegin)
    | .recordValueBegin field first => some (invoke W env (.recordValueBegin field first))
    | .recordEnd empty => some (invoke W env (.recordEnd empty))
    | .seqBegin => some (invoke W env .seqBegin)
    | .seqValueBegin first => some (invoke W env (.seqValueBegin first))
    | .seqEnd empty => some (invoke W env (.seqEnd empty))
    | .tupleType t => some (invoke W env (.tupleType t))
    | .tupleBegin => some (invoke W env .tupleBegin)
    | .tupleValueBegin first => some (invoke W env (.tupleValueBegin first))
    | .tupleEnd empty => some (invoke W env (.tupleEnd empty))

end Sval.Fmt
