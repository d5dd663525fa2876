import Verif.Nested.Plain
import Verif.Nested.Unique
import Verif.Nested.Protocol

set_option autoImplicit false

/-!
# Properties of `sval_nested`: C32 to C34
-/

namespace Sval

open Nested

theorem valueOf_prog (v : V) : valueOf v = prog ((toks v).map .tok) := (prog_toks (toks v)).symm

/-! ## C32 -/

/-- The enum at the root of a value. -/
def rootEnum : V → Option (Meta × V)
  | .enum m v => some (m, v)
  | .hint _ v => rootEnum v
  | _ => none

theorem seen_enum (v : V) : seen v = (match rootEnum v with | some (m, w) => .enum (own m) (seen w) | none => seen v) := by
  induction v using V.ind with
  | enum m v ih => rfl
  | hint t v ih => simpa [seen, rootEnum] using ih
  | _ => rfl

theorem rootOk_seen (v : V) (hv : ∀ m w, rootEnum v = some (m, w) → variant false w = true) : rootOk (seen v) = true := by
  rw [seen_enum]
  split
  · rename_i m w e
    rw [rootOk, variant_seen]
    exact hv m w e
  · rename_i e
    cases h : seen v with
    | enum m w =>
      exfalso
      clear hv
      induction v using V.ind with
      | hint t v ih => exact ih e h
      | _ => simp [seen, rootEnum, text, binary] at h e
    | _ => rfl

/-- C32. A recursive stream that looks into every value it is given sees the tree of the value: the same
containers, with the same lengths, elements, keys, labels, indexes and tags, in the same order. Hints and the
indexes of record tuples are not for recursive streams (`seen`).

Missing: enums that hold something else than a variant, and enums in enums with a tuple or a record as variant
(`supported`). `sval_nested` fails or panics on these: `C34_exact`. -/
theorem C32_partial (v : V) (hv : supported v = true) (borrowed : Bool) : Sees ⟨borrowed, valueOf v⟩ (seen v) :=
  sees (valueOf_prog v) (shows_toks v) (by rw [supported_seen]; exact hv)

/-- C32. It does not matter if the value makes the calls itself, or hands over parts of itself with `value`
and `value_computed`. -/
theorem C32_parts_partial (q : List Item) (v : V) (h : Shows q v) (hv : supported v = true) (borrowed : Bool) :
    Sees ⟨borrowed, prog q⟩ v := sees rfl h hv

/-- C32. A recursive stream sees at most one tree, whatever the value does. -/
theorem C32_unique (a : Arg) (v w : V) (hv : Sees a v) (hw : Sees a w) : v = w := sees_unique hv hw

/-- C32. Exactly what a recursive stream that looks into every value sees: the tree of the value if it is supported, and nothing
otherwise. -/
theorem C32_exact (v w : V) (borrowed : Bool) : Sees ⟨borrowed, valueOf v⟩ w ↔ supported v = true ∧ w = seen v := by
  constructor
  · intro h
    obtain ⟨h1, h2⟩ := sees_shown h ⟨_, valueOf_prog v, shows_toks v⟩
    rw [supported_seen] at h2
    exact ⟨h2, h1.symm⟩
  · rintro ⟨h, rfl⟩
    exact C32_partial v h borrowed

/-- C32. The same for code that hands over parts of the value. -/
theorem C32_parts_exact (q : List Item) (v w : V) (h : Shows q v) (borrowed : Bool) :
    Sees ⟨borrowed, prog q⟩ w ↔ supported v = true ∧ w = v := by
  constructor
  · intro hw
    obtain ⟨h1, h2⟩ := sees_shown hw ⟨q, rfl, h⟩
    exact ⟨h2, h1.symm⟩
  · rintro ⟨hv, rfl⟩
    exact C32_parts_partial q _ h hv borrowed

/-- C32 is false for other enums: for an enum in an enum with a tuple as its variant, in a sequence, there is no tree that is seen. -/
theorem C32_fails (borrowed : Bool) (w : V) : ¬ Sees ⟨borrowed, valueOf (.seq (some 1)
    [.enum { label := some (.new (t! "A")) } (.enum { label := some (.new (t! "B")) }
      (.tuple {} (some 1) [(none, { val := 0 }, .bool true)]))])⟩ w := by
  rw [C32_exact]
  exact fun h => Bool.noConfusion h.1

/-- A record in a sequence is seen as it is; an enum with a number as its variant, deep inside, hides the whole tree. -/
example :
    let m : Meta := { label := some (.new (t! "p")) }
    let e : V := .enum {} (.int .i8 1)
    (∀ w, Sees ⟨true, valueOf (.seq (some 1) [.record m none [(none, .new (t! "x"), .int .u8 3)]])⟩ w ↔
      w = .seq (some 1) [.record m none [(none, .new (t! "x"), .int .u8 3)]]) ∧
    ∀ w, ¬ Sees ⟨true, valueOf (.seq (some 2) [.null, .tagged m e])⟩ w := by
  refine ⟨fun w => ?_, fun w h => ?_⟩
  · rw [C32_exact]
    exact ⟨fun h => h.2, fun h => ⟨rfl, h⟩⟩
  · rw [C32_exact] at h
    exact Bool.noConfusion h.1

/-- C32. The methods that are called for a value, until one fails. Here an enum only has to be supported if it
is at the root. -/
theorem C32_methods (v : V) (hv : ∀ m w, rootEnum v = some (m, w) → variant false w = true) (borrowed : Bool) :
    ∃ X, Matches Showing X (seen v) ∧ Makes (!borrowed) (valueOf v) X := by
  rw [valueOf_prog]
  rcases makes_any (shows_toks v) (rootOk_seen v hv) (!borrowed) with ⟨X, hX, hm⟩ | ⟨a, q, h1, h2, _, hm⟩
  · exact ⟨X, .inl hX, hm⟩
  · exact ⟨_, .inr ⟨a, rfl, q, h1, h2⟩, hm⟩

/-- The tag, label and index a method gets: they are those of the value, but the label loses its own tag if it owns its text
(and keeps it otherwise). -/
def given (m : Meta) : Meta :=
  { m with label := m.label.map fun l => if l.backing = .owned then { l with tag := none } else l }

/-- The first method called for a value with a tag, label and index of its own. -/
def firstOpen : V → Option Cb
  | .tag m => some (.tag (given m))
  | .record m n _ => some (.recordBegin (given m) n)
  | .recordTuple m n _ => some (.recordBegin (given m) n)
  | .tuple m n _ => some (.tupleBegin (given m) n)
  | .enum m _ => some (.enumBegin (given m))
  | .hint _ v => firstOpen v
  | _ => none

theorem cloneMeta_given (m : Meta) : cloneMeta m = given m := by
  obtain ⟨t, l, i⟩ := m
  cases l with
  | none => rfl
  | some l => obtain ⟨s, b, g⟩ := l; cases b <;> rfl

/-- C32. What a stream that stops at the first method gets to know: exactly the tag, index and count of the value, and its
label. -/
theorem C32_first (v : V) (c : Cb) (h : firstOpen v = some c) (borrowed : Bool) :
    stream (fun c _ => .err () (some c)) (!borrowed) (valueOf v) none = .done false (some c) := by
  rw [valueOf_prog]
  induction v using V.ind with
  | hint t v ih =>
    rw [← ih h]
    have e : (if !borrowed then computedTok (.tagHint t) else .tagHint t) = .tagHint t := by cases borrowed <;> rfl
    simp only [toks, List.map_cons, stream, exec_cons_tok, e]
    rfl
  | tag m | record m n fs | recordTuple m n fs | tuple m n fs | enum m v =>
    simp only [firstOpen, Option.some.injEq] at h
    subst h
    rw [← cloneMeta_given]
    cases borrowed <;> simp only [toks, List.map_cons, List.map_nil, stream, exec_cons_tok] <;> rfl
  | _ => simp [firstOpen] at h

example : firstOpen (.hint ⟨t! "T"⟩ (.tuple { label := some { text := t! "A", backing := .owned, tag := some ⟨t! "I"⟩ } }
    (some 1) [])) = some (.tupleBegin { label := some { text := t! "A", backing := .owned } } (some 1)) := rfl

/-- A record with a sequence of tuples, a map with an enum in it, and a record tuple. -/
def nestedExample : V :=
  .record { label := some (.new (t! "R")) } (some 2)
    [(none, .newComputed (t! "a"), .seq none [.tuple {} (some 2) [(none, { val := 0 }, .int .u8 1), (none, { val := 1 }, .null)], .bool true]),
     (none, .new (t! "b"), .map none [(.text none [.borrowed (t! "k"), .computed (t! "ey")],
       .enum { label := some (.new (t! "E")) } (.enum {} (.tagged { index := some { val := 1 } } (.seq none [.f64 0]))))]),
     (none, .new (t! "c"), .hint ⟨t! "T"⟩ (.recordTuple {} none [(none, .new (t! "d"), { val := 7 }, .null)]))]

example : supported nestedExample = true := by decide +kernel
example : seen nestedExample =
    .record { label := some (.new (t! "R")) } (some 2)
    [(none, .newOwned (t! "a"), .seq none [.tuple {} (some 2) [(none, { val := 0 }, .int .u8 1), (none, { val := 1 }, .null)], .bool true]),
     (none, .new (t! "b"), .map none [(.text none [.computed (t! "key")],
       .enum { label := some (.new (t! "E")) } (.enum {} (.tagged { index := some { val := 1 } } (.seq none [.f64 0]))))]),
     (none, .new (t! "c"), .record {} none [(none, .new (t! "d"), .null)])] := rfl

/-! ## C33 -/

/-- Streamed to an ordinary stream that accepts everything, the argument makes the calls `T`. -/
def Streams (a : Arg) (T : List Token) : Prop :=
  exec (recorder fun _ _ => true) a.prog (if a.borrowed then .base else .computed .base) [] = (T, true)

/-- `T` are the calls of a value with the same tree as `v`, except that there may be no calls around the
elements of sequences; and if there are no sequences in `v` then it is exactly the calls of that value. -/
def Restreams (a : Arg) (v : V) : Prop :=
  ∃ w T, Streams a T ∧ seen w = v ∧
    (T.filter fun t => t ≠ .seqValueBegin && t ≠ .seqValueEnd) =
      ((toks w).filter fun t => t ≠ .seqValueBegin && t ≠ .seqValueEnd) ∧
    (noSeq v = true → T = toks w)

theorem restreams {a : Arg} {v : V} (h : Showing a v) : Restreams a v := by
  obtain ⟨q, ha, hq⟩ := h
  obtain ⟨w, h1, h2, h3⟩ := plain_shows q v hq (!a.borrowed)
  refine ⟨w, _, ?_, h1, h2, h3⟩
  have := exec_accepts q (!a.borrowed) []
  unfold Streams
  rw [ha]
  cases hb : a.borrowed <;> simp only [hb, wrapper, Bool.not_true, Bool.not_false, if_true, Bool.false_eq_true, if_false, List.nil_append] at this ⊢ <;>
    exact this

/-- C33 is false: the elements of a sequence in a buffered element come without `seq_value_begin` and
`seq_value_end`. -/
theorem C33_fails : ∃ (v : V) (a : Arg), supported v = true ∧
    Makes false (valueOf v) [.seqBegin none, .seqValue a, .seqEnd] ∧
    v = .seq none [.seq none [.null, .null]] ∧
    Streams a [.seqBegin none, .null, .null, .seqEnd] ∧ ∀ w, ¬ Streams a (toks w) := by
  refine ⟨.seq none [.seq none [.null, .null]],
    ⟨false, prog (regroup [.seqBegin none, .null, .null, .seqEnd])⟩, rfl, ?_, rfl, rfl, ?_⟩
  · intro σ C s
    rw [valueOf_prog]
    refine Does.makes (is := [.tok (.seqBegin none), .tok .seqValueBegin, .tok (.seqBegin none), .tok .seqValueBegin, .tok .null,
      .tok .seqValueEnd, .tok .seqValueBegin, .tok .null, .tok .seqValueEnd, .tok .seqEnd, .tok .seqValueEnd, .tok .seqEnd]) ?_ σ C s
    refine Does.cons (X := [.seqBegin none]) (does_begin (m' := .seq) fun _ _ _ => rfl) ?_
    have ok : ∀ {t b b' m m' q X b'' m''} (_ : ∀ (σ : Type) (C : Cb → σ → Res Unit σ) (s : σ), call C t ⟨b, m, s⟩ = .ok ⟨b', m', s⟩),
      Does q b' m' X b'' m'' → Does (.tok t :: q) b m X b'' m'' := fun h h' => Does.cons (X := []) (does_ok h) h'
    refine ok (fun _ _ _ => rfl) <| ok (fun _ _ _ => rfl) <| ok (fun _ _ _ => rfl) <| ok (fun _ _ _ => rfl) <|
      ok (fun _ _ _ => rfl) <| ok (fun _ _ _ => rfl) <| ok (fun _ _ _ => rfl) <| ok (fun _ _ _ => rfl) <| ?_
    refine Does.cons (X := [_]) (m' := .seq) (b' := none) (does_tok fun σ C s => ?_) <| ok (fun _ _ _ => rfl) <| does_begin fun _ _ _ => rfl
    exact (agrees₀_cb C _ _ _ s).catch
  · intro w h
    have e : Streams ⟨false, prog (regroup [.seqBegin none, .null, .null, .seqEnd])⟩ [.seqBegin none, .null, .null, .seqEnd] := rfl
    unfold Streams at h e
    rw [e] at h
    simp only [Prod.mk.injEq, and_true] at h
    cases w <;> simp [toks] at h
    rename_i n xs
    cases xs with
    | nil => simp [toksSeq] at h
    | cons x xs => simp [toksSeq] at h

/-- C33. What an element does when it is streamed on: the calls of a value with the same tree, maybe without
those around the elements of sequences, and with all calls if there is no sequence in the element.

Missing: the calls around the elements of sequences (`C33_fails`); see `C33_exact`. -/
theorem C33_partial (v : V) (hv : ∀ m w, rootEnum v = some (m, w) → variant false w = true) (borrowed : Bool) :
    ∃ X, Matches Restreams X (seen v) ∧ Makes (!borrowed) (valueOf v) X := by
  obtain ⟨X, hX, hm⟩ := C32_methods v hv borrowed
  refine ⟨X, ?_, hm⟩
  rcases hX with hX | ⟨a, rfl, ha⟩
  · exact .inl (hX.weaken fun a w h => restreams h)
  · exact .inr ⟨a, rfl, restreams ha⟩

/-- C33. Elements that are handed over with `value`, as the implementations for standard types do, are handed on
as they are. -/
theorem C33_handed_over (n : Option Nat) (L : List (List Item)) :
    Makes false (prog (.tok (.seqBegin n) :: ((L.flatMap fun q => [.tok .seqValueBegin, .val q, .tok .seqValueEnd]) ++ [.tok .seqEnd])))
      (.seqBegin n :: ((L.map fun q => .seqValue ⟨true, prog q⟩) ++ [.seqEnd])) := by
  refine Does.makes ?_
  refine Does.cons (X := [.seqBegin n]) (does_begin (m' := .seq) fun _ _ _ => rfl) (Does.append (m' := .seq) (b' := none) ?_ ?_)
  · induction L with
    | nil => exact .nil _ _
    | cons q L ih =>
      refine Does.append (p := [_, _, _]) (X := [_]) (m' := .seq) (b' := none) ?_ ih
      refine Does.cons (X := []) (does_ok fun _ _ _ => rfl) ?_
      exact Does.append (p := [_]) (X := [_]) (Y := []) (does_val (.inr ⟨rfl, rfl, rfl⟩)) (does_ok fun _ _ _ => rfl)
  · exact does_begin fun _ _ _ => rfl

example (v : V) : ∀ m w, rootEnum (.hint ⟨t! "T"⟩ (.enum {} (.tuple {} none [(none, { val := 0 }, v)]))) = some (m, w) →
    variant false w = true := by simp [rootEnum, variant]

/-! ## C34 -/

/-- The value is an enum in an enum with a tuple or a record as its variant. -/
def tupleInEnums : V → Bool
  | .enum _ v => inEnum v
  | .hint _ v => tupleInEnums v
  | _ => false
where
  inEnum : V → Bool
    | .enum _ v => tuple v
    | .hint _ v => inEnum v
    | _ => false
  tuple : V → Bool
    | .tuple _ _ _ | .record _ _ _ | .recordTuple _ _ _ => true
    | .enum _ v => tuple v
    | .hint _ v => tuple v
    | _ => false

theorem asserts_tuple (v : V) : asserts true (seen v) = tupleInEnums.tuple v := by
  induction v using V.ind with
  | enum m v ih => simpa [seen, asserts, tupleInEnums.tuple] using ih
  | hint t v ih => simpa [seen, tupleInEnums.tuple] using ih
  | _ => rfl

theorem asserts_inEnum (v : V) : asserts false (seen v) = tupleInEnums.inEnum v := by
  induction v using V.ind with
  | enum m v ih => simpa [seen, asserts, tupleInEnums.inEnum] using asserts_tuple v
  | hint t v ih => simpa [seen, tupleInEnums.inEnum] using ih
  | _ => rfl

theorem tupleInEnums_root (v : V) : tupleInEnums v = (match rootEnum v with | some (_, w) => tupleInEnums.inEnum w | none => false) := by
  induction v using V.ind with
  | enum m v ih => rfl
  | hint t v ih => simpa [tupleInEnums, rootEnum] using ih
  | _ => rfl

theorem variant_asserts (v : V) : ∀ i, variant i v = true → asserts i v = false := by
  induction v using V.ind with
  | enum m v ih => exact fun _ => ih true
  | hint t v ih => exact fun i => ih i
  | _ => intro i h; cases i <;> first | rfl | exact Bool.noConfusion h

theorem runCb_no_panic {σ : Type} (C : Cb → σ → Res Unit σ) (hC : ∀ c s, C c s ≠ .panic) (X : List Cb) (s : σ) :
    runCb C X s ≠ .panic := by
  induction X generalizing s with
  | nil => simp [runCb]
  | cons c X ih =>
    simp only [runCb]
    cases h : C c s with
    | ok s' => exact ih s'
    | err e s' => simp [Res.bind]
    | panic => exact absurd h (hC c s)

/-- An enum that holds something else than a variant. -/
theorem stream_bad {σ : Type} (C : Cb → σ → Res Unit σ) (s : σ) (c : Bool) (v w : V) (m : Meta)
    (hr : rootEnum v = some (m, w)) (hv : variant false w = false) :
    stream C c (valueOf v) s =
      match C (.enumBegin (cloneMeta m)) s with
      | .ok s' => if tupleInEnums.inEnum w then .panicked else .done false s'
      | .err _ s' => .done false s'
      | .panic => .panicked := by
  rw [valueOf_prog]
  induction v using V.ind with
  | enum m' v ih =>
    simp only [rootEnum, Option.some.injEq, Prod.mk.injEq] at hr
    obtain ⟨rfl, rfl⟩ := hr
    have hb : ∀ s', if asserts false (seen v) then Nested.exec C (prog ((toks v).map .tok)) c ⟨none, .enum [], s'⟩ = .panicked
        else ∃ b, Nested.exec C (prog ((toks v).map .tok)) c ⟨none, .enum [], s'⟩ = .done false ⟨b, .done false, s'⟩ := by
      intro s'
      cases c with
      | false => exact exec_bad C _ _ (seen v) [] s' (Nat.le_refl _) (shows_toks v) (by rw [variant_seen]; exact hv)
      | true =>
        rw [exec_true]
        exact exec_bad C _ _ (seen v) [] s' (Nat.le_refl _) (shows_toks v).computed (by rw [variant_seen]; exact hv)
    have e : (if c then computedTok (.enumBegin m') else .enumBegin m') = .enumBegin m' := by cases c <;> rfl
    simp only [toks, List.map_cons, List.map_append, stream, exec_cons_tok, e]
    have e1 : call C (.enumBegin m') ⟨none, .any, s⟩ =
        match C (.enumBegin (cloneMeta m')) s with
        | .ok s' => .ok ⟨none, .enum [], s'⟩
        | .err _ s' => .err () ⟨none, .done false, s'⟩
        | .panic => .panic := by
      simp only [call, bufferOrBegin, Nested.tryCatch, cb]
      cases C (.enumBegin (cloneMeta m')) s <;> rfl
    rw [e1, ← asserts_inEnum]
    cases C (.enumBegin (cloneMeta m')) s with
    | ok s' =>
      have := hb s'
      simp only [Res.outcome, Outcome.andThen, exec_append]
      split at this
      · rename_i ha; rw [this]; simp [ha]
      · rename_i ha; obtain ⟨b, this⟩ := this; rw [this]; simp [ha]
    | err e s' => simp [Res.outcome, Outcome.andThen]
    | panic => rfl
  | hint t v ih =>
    have e : (if c then computedTok (.tagHint t) else .tagHint t) = .tagHint t := by cases c <;> rfl
    rw [← ih hr]
    simp only [toks, List.map_cons, stream, exec_cons_tok, e]
    rfl
  | _ => simp [rootEnum] at hr

/-- C34. Exactly when streaming a value to a recursive stream panics: if it is an enum in an enum with a tuple or
a record as its variant, unless the recursive stream fails first. -/
theorem C34_exact {σ : Type} (C : Cb → σ → Res Unit σ) (hC : ∀ c s, C c s ≠ .panic) (v : V) (s : σ) (borrowed : Bool) :
    stream C (!borrowed) (valueOf v) s = .panicked ↔
      tupleInEnums v = true ∧ ∀ m w, rootEnum v = some (m, w) → ∃ s', C (.enumBegin (given m)) s = .ok s' := by
  simp only [← cloneMeta_given]
  rw [tupleInEnums_root]
  cases hr : rootEnum v with
  | none =>
    obtain ⟨X, _, hm⟩ := C32_methods v (by simp [hr]) borrowed
    rw [hm]
    have := runCb_no_panic C hC X s
    cases h : runCb C X s <;> simp_all [Res.outcome]
  | some p =>
    obtain ⟨m, w⟩ := p
    cases hv : variant false w with
    | true =>
      obtain ⟨X, _, hm⟩ := C32_methods v (by simp [hr, hv]) borrowed
      have ha : tupleInEnums.inEnum w = false := by
        rw [← asserts_inEnum]; exact variant_asserts _ _ (by rw [variant_seen]; exact hv)
      rw [hm]
      have := runCb_no_panic C hC X s
      cases h : runCb C X s <;> simp_all [Res.outcome]
    | false =>
      rw [stream_bad C s _ v w m hr hv]
      cases h : C (.enumBegin (cloneMeta m)) s with
      | ok s' => by_cases ha : tupleInEnums.inEnum w <;> simp [ha, h]
      | err e s' => simp [h]
      | panic => exact absurd h (hC _ _)

/-- C34. What does not panic.

Missing: enums in enums with a tuple or a record as variant (`C34_fails`), and recursive streams that panic
themselves. -/
theorem C34_partial {σ : Type} (C : Cb → σ → Res Unit σ) (hC : ∀ c s, C c s ≠ .panic) (v : V) (s : σ) (borrowed : Bool)
    (hv : tupleInEnums v = false) : ∃ ok s', stream C (!borrowed) (valueOf v) s = .done ok s' := by
  have := (C34_exact C hC v s borrowed).not.2 (by simp [hv])
  cases h : stream C (!borrowed) (valueOf v) s with
  | done ok s' => exact ⟨ok, s', rfl⟩
  | panicked => exact absurd h this

/-- A recursive stream that accepts everything. -/
def acceptAll (_ : Cb) (_ : Unit) : Res Unit Unit := .ok ()

/-- C34 is false: a well-formed value panics. -/
theorem C34_fails : ∃ v, stream acceptAll false (valueOf v) () = .panicked :=
  ⟨.enum {} (.enum {} (.tuple {} (some 1) [(none, { val := 0 }, .null)])),
    (C34_exact acceptAll (by simp [acceptAll]) _ () true).2 ⟨rfl, fun _ _ _ => ⟨(), rfl⟩⟩⟩

/-- An enum without a variant recurses forever (modelled as a panic), but it is not a value that is well-formed. -/
example : stream acceptAll false (.ofToks [.enumBegin {}, .enumEnd {}]) () = .panicked := rfl

/-- An enum in an enum is fine, and so is a variant that is a tuple. -/
example : tupleInEnums (.enum {} (.enum {} (.tagged {} .null))) = false ∧
    tupleInEnums (.enum {} (.tuple {} none [(none, { val := 0 }, .enum {} (.enum {} (.tuple {} none [])))])) = false := ⟨rfl, rfl⟩

/-! ## C52 -/

/-- C52. For any code, also code that makes calls in a wrong order, ignores errors or stops early, and any recursive
stream: the methods are called in an order that the types of `nested/src/lib.rs` allow, none after one has
failed; and success is reported only if all succeeded and the last one ended the value. -/
theorem C52 {σ : Type} (C : Cb → σ → Res Unit σ) (p : Prog) (computed ok : Bool) (s s' : σ) (log : List (Cb × Bool))
    (h : stream (logged C) computed p (s, []) = .done ok (s', log)) : Stops log ∧ (ok = true → Follows log .over) := by
  have := keeps_exec C p computed { s := (s, []) } .nil
  unfold stream at h
  cases hr : Nested.exec (logged C) p computed { s := (s, []) } with
  | done b st =>
    rw [hr] at this h
    simp only [Outcome.done.injEq] at h
    obtain ⟨rfl, h2⟩ := h
    have hst : Inv st := this
    have e : st.s.2 = log := by rw [h2]
    refine ⟨e ▸ hst.stops, fun hok => ?_⟩
    have hm : st.mode = .done true := by simpa using hok
    exact e ▸ (inv_pos (by rw [hm]; rfl)).1 hst
  | panicked => rw [hr] at h; simp at h

/-- Code that ignores errors and goes on: a sequence with a map key in it that is left open, an error, and a value
after it. -/
def rude : Prog := .call (.seqBegin none) fun _ => .call .null fun _ => .call .mapKeyBegin fun _ => .call .null fun _ => .ret true

example : stream (logged acceptAll) false rude ((), []) =
    .done false ((), [(.seqBegin none, true), (.seqValue ⟨true, .ofToks [.null]⟩, true)]) := rfl

/-- A recursive stream that fails on values. -/
example : stream (logged fun c s => match c with | .seqValue _ => .err () s | _ => .ok s) false rude ((), []) =
    .done false ((), [(.seqBegin none, true), (.seqValue ⟨true, .ofToks [.null]⟩, false)]) := rfl

/-- Nested enums are ended in order. -/
example : stream (logged acceptAll) false (valueOf (.enum {} (.enum { tag := some tags.NUMBER } (.tag {})))) ((), []) =
    .done true ((), [(.enumBegin {}, true), (.nestedBegin { tag := some tags.NUMBER }, true), (.variantTag {}, true),
      (.nestedEnd { tag := some tags.NUMBER }, true)]) := rfl

end Sval
