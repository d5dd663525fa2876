import Verif.Serde.Same
import Verif.Props.Nested

set_option autoImplicit false

/-!
# Properties of `sval_serde`: C35 to C37 and C51
-/

namespace Sval

open Nested (prog supported)
open Serde

/-! ## C35 -/

theorem exec_toks {σ : Type} (S : Token → σ → σ × Bool) (v : V) (s : σ) : Sval.exec S (valueOf v) .base s = calls S (toks v) s := by
  have h : ∀ ts : List Token, Nested.flat (ts.map .tok) false = ts := by
    intro ts
    induction ts with
    | nil => rfl
    | cons t ts ih => rw [List.map_cons, Nested.flat_tok_cons, ih]; rfl
  have := exec_calls S ((toks v).map .tok) false s
  rwa [h, ← valueOf_prog] at this

/-- C35. On any stream, borrowed or not, and also if the stream fails somewhere, a serde value does what the tree
it stands for does. -/
theorem C35 {σ : Type} (S : Token → σ → σ × Bool) (v : SV) (computed : Bool) (s : σ) :
    Sval.exec S (prog (toValue v)) (if computed then .computed .base else .base) s = Sval.exec S (valueOf (tree v)) .base s := by
  rw [exec_toks, ← flat_toValue v computed, ← exec_calls]
  rfl

/-- C35. The calls, if the stream accepts them all. -/
theorem C35_calls (v : SV) (computed : Bool) :
    Sval.exec (recorder fun _ _ => true) (prog (toValue v)) (if computed then .computed .base else .base) [] = (toks (tree v), true) := by
  rw [C35, exec_toks]
  have h : ∀ (ts h : List Token), calls (recorder fun _ _ => true) ts h = (h ++ ts, true) := by
    intro ts
    induction ts with
    | nil => simp [calls]
    | cons t ts ih => intro h; simp [calls, recorder, ih]
  simpa using h (toks (tree v)) []

/-- C35. Tuple elements are numbered from zero, and there are as many as before. -/
theorem C35_indexes (xs : List SV) :
    (treeTup 0 xs).map (fun f => (f.2.1, f.2.2)) = xs.mapIdx fun i x => (({ val := (i : Int) } : Index), tree x) := by
  have h : ∀ (xs : List SV) (k : Nat), (treeTup k xs).map (fun f => (f.2.1, f.2.2)) =
      xs.mapIdx fun i x => (({ val := ((k + i : Nat) : Int) } : Index), tree x) := by
    intro xs
    induction xs with
    | nil => intro k; rfl
    | cons x xs ih =>
      intro k
      simp only [treeTup, List.map_cons, List.mapIdx_cons, ih, Nat.add_zero, List.cons.injEq, true_and]
      congr 1
      funext i x
      simp only [Nat.add_assoc, Nat.add_comm 1 i]
  have := h xs 0
  simpa only [Nat.zero_add] using this

/-- A struct with an enum, an option and a map in it. -/
def serdeExample : SV :=
  .struct (t! "S") 3
    [(t! "a", .tupleVariant (t! "E") 7 (t! "B") 2 [.some (.char 'x'), .bytes [1, 2]]),
     (t! "b", .map none [(.str (t! "k"), .seq none [.unit, .collectStr [t! "1", t! "2"]])]),
     (t! "c", .newtypeVariant (t! "E") 8 (t! "C") (.tuple 2 [.int .u8 1, .unitStruct (t! "U")]))]

example : tree serdeExample = .record { label := some (.new (t! "S")) } (some 3)
    [(none, .new (t! "a"), .enum { label := some (.new (t! "E")) }
        (.tuple { label := some (.new (t! "B")), index := some { val := 7 } } (some 2)
          [(none, { val := 0 }, .tagged someMeta (.text (some 1) [.computed (t! "x")])),
           (none, { val := 1 }, .binary (some 2) [.computed [1, 2]])])),
     (none, .new (t! "b"), .map none [(.text (some 1) [.computed (t! "k")],
        .seq none [.tag unitMeta, .text none [.computed (t! "1"), .computed (t! "2")]])]),
     (none, .new (t! "c"), .enum { label := some (.new (t! "E")) }
        (.tagged { label := some (.new (t! "C")), index := some { val := 8 } }
          (.tuple {} (some 2) [(none, { val := 0 }, .int .u8 1), (none, { val := 1 }, .tag { label := some (.new (t! "U")) })])))] := rfl

/-! ## C36 -/

/-- C36. Any serializer, also one that fails somewhere, does what it would have done without the way through
sval. The depth is that of the stack; errors are not told apart (`C51_fails`).

Missing: characters and displayed text become `serialize_str` (`asText`, `C36_fails`). -/
theorem C36_partial {τ : Type} (S : SCall Unit τ → τ → Res Unit τ) (v : SV) :
    ∃ N, ∀ d ≥ N, ∀ s, serialize () S d (prog (toValue v)) s = ser S (asText v) s := round_trip S v

/-- C36 for values without characters. -/
theorem C36_exact_partial {τ : Type} (S : SCall Unit τ → τ → Res Unit τ) (v : SV) (hv : asText v = v) :
    ∃ N, ∀ d ≥ N, ∀ s, serialize () S d (prog (toValue v)) s = ser S v s := by
  have := round_trip S v
  rwa [hv] at this

/-- A serializer that notes which method was called. -/
def noteChar : SCall Unit Bool → Bool → Res Unit Bool
  | .char _, _ => .ok true
  | _, s => .ok s

/-- C36 is false: a `char` is not serialized as a `char`. -/
theorem C36_fails : ∃ N, ∀ d ≥ N, ser noteChar (.char 'x') false = .ok true ∧
    serialize () noteChar d (prog (toValue (.char 'x'))) false = .ok false := by
  obtain ⟨N, h⟩ := C36_partial noteChar (.char 'x')
  exact ⟨N, fun d hd => ⟨rfl, (h d hd false).trans rfl⟩⟩

/-- A serializer that counts the calls. -/
def countCalls : SCall Unit Nat → Nat → Res Unit Nat := fun c n =>
  match c.arg with
  | none => .ok (n + 1)
  | some a => a (n + 1)

example : ser countCalls (asText serdeExample) 0 = .ok 30 := rfl
example : asText (.seq none [.unit, .struct (t! "S") 1 [(t! "f", .str (t! "x"))]]) = .seq none [.unit, .struct (t! "S") 1 [(t! "f", .str (t! "x"))]] := rfl

/-! ## C37 -/

/-- C37. Exactly the calls that are made for a value. -/
theorem C37_calls {ε τ : Type} (custom : ε) (S : SCall ε τ → τ → Res ε τ) (v : V) (hv : supported v = true) :
    ∃ N, ∀ d ≥ N, ∀ s, serialize custom S d (valueOf v) s = serV custom S v s := serialize_value custom S v hv

theorem supported_of_serializable (v : V) : (serializable v = true → supported v = true) ∧
    (serializableVariant v = true → Nested.variant false v = true ∧ supported v = true) := by
  have tup : ∀ fs : List (Option Tag × Index × V), (∀ f ∈ fs, serializable f.2.2 = true → supported f.2.2 = true) →
      serializableTup fs = true → Nested.supportedTup fs = true := by
    intro fs h
    induction fs with
    | nil => exact fun _ => rfl
    | cons f fs ih =>
      simp only [serializableTup, Nested.supportedTup, Bool.and_eq_true]
      exact fun ⟨h1, h2⟩ => ⟨h f (.head _) h1, ih (fun g hg => h g (.tail _ hg)) h2⟩
  have recs : ∀ (b : Bool) (fs : List (Option Tag × Label × V)), (∀ f ∈ fs, serializable f.2.2 = true → supported f.2.2 = true) →
      serializableRec b fs = true → Nested.supportedRec fs = true := by
    intro b fs h
    induction fs with
    | nil => exact fun _ => rfl
    | cons f fs ih =>
      simp only [serializableRec, Nested.supportedRec, Bool.and_eq_true]
      exact fun ⟨⟨_, h1⟩, h2⟩ => ⟨h f (.head _) h1, ih (fun g hg => h g (.tail _ hg)) h2⟩
  have rts : ∀ (b : Bool) (fs : List (Option Tag × Label × Index × V)), (∀ f ∈ fs, serializable f.2.2.2 = true → supported f.2.2.2 = true) →
      serializableRT b fs = true → Nested.supportedRT fs = true := by
    intro b fs h
    induction fs with
    | nil => exact fun _ => rfl
    | cons f fs ih =>
      simp only [serializableRT, Nested.supportedRT, Bool.and_eq_true]
      exact fun ⟨⟨_, h1⟩, h2⟩ => ⟨h f (.head _) h1, ih (fun g hg => h g (.tail _ hg)) h2⟩
  induction v using V.ind with
  | tag m => exact ⟨fun _ => rfl, fun _ => ⟨rfl, rfl⟩⟩
  | tagged m v ih =>
    simp only [serializable, serializableVariant, supported, Nested.variant, Bool.and_eq_true, true_and]
    exact ⟨fun h => ih.1 h.2, fun h => ih.1 h.2⟩
  | seq n xs ih =>
    refine ⟨?_, fun h => Bool.noConfusion h⟩
    simp only [serializable, supported]
    induction xs with
    | nil => exact fun _ => rfl
    | cons x xs ih' =>
      simp only [serializables, Nested.supportedSeq, Bool.and_eq_true]
      exact fun ⟨h1, h2⟩ => ⟨(ih x (.head _)).1 h1, ih' (fun g hg => ih g (.tail _ hg)) h2⟩
  | map n xs ih =>
    refine ⟨?_, fun h => Bool.noConfusion h⟩
    simp only [serializable, supported]
    induction xs with
    | nil => exact fun _ => rfl
    | cons x xs ih' =>
      simp only [serializableMap, Nested.supportedMap, Bool.and_eq_true]
      exact fun ⟨⟨h1, h2⟩, h3⟩ => ⟨⟨(ih x (.head _)).1.1 h1, (ih x (.head _)).2.1 h2⟩, ih' (fun g hg => ih g (.tail _ hg)) h3⟩
  | tuple m n fs ih =>
    simp only [serializable, serializableVariant, supported, Nested.variant, Bool.and_eq_true, Bool.not_false, true_and]
    have := tup fs fun f hf => (ih f hf).1
    exact ⟨fun h => this h.2, fun h => this h.2⟩
  | record m n fs ih =>
    simp only [serializable, serializableVariant, supported, Nested.variant, Bool.and_eq_true, Bool.not_false, true_and]
    have := fun b => recs b fs fun f hf => (ih f hf).1
    exact ⟨fun h => this _ h.2, fun h => this _ h.2⟩
  | recordTuple m n fs ih =>
    simp only [serializable, serializableVariant, supported, Nested.variant, Bool.and_eq_true, Bool.not_false, true_and]
    have := fun b => rts b fs fun f hf => (ih f hf).1
    exact ⟨fun h => this _ h.2, fun h => this _ h.2⟩
  | enum m v ih =>
    simp only [serializable, serializableVariant, supported, Bool.and_eq_true]
    exact ⟨fun h => ih.2 h.2, fun h => Bool.noConfusion h⟩
  | hint t v ih => exact ih
  | _ => exact ⟨fun _ => rfl, fun h => Bool.noConfusion h⟩

/-- C37. If a serializer accepts everything then it accepts any value in which
* what is tagged has a static label, or is `Some`, `None` or `()`,
* tuples and records have a length, and static labels or none,
* enums have a static label and hold one variant, with a static label and an index that fits in a `u32`

(`serializable`). Missing: everything else, `C37_exact` and `C37_fails`. -/
theorem C37_partial {ε τ : Type} (custom : ε) (S : SCall ε τ → τ → Res ε τ) (hS : Accepts S) (v : V) (hv : serializable v = true) :
    ∃ N, ∀ d ≥ N, ∀ s, ∃ s', serialize custom S d (valueOf v) s = .ok s' := by
  obtain ⟨N, h⟩ := C37_calls custom S v ((supported_of_serializable v).1 hv)
  refine ⟨N, fun d hd s => ?_⟩
  have := (always_serV (custom := custom) hS v).1
  rw [hv] at this
  rw [h d hd s]
  exact this s

/-- C37. And other values cannot be serialized, without a panic if `sval_nested` supports the value. -/
theorem C37_exact {ε τ : Type} (custom : ε) (S : SCall ε τ → τ → Res ε τ) (hS : Accepts S) (v : V) (hv : supported v = true)
    (hv' : serializable v = false) : ∃ N, ∀ d ≥ N, ∀ s, ∃ e s', serialize custom S d (valueOf v) s = .err e s' := by
  obtain ⟨N, h⟩ := C37_calls custom S v hv
  refine ⟨N, fun d hd s => ?_⟩
  have := (always_serV (custom := custom) hS v).1
  rw [hv'] at this
  rw [h d hd s]
  exact this s

/-- `impl<T: Value, const N: usize> Value for [T; N]`: `src/data/seq.rs:17-23`, of `[1u8, 2u8]`. -/
def arrayExample : V := .tagged { tag := some tags.CONSTANT_SIZE } (.seq (some 2) [.int .u8 1, .int .u8 2])

/-- C37 is false: an array is not serialized, by any serializer. -/
theorem C37_fails {ε τ : Type} (custom : ε) (S : SCall ε τ → τ → Res ε τ) :
    ∃ N, ∀ d ≥ N, ∀ s, serialize custom S d (valueOf arrayExample) s = .err custom s := by
  obtain ⟨N, h⟩ := C37_calls custom S arrayExample rfl
  exact ⟨N, fun d hd s => (h d hd s).trans rfl⟩

/-- The tuple of an enum in an enum panics, if the serializer does not: `C34_exact`. -/
theorem C37_panics {ε τ : Type} (custom : ε) (S : SCall ε τ → τ → Res ε τ) (d : Nat) (s : τ) :
    serialize custom S d (valueOf (.enum (named (t! "E")) (.enum (named (t! "F")) (.tuple {} (some 0) [])))) s = .panic := by
  cases d with
  | zero => rfl
  | succ d => rfl

theorem countCalls_accepts : Accepts countCalls := by
  intro c
  cases h : c.arg with
  | none => exact fun s => ⟨s + 1, by simp [countCalls, h]⟩
  | some a =>
    refine ⟨fun ha s => ?_, fun ha s => ?_⟩
    · obtain ⟨s', e⟩ := ha (s + 1); exact ⟨s', by simp [countCalls, h, e]⟩
    · obtain ⟨x, s', e⟩ := ha (s + 1); exact ⟨x, s', by simp [countCalls, h, e]⟩

/-- A record of options, tuples, maps and an enum. -/
def serializableExample : V :=
  .record (named (t! "S")) (some 3)
    [(none, .new (t! "a"), .tagged someMeta (.tuple {} (some 1) [(none, { val := 0 }, .text none [.computed (t! "x")])])),
     (none, .new (t! "b"), .map (some 1) [(.int .u8 1, .tag noneMeta)]),
     (none, .new (t! "c"), .enum (named (t! "E")) (.record (variantMeta 3 (t! "V")) (some 0) []))]

example : serializable serializableExample = true ∧ supported serializableExample = true := by decide +kernel
example : serializable arrayExample = false ∧ supported arrayExample = true := by decide +kernel
example : serV () countCalls serializableExample 0 = .ok 18 := rfl

/-! ## C51 -/

/-- A serializer that fails with its own error on bytes. -/
def failsOnBytes : SCall Text Unit → Unit → Res Text Unit := fun c s =>
  match c with
  | .bytes _ => .err (t! "no bytes") s
  | c => match c.arg with
    | none => .ok s
    | some a => a s

/-- C51 is false: the error of an element is replaced with an error about sval. -/
theorem C51_fails : ∃ N, ∀ d ≥ N,
    serialize (t! "sval") failsOnBytes d (valueOf (.seq none [.binary none [.borrowed [1]]])) () = .err (t! "sval") () ∧
    ser failsOnBytes (.seq none [.bytes [1]]) () = .err (t! "no bytes") () := by
  obtain ⟨N, h⟩ := C37_calls (t! "sval") failsOnBytes (.seq none [.binary none [.borrowed [1]]]) rfl
  exact ⟨N, fun d hd => ⟨(h d hd ()).trans rfl, rfl⟩⟩

/-- No elements. -/
def noElements : V → Bool
  | .seq _ xs => xs.isEmpty
  | .map _ kvs => kvs.isEmpty
  | .record _ _ fs => fs.isEmpty
  | .tuple _ _ fs => fs.isEmpty
  | .recordTuple _ _ fs => fs.isEmpty
  | .enum _ v => noElements v
  | .hint _ v => noElements v
  | .tagged _ v => noElements v
  | _ => true

theorem lossy_nil {ε τ : Type} (custom other : ε) (S : SCall ε τ → τ → Res ε τ) (b e : SCall ε τ) :
    lossy custom S b [] e = lossy other S b [] e := by
  funext s
  simp only [lossy]
  cases S b s <;> rfl

theorem serV_noElements {ε τ : Type} (custom other : ε) (S : SCall ε τ → τ → Res ε τ) (v : V) (hl : noElements v = true) :
    (serializable v = true → serV custom S v = serV other S v) ∧
    (serializableVariant v = true → ∀ name, serVariant custom S name v = serVariant other S name v) := by
  induction v using V.ind with
  | tag m =>
    refine ⟨?_, ?_⟩
    · simp only [serializable, serV, ← staticName_eq]
      intro h
      split
      · rfl
      · rename_i h1
        split
        · rfl
        · rename_i h2
          simp only [h1, h2, decide_false, Bool.false_or] at h
          cases hn : staticName m with
          | none => rw [hn] at h; exact Bool.noConfusion h
          | some n => rfl
    · simp only [serializableVariant, serVariant, ← variantOf_eq]
      intro h name
      cases hn : variantOf m with
      | none => rw [hn] at h; exact Bool.noConfusion h
      | some n => rfl
  | tagged m v ih =>
    have ih := ih hl
    refine ⟨?_, ?_⟩
    · simp only [serializable, serV, ← staticName_eq, Bool.and_eq_true]
      rintro ⟨h, h'⟩
      rw [ih.1 h']
      split
      · rfl
      · rename_i h1
        simp only [h1, decide_false, Bool.false_or] at h
        cases hn : staticName m with
        | none => rw [hn] at h; exact Bool.noConfusion h
        | some n => rfl
    · simp only [serializableVariant, serVariant, ← variantOf_eq, Bool.and_eq_true]
      rintro ⟨h, h'⟩ name
      rw [ih.1 h']
      cases hn : variantOf m with
      | none => rw [hn] at h; exact Bool.noConfusion h
      | some n => rfl
  | seq n xs ih =>
    simp only [noElements, List.isEmpty_iff] at hl
    subst hl
    exact ⟨fun _ => lossy_nil custom other S _ _, fun h => Bool.noConfusion h⟩
  | map n xs ih =>
    simp only [noElements, List.isEmpty_iff] at hl
    subst hl
    exact ⟨fun _ => lossy_nil custom other S _ _, fun h => Bool.noConfusion h⟩
  | tuple m n fs ih =>
    simp only [noElements, List.isEmpty_iff] at hl
    subst hl
    refine ⟨?_, ?_⟩
    · simp only [serializable, serV, serVTup]
      cases n with
      | none => exact fun h => Bool.noConfusion h
      | some n =>
        cases m.label with
        | none => exact fun _ => lossy_nil custom other S _ _
        | some l =>
          simp only [nameable, ← asStaticStr_eq]
          cases l.asStaticStr with
          | none => exact fun h => Bool.noConfusion h
          | some l => exact fun _ => lossy_nil custom other S _ _
    · simp only [serializableVariant, serVariant, serVTup, ← variantOf_eq]
      cases n with
      | none => cases variantOf m <;> exact fun h => Bool.noConfusion h
      | some n =>
        cases variantOf m with
        | none => exact fun h => Bool.noConfusion h
        | some l => exact fun _ _ => lossy_nil custom other S _ _
  | record m n fs ih =>
    simp only [noElements, List.isEmpty_iff] at hl
    subst hl
    refine ⟨?_, ?_⟩
    · simp only [serializable, serV, serVRec]
      cases n with
      | none => exact fun h => Bool.noConfusion h
      | some n =>
        cases m.label with
        | none => exact fun _ => lossy_nil custom other S _ _
        | some l =>
          simp only [nameable, ← asStaticStr_eq]
          cases l.asStaticStr with
          | none => exact fun h => Bool.noConfusion h
          | some l => exact fun _ => lossy_nil custom other S _ _
    · simp only [serializableVariant, serVariant, serVRec, ← variantOf_eq]
      cases n with
      | none => cases variantOf m <;> exact fun h => Bool.noConfusion h
      | some n =>
        cases variantOf m with
        | none => exact fun h => Bool.noConfusion h
        | some l => exact fun _ _ => lossy_nil custom other S _ _
  | recordTuple m n fs ih =>
    simp only [noElements, List.isEmpty_iff] at hl
    subst hl
    refine ⟨?_, ?_⟩
    · simp only [serializable, serV, serVRT]
      cases n with
      | none => exact fun h => Bool.noConfusion h
      | some n =>
        cases m.label with
        | none => exact fun _ => lossy_nil custom other S _ _
        | some l =>
          simp only [nameable, ← asStaticStr_eq]
          cases l.asStaticStr with
          | none => exact fun h => Bool.noConfusion h
          | some l => exact fun _ => lossy_nil custom other S _ _
    · simp only [serializableVariant, serVariant, serVRT, ← variantOf_eq]
      cases n with
      | none => cases variantOf m <;> exact fun h => Bool.noConfusion h
      | some n =>
        cases variantOf m with
        | none => exact fun h => Bool.noConfusion h
        | some l => exact fun _ _ => lossy_nil custom other S _ _
  | enum m v ih =>
    refine ⟨?_, fun h => Bool.noConfusion h⟩
    simp only [serializable, serV, ← staticName_eq, Bool.and_eq_true]
    rintro ⟨h, h'⟩
    cases hn : staticName m with
    | none => rw [hn] at h; exact Bool.noConfusion h
    | some n => exact (ih hl).2 h' n
  | hint t v ih => exact ih hl
  | _ => exact ⟨fun _ => rfl, fun h => Bool.noConfusion h⟩

/-- C51. Errors are only lost in containers that have elements: on the way to a value without elements, through
tags and variants, any serializer does the same with its own errors as with errors that
are not told apart.

Missing: containers with elements, `C51_exact`. What happens there is `C37_calls`. -/
theorem C51_partial {ε τ : Type} (custom : ε) (S : SCall ε τ → τ → Res ε τ) (v : V) (hl : noElements v = true) (hv : serializable v = true)
    (other : ε) :
    ∃ N, ∀ d ≥ N, ∀ s, serialize custom S d (valueOf v) s = serialize other S d (valueOf v) s := by
  obtain ⟨N, h⟩ := C37_calls custom S v ((supported_of_serializable v).1 hv)
  obtain ⟨M, h'⟩ := C37_calls other S v ((supported_of_serializable v).1 hv)
  refine ⟨max N M, fun d hd s => ?_⟩
  rw [h d (by omega) s, h' d (by omega) s, (serV_noElements custom other S v hl).1 hv]

example : noElements (.tagged someMeta (.tagged (named (t! "N")) (.binary none [.borrowed [1]]))) = true ∧
    serializable (.tagged someMeta (.tagged (named (t! "N")) (.binary none [.borrowed [1]]))) = true := by decide +kernel
example : serV (t! "sval") failsOnBytes (.tagged someMeta (.tagged (named (t! "N")) (.binary none [.borrowed [1]]))) () =
    .err (t! "no bytes") () := rfl

/-- A serializer that fails at anything but options and newtypes, with its own error. -/
def refuses {ε : Type} (e : ε) : SCall ε Unit → Unit → Res ε Unit
  | .some a | .newtypeStruct _ a | .newtypeVariant _ _ _ a => a
  | _ => fun s => .err e s

/-- If there are elements, its error is replaced. -/
theorem serV_elements {ε : Type} (custom e : ε) (v : V) (hl : noElements v = false) :
    serV custom (refuses e) v = bad custom ∧ ∀ name, serVariant custom (refuses e) name v = bad custom := by
  have lost : ∀ (b c : SCall ε Unit) (l : List (Unit → Res ε Unit)), (∀ s, refuses e b s = .err e s) → l ≠ [] →
      lossy custom (refuses e) b l c = bad custom := by
    intro b c l hb hn
    funext s
    simp only [lossy, hb, hn, if_false, bad]
  induction v using V.ind with
  | tagged m v ih =>
    have ih := ih hl
    refine ⟨?_, fun name => ?_⟩
    · simp only [serV, ih.1]
      split
      · rfl
      · split <;> rfl
    · simp only [serVariant, ih.1]
      split <;> rfl
  | seq n xs ih =>
    refine ⟨lost _ _ _ (fun _ => rfl) ?_, fun _ => rfl⟩
    cases xs
    · cases hl
    · nofun
  | map n xs ih =>
    refine ⟨lost _ _ _ (fun _ => rfl) ?_, fun _ => rfl⟩
    cases xs
    · cases hl
    · nofun
  | tuple m n fs ih =>
    cases fs
    · cases hl
    refine ⟨?_, fun name => ?_⟩
    · simp only [serV]
      split
      · rfl
      · exact lost _ _ _ (fun _ => rfl) nofun
      · split
        · rfl
        · exact lost _ _ _ (fun _ => rfl) nofun
    · simp only [serVariant]
      split
      · exact lost _ _ _ (fun _ => rfl) nofun
      · rfl
  | record m n fs ih =>
    cases fs
    · cases hl
    refine ⟨?_, fun name => ?_⟩
    · simp only [serV]
      split
      · rfl
      · exact lost _ _ _ (fun _ => rfl) nofun
      · split
        · rfl
        · exact lost _ _ _ (fun _ => rfl) nofun
    · simp only [serVariant]
      split
      · exact lost _ _ _ (fun _ => rfl) nofun
      · rfl
  | recordTuple m n fs ih =>
    cases fs
    · cases hl
    refine ⟨?_, fun name => ?_⟩
    · simp only [serV]
      split
      · rfl
      · exact lost _ _ _ (fun _ => rfl) nofun
      · split
        · rfl
        · exact lost _ _ _ (fun _ => rfl) nofun
    · simp only [serVariant]
      split
      · exact lost _ _ _ (fun _ => rfl) nofun
      · rfl
  | enum m v ih =>
    refine ⟨?_, fun _ => rfl⟩
    simp only [serV]
    split
    · rfl
    · exact (ih hl).2 _
  | hint t v ih => exact ⟨(ih hl).1, (ih hl).2⟩
  | _ => cases hl

/-- C51, exactly: all serializers get their own errors back from a value, whatever is used for errors that are not told apart, if and only if it
has no elements. -/
theorem C51_exact {ε : Type} (custom other : ε) (hne : custom ≠ other) (v : V) (hv : serializable v = true) :
    (∀ (τ : Type) (S : SCall ε τ → τ → Res ε τ), ∃ N, ∀ d ≥ N, ∀ s, serialize custom S d (valueOf v) s = serialize other S d (valueOf v) s) ↔
      noElements v = true := by
  refine ⟨fun h => ?_, fun h τ S => C51_partial custom S v h hv other⟩
  cases hl : noElements v with
  | true => rfl
  | false =>
    have hs := (supported_of_serializable v).1 hv
    obtain ⟨K, h⟩ := h Unit (refuses custom)
    obtain ⟨N, h1⟩ := C37_calls custom (refuses custom) v hs
    obtain ⟨M, h2⟩ := C37_calls other (refuses custom) v hs
    have := h (max K (max N M)) (by omega) ()
    rw [h1 _ (by omega), h2 _ (by omega), (serV_elements custom custom v hl).1, (serV_elements other custom v hl).1] at this
    simp only [bad, Res.err.injEq, and_true] at this
    exact absurd this hne

/-- `Some([1])` has an element, `Some([])` has not. -/
example : noElements (.tagged someMeta (.seq (some 1) [.int .u8 1])) = false ∧ noElements (.tagged someMeta (.seq (some 0) [])) = true ∧
    serializable (.tagged someMeta (.seq (some 1) [.int .u8 1])) = true ∧ serializable (.tagged someMeta (.seq (some 0) [])) = true ∧
    serialize (t! "custom") (refuses (t! "mine")) 9 (valueOf (.tagged someMeta (.seq (some 1) [.int .u8 1]))) () = .err (t! "custom") () ∧
    serialize (t! "custom") (refuses (t! "mine")) 9 (valueOf (.tagged someMeta (.seq (some 0) []))) () = .err (t! "mine") () := by decide +kernel

end Sval
